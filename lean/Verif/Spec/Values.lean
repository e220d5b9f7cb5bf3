import Verif.Model.Val
/-
Predicates on input values used in property statements.
-/
namespace Verif.Spec
open Verif

/-- A word: letters, digits and underscores. -/
def Word (U : Uni) (s : Str) : Prop := ∀ c ∈ s, U.isAlnum c = true ∨ c = '_'

/-- Changing the case of the letters and digits of `s` yields letters, digits and underscores again. True of every ASCII
string; false in Python for a few letters such as `ǰ`, whose upper case contains a combining mark. -/
def CaseSafe (U : Uni) (s : Str) : Prop :=
  ∀ c ∈ s, U.isAlnum c = true ∨ c = '_' → Word U (U.upper c) ∧ Word U (U.lower c) ∧ Word U (U.title c)

mutual
/-- `p` holds for every class, `q` for every key and `r` for every function in the value. -/
def ValAll (p : Ty → Prop) (q : Key → Prop) (r : FuncInfo → Prop) : Val → Prop
  | .inst t _ => p t
  | .func f => p f.ty ∧ r f
  | .cls m _ => p m
  | .module t => p t
  | .io t => p t
  | .ndarray t _ => p t
  | .seq _ t es => p t ∧ ValAllList p q r es
  | .map _ t ks vs => p t ∧ (∀ k ∈ ks, q k) ∧ ValAllList p q r vs
def ValAllList (p : Ty → Prop) (q : Key → Prop) (r : FuncInfo → Prop) : List Val → Prop
  | [] => True
  | v :: l => ValAll p q r v ∧ ValAllList p q r l
end

/-- A class whose name is a word that stays one when its case changes. -/
def TyOk (U : Uni) (t : Ty) : Prop := Word U t.name ∧ CaseSafe U t.name

/-- The text a key contributes to names stays a word when its case changes. -/
def KeyOk (U : Uni) : Key → Prop
  | .str s => CaseSafe U s
  | .none => True
  | .other t r => TyOk U t ∧ CaseSafe U r

/-- The signature of the function can be inspected, and if it is needed its source can be read. -/
def FuncOk (f : FuncInfo) : Prop :=
  f.sig ≠ .typeError ∧
  (∀ text n, f.sig = .ok text n → f.isLambda = false → contains py!"->" text = false → f.source ≠ .unavailable)

/-- Values without the exotic characters and functions that make generation fail. -/
def Ordinary (U : Uni) (v : Val) : Prop := ValAll (TyOk U) (KeyOk U) FuncOk v

mutual
/-- `p` holds for the value and every value inside it. -/
def Every (p : Val → Prop) : Val → Prop
  | .seq k t es => p (.seq k t es) ∧ EveryList p es
  | .map k t ks vs => p (.map k t ks vs) ∧ EveryList p vs
  | .inst t x => p (.inst t x)
  | .func f => p (.func f)
  | .cls m n => p (.cls m n)
  | .module t => p (.module t)
  | .io t => p (.io t)
  | .ndarray t d => p (.ndarray t d)
def EveryList (p : Val → Prop) : List Val → Prop
  | [] => True
  | v :: l => Every p v ∧ EveryList p l
end

/-- Class names and dtypes without `=`, and frames whose labels can all be written as literals. -/
def Printable : Val → Prop
  | .cls _ n => '=' ∉ n
  | .ndarray _ d => '=' ∉ d
  | .map (.frame i) _ _ _ => i.literalLabels = true
  | _ => True

/-- Ordinary values whose classes, arrays and frames can be written down: all values one meets in practice, except frames
with unusual labels and functions without source. -/
def Regular (U : Uni) (v : Val) : Prop := Ordinary U v ∧ Every Printable v

/-- The keys of a dictionary without those under which documentation is stored. -/
def visible (ks : List Str) : List Str := ks.filter (fun k => !startsWith k hiddenPrefix)

/-- A dictionary with string keys, as a list of items. -/
abbrev Dct := List (Str × Val)

/-- The dictionary as a value. -/
def dictOf (d : Dct) : Val := .map .dict .dict (d.map (fun kv => .str kv.1)) (d.map (·.2))

/-- Its visible keys. -/
def shown (d : Dct) : List Str := visible (d.map (·.1))

/-- No key occurs twice, as in every Python dictionary. -/
def IsDict (d : Dct) : Prop := (d.map (·.1)).Nodup

/-- The visible keys of several dictionaries, each once. -/
def allKeys (ds : List Dct) : List Str := dedup (ds.flatMap shown)

/-- The visible keys that every one of the dictionaries has. -/
def commonKeys (ds : List Dct) : List Str := (allKeys ds).filter (fun k => ds.all (fun d => (shown d).contains k))

/-- Where dictionaries share a key, the values have the same class. -/
def Agree (ds : List Dct) : Prop :=
  ∀ d ∈ ds, ∀ e ∈ ds, ∀ x ∈ d, ∀ y ∈ e, x.1 = y.1 → x.2.ty = y.2.ty

end Verif.Spec
