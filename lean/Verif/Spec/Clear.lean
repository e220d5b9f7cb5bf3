import Verif.Spec.Order
/-
Data in which the names of generated declarations cannot be confused.
-/
namespace Verif.Spec
open Verif

/-- Values that may be described by a declaration of their own: collections and functions. -/
def rich : Val → Bool
  | .seq .. | .map .. | .func _ => true
  | _ => false

/-- An ASCII text in camel case: letters and digits only, each run of them beginning with a capital. -/
def camelFrom (start : Bool) : Str → Str
  | [] => []
  | c :: r => if c.isAlphanum then (if start then c.toUpper else c) :: camelFrom false r else camelFrom true r

/-- What a key contributes to the names below it. -/
def keyName : Key → Str
  | .str s => camelFrom true s
  | _ => []

/-- A string key in ASCII that begins with a letter. -/
def AlphaKey : Key → Prop
  | .str s => (∃ c r, s = c :: r ∧ c.isAlpha = true) ∧ ∀ c ∈ s, isAscii c = true
  | _ => False

/-- `b` is `a`, possibly followed by a word that begins with a capital. -/
def Continues (a b : Str) : Prop := ∃ s, b = a ++ s ∧ (s = [] ∨ ∃ c r, s = c :: r ∧ c.isUpper = true)

/-- Names that cannot be confused, even if they are continued. -/
def Separate (a b : Str) : Prop := ¬ Continues a b ∧ ¬ Continues b a

/-- What a class contributes to the names of its instances: its name, capitalised, possibly with a number. -/
def ClassWord (t : Ty) (s : Str) : Prop :=
  ∃ c r ds, t.name = c :: r ∧ (∀ d ∈ ds, d.isDigit = true) ∧ s = c.toUpper :: (r.map Char.toLower ++ ds)

/-- The entries of a mapping that is no frame, without hidden keys. -/
def entries : Val → List (Key × Val)
  | .map (.frame _) _ _ _ => []
  | .map _ _ ks vs => (ks.zip vs).filter (fun kv => !kv.1.hidden)
  | _ => []

/-- The entries that may become entries of one declared class: those of a mapping, or of all mappings in a sequence. -/
def family : Val → List (Key × Val)
  | .map k t ks vs => entries (.map k t ks vs)
  | .seq _ _ es => es.flatMap entries
  | _ => []

/-- Sequences of different kinds, where sets and frozen sets count as one kind. -/
def otherKind (k k' : SeqKind) : Bool :=
  k ≠ k' && !(k == .set && k' == .frozenset) && !(k == .frozenset && k' == .set)

/-- A class occurs among the plain elements of the first list but not among those of the second. -/
def MoreClasses (es es' : List Val) : Prop :=
  ∃ e ∈ es, rich e = false ∧ ∀ e' ∈ es', rich e' = false → e'.ty ≠ e.ty

/-- Two collections or functions that are obviously not alike: they are of different kinds, or dictionaries (described by
TypedDicts) with different keys, or sequences of which one has a plain element of a class that the other has not. -/
def Apart (S : Strategies) : Val → Val → Prop
  | .seq k _ es, .seq k' _ es' => otherKind k k' = true ∨
      (k ≠ .tuple ∨ S.tuple = .anySize) ∧
        (MoreClasses (limit S.checkMax es) (limit S.checkMax es') ∨ MoreClasses (limit S.checkMax es') (limit S.checkMax es))
  | .map .dict _ ks vs, .map .dict _ ks' vs' => S.dict = .typedDict ∧
      ¬ ∀ k, k ∈ (entries (.map .dict .dict ks vs)).map (·.1) ↔ k ∈ (entries (.map .dict .dict ks' vs')).map (·.1)
  | .map .dict .., .map .proxy .. => True
  | .map .proxy .., .map .dict .. => True
  | .map (.frame _) .., .map .dict .. => True
  | .map (.frame _) .., .map .proxy .. => True
  | .map .dict .., .map (.frame _) .. => True
  | .map .proxy .., .map (.frame _) .. => True
  | .map .., .seq .. => True
  | .map .., .func _ => True
  | .seq .., .map .. => True
  | .seq .., .func _ => True
  | .func _, .seq .. => True
  | .func _, .map .. => True
  | _, _ => False

/-- Different keys with collections or functions contribute differently to names. -/
def KeysApart (G : List (Key × Val)) : Prop :=
  ∀ x ∈ G, ∀ y ∈ G, x.1 ≠ y.1 → rich x.2 = true → rich y.2 = true → Separate (keyName x.1) (keyName y.1)

/-- No two keys hold collections or functions that may be alike. -/
def Unlike (S : Strategies) (G : List (Key × Val)) : Prop :=
  ∀ x ∈ G, ∀ y ∈ G, x.1 ≠ y.1 → rich x.2 = true → rich y.2 = true → Apart S x.2 y.2

/-- The classes of collections and functions can be told from each other and from the keys by their contribution to names. -/
def ClassesApart (G : List (Key × Val)) : Prop :=
  ∀ x ∈ G, ∀ y ∈ G, rich x.2 = true → rich y.2 = true → ∀ s, ClassWord y.2.ty s →
    Separate s (keyName x.1) ∧ (x.2.ty ≠ y.2.ty → ¬ ClassWord x.2.ty s)

/-- At most one element of a tuple is described by a TypedDict. -/
def AtMostOneRecord (S : Strategies) (es : List Val) : Prop :=
  es.Pairwise (fun d e => ¬ (IsRecord S d ∧ IsRecord S e))

/-- Values whose mappings have keys that begin with a letter. The columns of a frame contribute differently to names. -/
def WellKeyed (S : Strategies) : Val → Prop
  | .map (.frame _) _ ks vs => ks.Nodup ∧ (∀ k ∈ ks, AlphaKey k) ∧ KeysApart (ks.zip vs)
  | .map _ _ ks vs => ks.Nodup ∧ ks.length = vs.length ∧ ∀ k ∈ ks, k.hidden = true ∨ AlphaKey k
  | .seq .tuple _ es => S.tuple = .fixed → (es.filter rich).Pairwise (Apart S) ∧ AtMostOneRecord S es
  | _ => True

/-- Data whose declarations get different names: the keys of every mapping contribute differently to names, and where keys
hold values that may be alike, the classes can be told from the keys and nothing inside these values may be alike. -/
def ClearNames (S : Strategies) (v : Val) : Prop :=
  Every (fun w => WellKeyed S w ∧ KeysApart (family w) ∧
    (Unlike S (family w) ∨ ClassesApart (family w) ∧ ∀ x ∈ family w, Every (fun u => Unlike S (family u)) x.2)) v

end Verif.Spec
