import Verif.Spec.Types
/-
Values of the same shape, and the data for which soundness of the hint is claimed.
-/
namespace Verif.Spec
open Verif

/-- Two values have the same shape: scalars of the same class; tuples with elements of the same shapes in the same places;
other collections of the same kind whose elements have the same shapes, in any order and number; dictionaries with the
same keys and, under each key, values of the same shape. The relation `R` matches elements of the two collections. -/
inductive SameShape : Val → Val → Prop
  | inst {t x y} : SameShape (.inst t x) (.inst t y)
  | tuple {t t' es es'} : es.length = es'.length → (∀ p ∈ es.zip es', SameShape p.1 p.2) →
      SameShape (.seq .tuple t es) (.seq .tuple t' es')
  | seq {k t t' es es'} (R : Val → Val → Prop) : k ≠ .tuple → (∀ a b, R a b → SameShape a b) →
      (∀ e ∈ es, ∃ e' ∈ es', R e e') → (∀ e' ∈ es', ∃ e ∈ es, R e e') → SameShape (.seq k t es) (.seq k t' es')
  | dict {t t' ks vs ks' vs'} (R : Val → Val → Prop) : ks.length = vs.length → ks'.length = vs'.length →
      (∀ a b, R a b → SameShape a b) →
      (∀ kv ∈ ks.zip vs, ∃ w, (kv.1, w) ∈ ks'.zip vs' ∧ R kv.2 w) →
      (∀ kw ∈ ks'.zip vs', ∃ v, (kw.1, v) ∈ ks.zip vs ∧ R v kw.2) →
      SameShape (.map .dict t ks vs) (.map .dict t' ks' vs')

/-- A dictionary that is described by a TypedDict. -/
def IsRecord (S : Strategies) : Val → Prop
  | .map .dict _ ks _ => S.dict = .typedDict ∧ ∀ k ∈ ks, k.isStr = true
  | _ => False

/-- No more elements than are inspected. -/
def Inspected (S : Strategies) (n : Nat) : Prop := S.checkMax = 0 ∨ n ≤ S.checkMax

/-- Plain data built with one kind `κ` of collection, besides tuples of fixed size and dictionaries. Every element is
inspected, dictionaries are not empty, and dictionaries that stand in the same sequence have the same shape if they are
described by TypedDicts. -/
def Tame (S : Strategies) (κ : SeqKind) (v : Val) : Prop :=
  Every (fun w => match w with
    | .inst _ _ => True
    | .seq k _ es => (k = κ ∨ (k = .tuple ∧ S.tuple = .fixed)) ∧ Inspected S es.length ∧
        ∀ d ∈ es, ∀ e ∈ es, IsRecord S d → IsRecord S e → SameShape d e
    | .map .dict t ks vs => ks ≠ [] ∧ ks.Nodup ∧ ks.length = vs.length ∧ Key.none ∉ ks ∧ (∀ k ∈ ks, k.hidden = false) ∧
        (S.dict = .typedDict ∨ Inspected S ks.length) ∧ (S.keyDoc = [] ∨ Key.str S.keyDoc ∉ ks) ∧
        t.name ≠ py!"mappingproxy"
    | _ => False) v

/-- Where dictionaries share a key, the values have the same shape. -/
def SharedShapes (ds : List Dct) : Prop :=
  ∀ d ∈ ds, ∀ e ∈ ds, ∀ x ∈ d, ∀ y ∈ e, x.1 = y.1 → SameShape x.2 y.2

/-- ASCII letters and digits. -/
def asciiAlnum (c : Char) : Bool := isAscii c && c.isAlphanum

/-- A name in camel case: ASCII letters and digits, the first of which is an upper-case letter. -/
def CamelName (s : Str) : Prop := ∃ c r, s = c :: r ∧ c.isUpper = true ∧ ∀ d ∈ s, asciiAlnum d = true

/-- Class names of ASCII letters and digits. -/
def NeatTy (t : Ty) : Prop := t.name ≠ [] ∧ ∀ c ∈ t.name, asciiAlnum c = true

/-- Keys in ASCII that need no escaping between quotes. -/
def NeatKey : Key → Prop
  | .str s => ∀ c ∈ s, isAscii c = true ∧ c ≠ '"' ∧ c ≠ '\\' ∧ c ≠ '\n' ∧ c ≠ '\r'
  | .none => True
  | .other t r => NeatTy t ∧ ∀ c ∈ r, isAscii c = true

/-- Values all of whose classes and keys are neat. -/
def Neat (v : Val) : Prop := ValAll NeatTy NeatKey (fun _ => True) v

/-- A class given as a value does not begin with `name`. -/
def FreshClass (name : Str) : Val → Prop
  | .cls _ n => ¬ name <+: n
  | _ => True

/-- No identifier that hints are written with and no class in the data begins with `name`. -/
def Fresh (name : Str) (v : Val) : Prop :=
  (∀ n ∈ py!"int" :: py!"str" :: py!"dict" :: typingNames, ¬ name <+: n) ∧
  ValAll (fun t => ¬ name <+: t.name) (fun k => ¬ name <+: k.ty.name) (fun _ => True) v ∧ Every (FreshClass name) v

end Verif.Spec
