import Verif.Model.Reads
import Verif.Spec.Values
/-
Which iterators are read, and how far.
-/
namespace Verif.Spec
open Verif

mutual
/-- The data in which every iterator is the list of its elements. -/
def plain : Val → Val
  | .seq .iterator t es => .seq .iterator t (iterElems (plains es))
  | .seq k t es => .seq k t (plains es)
  | .map k t ks vs => .map k t ks (plains vs)
  | v => v
def plains : List Val → List Val
  | [] => []
  | v :: r => plain v :: plains r
end

mutual
/-- The numbers of all iterators. -/
def iterators : Val → List Nat
  | .seq .iterator _ es => iterNumber es :: iteratorsAll es
  | .seq _ _ es => iteratorsAll es
  | .map _ _ _ vs => iteratorsAll vs
  | _ => []
def iteratorsAll : List Val → List Nat
  | [] => []
  | v :: r => iterators v ++ iteratorsAll r
end

/-- The value `w` is visited when the hint of `v` is made. -/
inductive Visited (S : Strategies) (w : Val) : Val → Prop
  | here : Visited S w w
  | yielded {t es e} : e ∈ limit S.checkMax (iterElems es) → Visited S w e → Visited S w (.seq .iterator t es)
  | element {k t es e} : k ≠ .iterator → e ∈ limit S.checkMax es → Visited S w e → Visited S w (.seq k t es)
  | value {t ks vs e} : e ∈ dictData S (ks.zip vs) → e.1.hidden = false → Visited S w e.2 → Visited S w (.map .dict t ks vs)
  | proxied {t ks vs e} : e ∈ limit S.checkMax (ks.zip vs) → e.1.hidden = false → Visited S w e.2 → Visited S w (.map .proxy t ks vs)
  | column {i t ks vs e} : e ∈ ks.zip vs → Visited S w e.2 → Visited S w (.map (.frame i) t ks vs)

/-- No iterator can be read twice: every one occurs at one place, and none in dictionaries that are elements of a sequence and are
described by TypedDicts. -/
structure ReadOnce (S : Strategies) (v : Val) : Prop where
  once : (iterators v).Nodup
  numbered : Every (fun w => match w with
    | .seq .iterator _ es => ∃ r rest, es = numberMark r :: rest
    | _ => True) v
  outside : Every (fun w => match w with
    | .seq _ _ es => ∀ t ks vs, Val.map .dict t ks vs ∈ es → S.dict = .typedDict → (∀ kv ∈ ks.zip vs, kv.1.isStr = true) → iteratorsAll vs = []
    | _ => True) v

end Verif.Spec
