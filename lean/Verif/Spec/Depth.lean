import Verif.Spec.Shape
/-
How deeply data is nested, as far as it is inspected.
-/
namespace Verif.Spec
open Verif

/-- The largest number of a list, `0` for the empty list. -/
def maxOf (l : List Nat) : Nat := l.foldr max 0

/-- The entries of a mapping that are inspected: dictionaries described by TypedDicts and frames are read completely,
other mappings up to the limit, and documentation is left out. -/
def inspectedItems {α} (S : Strategies) (k : MapKind) (items : List (Key × α)) : List (Key × α) :=
  match k with
  | .frame _ => items
  | .proxy => (limit S.checkMax items).filter (fun kv => !kv.1.hidden)
  | .dict => (if S.dict = .typedDict then items else limit S.checkMax items).filter (fun kv => !kv.1.hidden)

mutual
/-- Nesting depth of the inspected part of a value: `0` for everything that is not a collection. -/
def nesting (S : Strategies) : Val → Nat
  | .seq _ _ es => 1 + maxOf (limit S.checkMax (nestings S es))
  | .map k _ ks vs => 1 + maxOf ((inspectedItems S k (ks.zip (nestings S vs))).map (·.2))
  | _ => 0
def nestings (S : Strategies) : List Val → List Nat
  | [] => []
  | v :: r => nesting S v :: nestings S r
end

/-- No frames, no `None` keys, and where two records of the same sequence share a key, the values under it are equally
deep. -/
def Level (S : Strategies) (v : Val) : Prop :=
  Every (fun w => match w with
    | .seq _ _ es => ∀ d ∈ es, ∀ e ∈ es, IsRecord S d → IsRecord S e → ∀ x ∈ d.items, ∀ y ∈ e.items, x.1 = y.1 →
        nesting S x.2 = nesting S y.2
    | .map (.frame _) _ _ _ => False
    | .map _ _ ks vs => ks.Nodup ∧ ks.length = vs.length ∧ Key.none ∉ ks
    | _ => True) v

end Verif.Spec
