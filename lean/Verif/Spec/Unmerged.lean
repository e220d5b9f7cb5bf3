import Verif.Spec.Steady
/-
Data in which no two different dictionaries of a sequence are merged.
-/
namespace Verif.Spec
open Verif

/-- The keys of a dictionary that become fields of its TypedDict. -/
def fieldsOf : Val → List Key
  | .map .dict _ ks _ => ks.filter (fun k => !k.hidden)
  | _ => []

/-- The fields that both dictionaries have, each once. -/
def sharedFields (v w : Val) : List Key := (dedup (fieldsOf v)).filter (fun k => (fieldsOf w).contains k)

/-- The fields of two dictionaries, each once. -/
def allFields (v w : Val) : List Key := dedup (fieldsOf v ++ fieldsOf w)

/-- Dictionaries that differ too much to be merged: the share of common fields is at least one percent below the limit. -/
def Dissimilar (S : Strategies) (v w : Val) : Prop := 100 * (sharedFields v w).length ≤ (S.merge - 1) * (allFields v w).length

/-- Data in which any two dictionaries of a sequence, at different places, that are described by TypedDicts are alike or differ too much to be merged;
sequences here are all sequences and sets but tuples of fixed size. The keys of mappings are distinct. -/
def Unmerged (S : Strategies) (v : Val) : Prop :=
  Every (fun w => match w with
    | .seq k _ es => ¬ (k = .tuple ∧ S.tuple = .fixed) → (limit S.checkMax es).Pairwise (fun e e' =>
        IsRecord S e → IsRecord S e' → Dissimilar S e e' ∨ (Like S e e' ∧ Uniform S e ∧ Uniform S e' ∧ Steady S e ∧ Steady S e'))
    | .map _ _ ks vs => ks.Nodup ∧ ks.length = vs.length
    | _ => True) v

end Verif.Spec
