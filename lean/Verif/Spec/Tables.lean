import Verif.Model.Tables
import Verif.Spec.Frames
/-
Properties of the labels of a data frame.
-/
namespace Verif.Spec
open Verif

/-- The keys of a label, one per level. -/
def keysOf : ColLabel → List Key
  | .plain k => [k]
  | .levels k r => k :: r

/-- All labels have `n + 1` levels; without a second level they are plain keys. -/
def Levels (n : Nat) (t : Table) : Prop := ∀ c ∈ t, match c.1 with
  | .plain _ => n = 0
  | .levels _ r => r.length = n ∧ n ≠ 0

/-- All keys are strings, integers and truth values. -/
def LiteralTable (t : Table) : Prop := ∀ c ∈ t, ∀ k ∈ keysOf c.1, literalOf id k ≠ none

/-- No two columns have the same label. -/
def DistinctLabels (t : Table) : Prop := (t.map (·.1)).Nodup

/-- Two columns have the same label. -/
def RepeatedLabel (t : Table) : Prop := ∃ l v w, [(l, v), (l, w)].Sublist t

/-- What `repr` says of tuples of such keys tells them apart. -/
def TupleRepr (rt : Key → List Key → Str) (P : Key → Prop) : Prop := ∀ k r k' r', (∀ x ∈ k :: r, P x) → (∀ x ∈ k' :: r', P x) →
  rt k r = rt k' r' → k = k' ∧ r = r'

/-- All keys are such keys, and none is a tuple. -/
def FlatTable (P : Key → Prop) (t : Table) : Prop := ∀ c ∈ t, ∀ k ∈ keysOf c.1, P k ∧ ∀ r, k ≠ .other .tuple r

end Verif.Spec
