import Verif.Spec.Types
import Verif.Spec.Matches
/-
Rows: dictionaries with string keys whose values are plain instances, as in a table.
-/
namespace Verif.Spec
open Verif

/-- A dictionary with at least one key, each of them once. Its values are plain instances other than `None`. -/
def IsRow (d : Dct) : Prop := IsDict d ∧ d ≠ [] ∧ ∀ kv ∈ d, ∃ c x, kv.2 = .inst c x ∧ c ≠ .noneType

/-- `Entered ds s c`: one of the rows has an instance of the class `c` under the key `s`. -/
def Entered (ds : List Dct) (s : Str) (c : Ty) : Prop := ∃ d ∈ ds, ∃ x, (s, .inst c x) ∈ d

/-- `InTable ds w`: the value is a dictionary with keys of the rows `ds` only, among them all keys that every row has. Under each
of its keys it has a value of the class that the rows have there. -/
def InTable (ds : List Dct) (w : Val) : Prop :=
  ∃ t ks vs, w = .map .dict t ks vs ∧ (∀ k ∈ ks, ∃ d ∈ ds, k ∈ d.map (fun kv => Key.str kv.1)) ∧
    (∀ k, (∀ d ∈ ds, k ∈ d.map (fun kv => Key.str kv.1)) → k ∈ ks) ∧
    ∀ kw ∈ ks.zip vs, ∀ s c, kw.1 = .str s → Entered ds s c → Admits [] (.name c.name) kw.2

/-- The sequences whose elements have the property `P`, of the kind `k` or described like it. -/
def SequenceOf (S : Strategies) (k : SeqKind) (P : Val → Prop) (w : Val) : Prop :=
  ∃ k' t es, w = .seq k' t es ∧ SeqLike S k k' ∧ ∀ e ∈ es, P e

/-- The share of keys that all rows have reaches the threshold for merging. -/
def ShareReached (S : Strategies) (ds : List Dct) : Prop := S.merge * (allKeys ds).length ≤ 100 * (commonKeys ds).length

end Verif.Spec
