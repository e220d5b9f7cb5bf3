import Verif.Spec.Types
/-
Sequences in which dictionaries stand next to other values.
-/
namespace Verif.Spec
open Verif

/-- The dictionary that a value is, if it is a plain dictionary whose keys are all strings. -/
def asDct : Val → Option Dct
  | .map .dict t ks vs => if t = .dict ∧ ∀ k ∈ ks, k.isStr = true then
      some ((ks.zip vs).filterMap fun kv => match kv.1 with
        | .str s => some (s, kv.2)
        | _ => none)
    else none
  | _ => none

/-- The dictionaries among the elements. -/
def dictsIn (es : List Val) : List Dct := es.filterMap asDct

/-- Not a dictionary, or one with a key that is no string. -/
def NotRecord : Val → Prop
  | .map .dict _ ks vs => ∃ x ∈ ks.zip vs, x.1.isStr = false
  | _ => True

/-- Every element is a dictionary whose keys are strings, none of them twice, or no such dictionary at all. -/
def Mixed (es : List Val) : Prop := ∀ v ∈ es, (∃ d, IsDict d ∧ v = dictOf d) ∨ NotRecord v

/-- The texts declare a TypedDict `X` for the dictionaries `ds`. -/
def RecordFor (texts : List Str) (X : Str) (ds : List Dct) : Prop :=
  ∃ f doc es, (TDecl.mk X (.record f doc es)).print ∈ texts ∧ Describes es ds

/-- The type has an alternative `X`. -/
def Alternative (t : TExpr) (X : Str) : Prop := ∃ ts, t = unionOf ts ∧ X ∈ ts.map TExpr.print

/-- One alternative of the type is a TypedDict for all of `ds`. -/
def OneAmong (texts : List Str) (t : TExpr) (ds : List Dct) : Prop := ∃ X, Alternative t X ∧ RecordFor texts X ds

/-- Each of `ds` has a TypedDict for itself among the alternatives of the type. -/
def EachAmong (texts : List Str) (t : TExpr) (ds : List Dct) : Prop := ∀ d ∈ ds, ∃ X, Alternative t X ∧ RecordFor texts X [d]

/-- In the places of the dictionaries the types of a tuple name one and the same TypedDict, which is for all of them. -/
def OnePlaced (texts : List Str) (ts : List TExpr) (es : List Val) : Prop :=
  ∃ X, RecordFor texts X (dictsIn es) ∧ ∀ (i : Nat) (d : Dct), es[i]? = some (dictOf d) → ts[i]? = some (TExpr.name X)

/-- In the place of each dictionary the types of a tuple name a TypedDict for that dictionary. -/
def EachPlaced (texts : List Str) (ts : List TExpr) (es : List Val) : Prop :=
  ∀ (i : Nat) (d : Dct), es[i]? = some (dictOf d) → ∃ X, RecordFor texts X [d] ∧ ts[i]? = some (TExpr.name X)

/-- One of two things holds of dictionaries with at least one key, the first if at least `p` percent of their keys are
common to all of them, the second if not. The shares of exactly 29, 57 and 58 percent are left out (see `merge_threshold_fails`), and
so are dictionaries with 2^40 keys. -/
def ByThreshold (p : Nat) (ds : List Dct) (similar different : Prop) : Prop :=
  allKeys ds ≠ [] → (allKeys ds).length < 2 ^ 40 → (p ∉ [29, 57, 58] ∨ p * (allKeys ds).length ≠ 100 * (commonKeys ds).length) →
    (p * (allKeys ds).length ≤ 100 * (commonKeys ds).length → similar) ∧
    (100 * (commonKeys ds).length < p * (allKeys ds).length → different)

end Verif.Spec
