import Verif.Spec.YamlData
/-
Lists of mappings in YAML documents.
-/
namespace Verif.Spec
open Verif

/-- The keys of a mapping at column `w`, with the numbers of their lines; the first line of the mapping has number `i`. -/
def YMap.keyRows : Nat → Nat → YMap → List (Str × Nat)
  | _, _, .nil => []
  | w, i, .note _ r => r.keyRows w (i + 1)
  | w, i, .scalar k _ _ r => (k, i) :: r.keyRows w (i + 1)
  | w, i, .map k _ step v r => (k, i) :: r.keyRows w (i + 1 + (v.lines (w + step)).length)
  | w, i, .seq k _ step v r => (k, i) :: r.keyRows w (i + 1 + (v.lines (w + step)).length)
  | w, i, .text k ls r => (k, i) :: r.keyRows w (i + 1 + ls.length)

/-- The mappings of a sequence at column `w`, with the numbers of their first lines. -/
def YSeq.rowsAt : Nat → Nat → YSeq → List (Nat × YMap)
  | _, _, .nil => []
  | w, i, .note _ r => r.rowsAt w (i + 1)
  | w, i, .scalar _ _ r => r.rowsAt w (i + 1)
  | w, i, .map v r => (i, v) :: r.rowsAt w (i + (v.lines (w + 2)).length)

/-- All elements are mappings. -/
def YSeq.OnlyMaps : YSeq → Prop
  | .nil => True
  | .note _ r => r.OnlyMaps
  | .scalar _ _ _ => False
  | .map _ r => r.OnlyMaps

/-- All elements are scalars. -/
def YSeq.OnlyScalars : YSeq → Prop
  | .nil => True
  | .note _ r => r.OnlyScalars
  | .scalar _ _ r => r.OnlyScalars
  | .map _ _ => False

/-- The mappings that are entries of a mapping at column `w` beginning in line `i`: the key, the column, the number of the first line. -/
def YMap.subsAt : Nat → Nat → YMap → List (Str × Nat × Nat × YMap)
  | _, _, .nil => []
  | w, i, .note _ r => r.subsAt w (i + 1)
  | w, i, .scalar _ _ _ r => r.subsAt w (i + 1)
  | w, i, .map k _ step v r => (k, w + step, i + 1, v) :: r.subsAt w (i + 1 + (v.lines (w + step)).length)
  | w, i, .seq _ _ step v r => r.subsAt w (i + 1 + (v.lines (w + step)).length)
  | w, i, .text _ ls r => r.subsAt w (i + 1 + ls.length)

/-- The sequences that are entries, in the same way. -/
def YMap.seqsAt : Nat → Nat → YMap → List (Str × Nat × Nat × YSeq)
  | _, _, .nil => []
  | w, i, .note _ r => r.seqsAt w (i + 1)
  | w, i, .scalar _ _ _ r => r.seqsAt w (i + 1)
  | w, i, .map _ _ step v r => r.seqsAt w (i + 1 + (v.lines (w + step)).length)
  | w, i, .seq k _ step v r => (k, w + step, i + 1, v) :: r.seqsAt w (i + 1 + (v.lines (w + step)).length)
  | w, i, .text _ ls r => r.seqsAt w (i + 1 + ls.length)

/-- The sequence (with its column and first line) is found in the mapping (with its own) by following keys. No mapping on the way comes after one with the
same keys, in the same mapping, and the sequences before this one are those of scalars. -/
inductive InnerSeq : Nat → Nat → YMap → Nat → Nat → YSeq → Prop
  | last {w i w1 i1 : Nat} {m : YMap} {s : YSeq} {k : Str} {before after : List (Str × Nat × Nat × YSeq)} : m.seqsAt w i = before ++ (k, w1, i1, s) :: after →
      (∀ b ∈ before, b.2.2.2.OnlyScalars) → InnerSeq w i m w1 i1 s
  | step {w i w' i' w1 i1 : Nat} {m v : YMap} {s : YSeq} {k : Str} {before after : List (Str × Nat × Nat × YMap)} :
      m.subsAt w i = before ++ (k, w', i', v) :: after →
      (∀ b ∈ before, ¬ ∀ key, key ∈ b.2.2.2.items.map (·.1) ↔ key ∈ v.items.map (·.1)) → InnerSeq w' i' v w1 i1 s → InnerSeq w i m w1 i1 s

end Verif.Spec
