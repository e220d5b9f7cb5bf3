import Verif.Spec.YamlData
/-
Mappings inside the mappings of YAML documents.
-/
namespace Verif.Spec
open Verif

/-- The mappings that are entries of a mapping at column `w`: the key, and the column. -/
def YMap.subs : Nat → YMap → List (Str × Nat × YMap)
  | _, .nil => []
  | w, .note _ r => r.subs w
  | w, .scalar _ _ _ r => r.subs w
  | w, .map k _ step v r => (k, w + step, v) :: r.subs w
  | w, .seq _ _ _ _ r => r.subs w
  | w, .text _ _ r => r.subs w

/-- The mapping at column `w` is, or has inside it below keys only, the second mapping at the second column. No mapping on the way comes after
one with the same keys, in the same mapping. -/
inductive InnerMap : Nat → YMap → Nat → YMap → Prop
  | here (w : Nat) (m : YMap) : InnerMap w m w m
  | step {w w' w1 : Nat} {m v m1 : YMap} {k : Str} {before after : List (Str × Nat × YMap)} : m.subs w = before ++ (k, w', v) :: after →
      (∀ s ∈ before, ¬ ∀ key, key ∈ s.2.2.items.map (·.1) ↔ key ∈ v.items.map (·.1)) → InnerMap w' v w1 m1 → InnerMap w m w1 m1

end Verif.Spec
