import Verif.Model.Yaml
import Verif.Lemmas.Split
/-
The suffix of file names.
-/
namespace Verif
open Spec

theorem split_lastChar {c : Char} {s : Str} (h : c ∈ s) : ∃ a b, s = a ++ c :: b ∧ c ∉ b := by
  induction s with
  | nil => cases h
  | cons d r ih =>
    by_cases hr : c ∈ r
    · obtain ⟨a, b, rfl, hb⟩ := ih hr
      exact ⟨d :: a, b, rfl, hb⟩
    · rcases List.mem_cons.mp h with rfl | h
      · exact ⟨[], r, rfl, hr⟩
      · exact absurd h hr

theorem pathSuffix_ends {name t : Str} (h : '.' ∉ t) (ht : t ≠ []) :
    endsWith (pathSuffix name) ('.' :: t) = true ↔ ∃ stem, stem ≠ [] ∧ name = stem ++ '.' :: t := by
  unfold endsWith
  rw [List.isSuffixOf_iff_suffix]
  constructor
  · intro hs
    by_cases hd : '.' ∈ name
    · obtain ⟨a, b, rfl, hb⟩ := split_lastChar hd
      unfold pathSuffix at hs
      rw [rfindChar_final hb] at hs
      simp only at hs
      split at hs
      · rename_i hc
        rw [List.drop_left] at hs
        rcases List.suffix_cons_iff.mp hs with e | e
        · cases e
          exact ⟨a, by rintro rfl; simp at hc, rfl⟩
        · exact absurd (e.subset (by simp)) hb
      · simp at hs
    · unfold pathSuffix at hs
      rw [rfindChar_absent hd] at hs
      simp at hs
  · rintro ⟨stem, h1, rfl⟩
    unfold pathSuffix
    rw [rfindChar_final h]
    have : 0 < stem.length := by cases stem <;> simp_all
    have : 0 < t.length := by cases t <;> simp_all
    simp only
    rw [if_pos ⟨by omega, by simp; omega⟩, List.drop_left]
    exact List.suffix_rfl

end Verif
