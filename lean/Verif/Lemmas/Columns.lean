import Verif.Model.Frames
import Verif.Lemmas.Keyed
/-
What is known of the labels that are visited in a data frame.
-/
namespace Verif
open Verif.Spec

theorem visited_nil {cs : List Label} (h : compatibleLabels cs = false) : visitedLabels cs = [] := by
  unfold visitedLabels
  rw [h]
  rfl

/-- With a literal label in every column all visited labels are literals. -/
theorem visited_literal {cs : List Label} (h : literalColumns cs = true) : ∀ k ∈ visitedLabels cs, literalKey k = true := by
  intro k hk
  unfold visitedLabels at hk
  unfold literalColumns at h
  split at hk
  · cases hk
  split at hk
  · cases hk
  split at h
  · rename_i ht
    rw [if_pos ht] at hk
    obtain ⟨c, hc, rfl⟩ := List.mem_map.mp (mem_dedup.mp hk)
    exact List.all_eq_true.mp h c hc
  · rename_i ht
    rw [if_neg ht] at hk
    obtain ⟨c, hc, rfl⟩ := List.mem_map.mp (mem_dedup.mp hk)
    have := List.all_eq_true.mp h c hc
    cases c with
    | single k => simpa [Label.isTuple, Label.first, Label.key] using this
    | tuple f r s => simp [Label.isTuple] at this

/-- If any labels are visited, one of them is a literal. -/
theorem visited_some {cs : List Label} (h : visitedLabels cs ≠ []) : ∃ k ∈ visitedLabels cs, literalKey k = true := by
  have hc : compatibleLabels cs = true := by
    cases hc : compatibleLabels cs with
    | true => rfl
    | false => exact absurd (visited_nil hc) h
  unfold visitedLabels at h ⊢
  rw [hc] at h ⊢
  simp only [Bool.not_true, Bool.false_eq_true, if_false] at h ⊢
  split at h
  · exact absurd rfl h
  rename_i hl
  rw [if_neg hl]
  have hne : cs ≠ [] := by rintro rfl; exact hl rfl
  have hall := List.all_eq_true.mp hc
  split
  · obtain ⟨c, r, rfl⟩ := List.exists_cons_of_ne_nil hne
    exact ⟨c.first, mem_dedup.mpr (by simp), hall c (by simp)⟩
  · rename_i ht
    obtain ⟨c, hcm, hct⟩ : ∃ c ∈ cs, c.isTuple = false := by simpa using ht
    refine ⟨c.key, mem_dedup.mpr (List.mem_map_of_mem hcm), ?_⟩
    cases c with
    | single k => exact hall _ hcm
    | tuple f r s => cases hct

/-- A frame that gets no declaration of its own has no columns, or a tuple among its labels. -/
theorem visited_mixed {cs : List Label} (h : literalColumns cs = false) (hv : visitedLabels cs ≠ []) : ∃ k ∈ visitedLabels cs, literalKey k = false := by
  have hc : compatibleLabels cs = true := by
    cases hc : compatibleLabels cs with
    | true => rfl
    | false => exact absurd (visited_nil hc) hv
  have hall := List.all_eq_true.mp hc
  unfold literalColumns at h
  split at h
  · exact absurd (hc.symm.trans h) (by decide)
  rename_i ht
  obtain ⟨c, hcm, hct⟩ : ∃ c ∈ cs, (!c.isTuple && literalKey c.first) = false := by
    rw [List.all_eq_false] at h
    obtain ⟨c, hcm, hct⟩ := h
    exact ⟨c, hcm, by simpa using hct⟩
  have hl : cs.all Label.lone = false := by
    rw [List.all_eq_false]
    rw [Bool.not_eq_true, List.all_eq_false] at ht
    obtain ⟨d, hd, hdt⟩ := ht
    refine ⟨d, hd, ?_⟩
    cases d with
    | single k => simp [Label.lone]
    | tuple f r s => simp [Label.isTuple] at hdt
  refine ⟨c.key, ?_, ?_⟩
  · unfold visitedLabels
    rw [hc, hl]
    simp only [Bool.not_true, Bool.false_eq_true, if_false]
    rw [if_neg ht]
    exact mem_dedup.mpr (List.mem_map_of_mem hcm)
  · cases c with
    | single k => simp [Label.isTuple, hall _ hcm] at hct
    | tuple f r s => simp [Label.key, literalKey, Ty.tuple, Ty.int, Ty.bool]

mutual
theorem every_and {p q : Val → Prop} : ∀ (v : Val), Every p v → Every q v → Every (fun w => p w ∧ q w) v
  | .inst _ _, hp, hq | .func _, hp, hq | .cls _ _, hp, hq | .module _, hp, hq | .io _, hp, hq | .ndarray _ _, hp, hq => by
    simp only [Every] at hp hq ⊢; exact ⟨hp, hq⟩
  | .seq _ _ es, hp, hq => by simp only [Every] at hp hq ⊢; exact ⟨⟨hp.1, hq.1⟩, everyList_and es hp.2 hq.2⟩
  | .map _ _ _ vs, hp, hq => by simp only [Every] at hp hq ⊢; exact ⟨⟨hp.1, hq.1⟩, everyList_and vs hp.2 hq.2⟩
theorem everyList_and {p q : Val → Prop} : ∀ (l : List Val), EveryList p l → EveryList q l → EveryList (fun w => p w ∧ q w) l
  | [], _, _ => trivial
  | v :: l, hp, hq => ⟨every_and v hp.1 hq.1, everyList_and l hp.2 hq.2⟩
end

/-- The labels of a frame that gets a declaration in any case are literals. -/
theorem read_labels {U : Uni} {v : Val} (hv : Regular U v) (hr : Every ReadFrame v) : Every (LabelsOk (fun k => literalKey k = true)) v := by
  refine every_imp ?_ _ (every_and v hv.2 hr)
  intro w hw
  unfold LabelsOk
  split
  · obtain ⟨h1, text, cs, get, e⟩ := hw
    injection e with e1 _ e2 _
    injection e1 with e1
    rw [e2]
    refine visited_literal ?_
    have h1 : _ = true := h1
    rw [e1] at h1
    exact h1
  · trivial

end Verif
