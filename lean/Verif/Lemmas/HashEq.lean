import Verif.Lemmas.Share
import Verif.Lemmas.Merge
/-
Equality of trees is an equivalence relation.
-/
namespace Verif
open Verif.Spec

mutual
theorem eqv_refl : ∀ (a : H), H.eqv a a = true
  | .ty _ => by simp [H.eqv]
  | .str _ => by simp [H.eqv]
  | .set l => by
    rw [eqv_set]
    exact ⟨fun x hx => ⟨x, hx, eqv_refl_mem l x hx⟩, fun x hx => ⟨x, hx, eqv_refl_mem l x hx⟩⟩
  | .tup l => by simp only [H.eqv]; exact eqvList_refl l
  | .mapping t h => by simp [H.eqv, eqv_refl h]
  | .typed k h => by simp [H.eqv, eqv_refl h]
theorem eqv_refl_mem : ∀ (l : List H), ∀ x ∈ l, H.eqv x x = true
  | [], _, h => by simp at h
  | y :: r, x, h => by
    rcases List.mem_cons.mp h with e | h
    · rw [e]; exact eqv_refl y
    · exact eqv_refl_mem r x h
theorem eqvList_refl : ∀ (l : List H), H.eqvList l l = true
  | [] => by simp [H.eqvList]
  | y :: r => by simp [H.eqvList, eqv_refl y, eqvList_refl r]
end

mutual
theorem eqv_symm : ∀ (a b : H), H.eqv a b = true → H.eqv b a = true
  | .ty _, b, h => by cases b <;> simp_all [H.eqv]
  | .str _, b, h => by cases b <;> simp_all [H.eqv]
  | .set l, b, h => by
    cases b with
    | set l' =>
      rw [eqv_set] at h ⊢
      refine ⟨fun y hy => ?_, fun x hx => ?_⟩
      · obtain ⟨x, hx, e⟩ := h.2 y hy
        exact ⟨x, hx, eqv_symm_mem l x hx y e⟩
      · obtain ⟨y, hy, e⟩ := h.1 x hx
        exact ⟨y, hy, eqv_symm_mem l x hx y e⟩
    | _ => simp [H.eqv] at h
  | .tup l, b, h => by
    cases b with
    | tup l' => simp only [H.eqv] at h ⊢; exact eqvList_symm l l' h
    | _ => simp [H.eqv] at h
  | .mapping t x, b, h => by
    cases b with
    | mapping t' y =>
      simp only [H.eqv, Bool.and_eq_true, decide_eq_true_eq] at h ⊢
      exact ⟨h.1.symm, eqv_symm x y h.2⟩
    | _ => simp [H.eqv] at h
  | .typed t x, b, h => by
    cases b with
    | typed t' y =>
      simp only [H.eqv, Bool.and_eq_true, decide_eq_true_eq] at h ⊢
      exact ⟨h.1.symm, eqv_symm x y h.2⟩
    | _ => simp [H.eqv] at h
theorem eqv_symm_mem : ∀ (l : List H), ∀ x ∈ l, ∀ y, H.eqv x y = true → H.eqv y x = true
  | [], _, h, _, _ => by simp at h
  | z :: r, x, h, y, hxy => by
    rcases List.mem_cons.mp h with e | h
    · rw [e] at hxy ⊢; exact eqv_symm z y hxy
    · exact eqv_symm_mem r x h y hxy
theorem eqvList_symm : ∀ (l l' : List H), H.eqvList l l' = true → H.eqvList l' l = true
  | [], [], _ => by simp [H.eqvList]
  | [], _ :: _, h => by simp [H.eqvList] at h
  | _ :: _, [], h => by simp [H.eqvList] at h
  | x :: r, y :: s, h => by
    simp only [H.eqvList, Bool.and_eq_true] at h ⊢
    exact ⟨eqv_symm x y h.1, eqvList_symm r s h.2⟩
end

mutual
theorem eqv_trans : ∀ (a b c : H), H.eqv a b = true → H.eqv b c = true → H.eqv a c = true
  | .ty _, b, c, h, h' => by cases b <;> simp_all [H.eqv]
  | .str _, b, c, h, h' => by cases b <;> simp_all [H.eqv]
  | .set l, b, c, h, h' => by
    cases b with
    | set l' =>
      cases c with
      | set l'' =>
        rw [eqv_set] at h h' ⊢
        refine ⟨fun x hx => ?_, fun z hz => ?_⟩
        · obtain ⟨y, hy, e⟩ := h.1 x hx
          obtain ⟨z, hz, e'⟩ := h'.1 y hy
          exact ⟨z, hz, eqv_trans_mem l x hx y z e e'⟩
        · obtain ⟨y, hy, e⟩ := h'.2 z hz
          obtain ⟨x, hx, e'⟩ := h.2 y hy
          exact ⟨x, hx, eqv_trans_mem l x hx y z e' e⟩
      | _ => simp [H.eqv] at h'
    | _ => simp [H.eqv] at h
  | .tup l, b, c, h, h' => by
    cases b with
    | tup l' =>
      cases c with
      | tup l'' => simp only [H.eqv] at h h' ⊢; exact eqvList_trans l l' l'' h h'
      | _ => simp [H.eqv] at h'
    | _ => simp [H.eqv] at h
  | .mapping t x, b, c, h, h' => by
    cases b with
    | mapping t' y =>
      cases c with
      | mapping t'' z =>
        simp only [H.eqv, Bool.and_eq_true, decide_eq_true_eq] at h h' ⊢
        exact ⟨h.1.trans h'.1, eqv_trans x y z h.2 h'.2⟩
      | _ => simp [H.eqv] at h'
    | _ => simp [H.eqv] at h
  | .typed t x, b, c, h, h' => by
    cases b with
    | typed t' y =>
      cases c with
      | typed t'' z =>
        simp only [H.eqv, Bool.and_eq_true, decide_eq_true_eq] at h h' ⊢
        exact ⟨h.1.trans h'.1, eqv_trans x y z h.2 h'.2⟩
      | _ => simp [H.eqv] at h'
    | _ => simp [H.eqv] at h
theorem eqv_trans_mem : ∀ (l : List H), ∀ x ∈ l, ∀ y z, H.eqv x y = true → H.eqv y z = true → H.eqv x z = true
  | [], _, h, _, _, _, _ => by simp at h
  | w :: r, x, h, y, z, hxy, hyz => by
    rcases List.mem_cons.mp h with e | h
    · rw [e] at hxy ⊢; exact eqv_trans w y z hxy hyz
    · exact eqv_trans_mem r x h y z hxy hyz
theorem eqvList_trans : ∀ (l l' l'' : List H), H.eqvList l l' = true → H.eqvList l' l'' = true → H.eqvList l l'' = true
  | [], [], [], _, _ => by simp [H.eqvList]
  | [], [], _ :: _, _, h => by simp [H.eqvList] at h
  | [], _ :: _, _, h, _ => by simp [H.eqvList] at h
  | _ :: _, [], _, h, _ => by simp [H.eqvList] at h
  | _ :: _, _ :: _, [], _, h => by simp [H.eqvList] at h
  | x :: r, y :: s, z :: u, h, h' => by
    simp only [H.eqvList, Bool.and_eq_true] at h h' ⊢
    exact ⟨eqv_trans x y z h.1 h'.1, eqvList_trans r s u h.2 h'.2⟩
end

theorem nodeEq_iff {S : Strategies} {a b : Node} : nodeEq S a b = true ↔ a.hdr.kind.tag = b.hdr.kind.tag ∧ H.eqv (a.hash S) (b.hash S) = true := by
  simp [nodeEq]

theorem nodeEq_refl {S : Strategies} (a : Node) : nodeEq S a a = true := nodeEq_iff.mpr ⟨rfl, eqv_refl _⟩

theorem nodeEq_symm {S : Strategies} {a b : Node} (h : nodeEq S a b = true) : nodeEq S b a = true := by
  rw [nodeEq_iff] at h ⊢
  exact ⟨h.1.symm, eqv_symm _ _ h.2⟩

theorem nodeEq_trans {S : Strategies} {a b c : Node} (h : nodeEq S a b = true) (h' : nodeEq S b c = true) : nodeEq S a c = true := by
  rw [nodeEq_iff] at h h' ⊢
  exact ⟨h.1.trans h'.1, eqv_trans _ _ _ h.2 h'.2⟩

/-- Equality of trees does not distinguish equal trees. -/
theorem nodeEq_congr {S : Strategies} {a a' b b' : Node} (ha : nodeEq S a a' = true) (hb : nodeEq S b b' = true) :
    nodeEq S a b = nodeEq S a' b' := by
  rw [Bool.eq_iff_iff]
  exact ⟨fun h => nodeEq_trans (nodeEq_trans (nodeEq_symm ha) h) hb, fun h => nodeEq_trans (nodeEq_trans ha h) (nodeEq_symm hb)⟩

theorem eqvList_iff : ∀ {l l' : List H}, H.eqvList l l' = true ↔ All₂ (fun x y => H.eqv x y = true) l l'
  | [], [] => by simp [H.eqvList]; exact .nil
  | [], _ :: _ => by simp only [H.eqvList]; exact ⟨fun h => by (cases h), fun h => by (cases h)⟩
  | _ :: _, [] => by simp only [H.eqvList]; exact ⟨fun h => by (cases h), fun h => by (cases h)⟩
  | x :: r, y :: s => by
    simp only [H.eqvList, Bool.and_eq_true, eqvList_iff (l := r) (l' := s)]
    exact ⟨fun h => .cons h.1 h.2, fun h => by cases h with | cons a b => exact ⟨a, b⟩⟩

end Verif
