import Verif.Model.Mypy
import Verif.Lemmas.Quotes
/-
Splitting at a text.
-/
namespace Verif

/-- No end of the text is also its beginning. -/
def Unbordered (p : Str) : Prop := ∀ k, 0 < k → k < p.length → (p.drop k).isPrefixOf p = false

theorem prefix_of_append {p a b : Str} (h : p <+: a ++ b) : p <+: a ∨ ∃ k, a = p.take k ∧ k = a.length ∧ k < p.length ∧ p.drop k <+: b := by
  rcases Nat.lt_or_ge a.length p.length with hl | hl
  · right
    obtain ⟨r, hr⟩ := h
    refine ⟨a.length, ?_, rfl, hl, r, ?_⟩
    · have := congrArg (List.take a.length) hr
      rw [List.take_append_of_le_length (by omega)] at this
      simpa using this.symm
    · have := congrArg (List.drop a.length) hr
      rw [List.drop_append_of_le_length (by omega)] at this
      simpa using this
  · left
    exact List.prefix_of_prefix_length_le h (List.prefix_append _ _) hl

theorem not_prefix_before {p : Str} (hu : Unbordered p) {a b : Str} (ha : a ≠ []) (h : contains p a = false) : p.isPrefixOf (a ++ (p ++ b)) = false := by
  cases hc : p.isPrefixOf (a ++ (p ++ b)) with
  | false => rfl
  | true =>
    exfalso
    rcases prefix_of_append (List.isPrefixOf_iff_prefix.mp hc) with h1 | ⟨k, _, hk, hl, h1⟩
    · have := (contains_iff_infix p a).mpr h1.isInfix
      rw [h] at this; cases this
    · have h2 : p.drop k <+: p := List.prefix_of_prefix_length_le h1 (List.prefix_append _ _) (by simp)
      have h3 := hu k (by rw [hk]; exact List.length_pos_iff.mpr ha) hl
      rw [List.isPrefixOf_iff_prefix.mpr h2] at h3
      cases h3

theorem splitStrAux_skip {sep : Str} : ∀ {p cur r : Str}, splitStrAux sep p.length cur (p ++ r) = splitStrAux sep 0 cur r
  | [], _, _ => rfl
  | c :: p, cur, r => by
    show splitStrAux sep (p.length + 1) cur (c :: (p ++ r)) = _
    rw [splitStrAux, splitStrAux_skip]

theorem splitStrAux_at {sep : Str} (hne : sep ≠ []) (hu : Unbordered sep) {b : Str} : ∀ {a cur : Str}, contains sep a = false →
    splitStrAux sep 0 cur (a ++ (sep ++ b)) = (cur.reverse ++ a) :: splitStrAux sep 0 [] b
  | [], cur, _ => by
    cases sep with
    | nil => exact absurd rfl hne
    | cons c p =>
      show splitStrAux (c :: p) 0 cur (c :: (p ++ b)) = _
      rw [splitStrAux, if_pos (List.isPrefixOf_iff_prefix.mpr (⟨b, rfl⟩ : (c :: p) <+: c :: (p ++ b)))]
      show _ :: splitStrAux (c :: p) (p.length + 1 - 1) [] _ = _
      rw [Nat.add_sub_cancel, splitStrAux_skip]
      simp
  | x :: a, cur, h => by
    have hp := not_prefix_before hu (b := b) (by simp : x :: a ≠ []) h
    show splitStrAux sep 0 cur (x :: (a ++ (sep ++ b))) = _
    rw [splitStrAux]
    rw [List.cons_append] at hp
    rw [hp]
    simp only [Bool.false_eq_true, if_false]
    have h' : contains sep a = false := by
      rw [contains] at h
      simp only [Bool.or_eq_false_iff] at h
      exact h.2
    rw [splitStrAux_at hne hu h']
    simp

theorem splitStrAux_none {sep : Str} : ∀ {a cur : Str}, contains sep a = false → splitStrAux sep 0 cur a = [cur.reverse ++ a]
  | [], cur, _ => by simp [splitStrAux]
  | x :: a, cur, h => by
    rw [contains] at h
    simp only [Bool.or_eq_false_iff] at h
    rw [splitStrAux, h.1]
    simp only [Bool.false_eq_true, if_false]
    rw [splitStrAux_none h.2]
    simp

theorem splitStr_at {sep a b : Str} (hne : sep ≠ []) (hu : Unbordered sep) (h : contains sep a = false) :
    splitStr sep (a ++ (sep ++ b)) = a :: splitStr sep b := by
  unfold splitStr
  rw [splitStrAux_at hne hu h]
  rfl

theorem splitStr_none {sep a : Str} (h : contains sep a = false) : splitStr sep a = [a] := by
  unfold splitStr
  rw [splitStrAux_none h]
  rfl

theorem rfindChar_absent {c : Char} : ∀ {s : Str}, c ∉ s → rfindChar c s = none
  | [], _ => rfl
  | d :: r, h => by
    have h1 : d ≠ c := fun e => h (by simp [e])
    have h2 : c ∉ r := fun e => h (by simp [e])
    simp [rfindChar, rfindChar_absent h2, h1]

theorem rfindChar_final {c : Char} {b : Str} (h : c ∉ b) : ∀ {a : Str}, rfindChar c (a ++ c :: b) = some a.length
  | [] => by simp [rfindChar, rfindChar_absent h]
  | d :: a => by
    rw [List.cons_append, rfindChar, rfindChar_final h]
    rfl

end Verif
