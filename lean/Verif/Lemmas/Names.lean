import Verif.Model.Names
import Verif.Spec.Values
import Verif.Spec.Names
import Verif.Lemmas.ListStr
namespace Verif
open Verif.Spec

theorem Word.append {U : Uni} {a b : Str} (ha : Word U a) (hb : Word U b) : Word U (a ++ b) := by
  intro c hc
  rcases List.mem_append.mp hc with h | h
  · exact ha c h
  · exact hb c h

theorem Word.nil {U : Uni} : Word U [] := by intro c hc; simp at hc

theorem Word.natStr {U : Uni} (n : Nat) : Word U (natStr n) := by
  intro c hc
  have h := isDigit_of_mem_natStr hc
  refine .inl ?_
  have ha : isAscii c = true := by
    simp only [Char.isDigit, Bool.and_eq_true, decide_eq_true_eq, ge_iff_le] at h
    simp only [isAscii, decide_eq_true_eq]
    have h2 : c.toNat ≤ 57 := by
      have := UInt32.le_iff_toNat_le.mp h.2
      simpa using this
    omega
  simp [Uni.isAlnum, U.numeric_ascii c ha, h]

theorem Word.capitalize {U : Uni} {s : Str} (h : Word U s) (hc : CaseSafe U s) : Word U (U.capitalize s) := by
  cases s with
  | nil => exact Word.nil
  | cons c r =>
    simp only [Uni.capitalize]
    apply Word.append
    · exact (hc c (by simp) (h c (by simp))).2.2
    · intro d hd
      simp only [List.mem_flatMap] at hd
      obtain ⟨x, hx, hd⟩ := hd
      exact (hc x (by simp [hx]) (h x (by simp [hx]))).2.1 d hd

/-- Slots of the camel-case loop: each is empty, a kept letter or digit, or its upper case. -/
theorem camelSlots_spec (U : Uni) : ∀ (s : Str) b x, x ∈ camelSlots U b s →
    x = [] ∨ ∃ c ∈ s, U.isAlnum c = true ∧ (x = [c] ∨ x = U.upper c)
  | [], _, x => by simp [camelSlots]
  | c :: r, b, x => by
    simp only [camelSlots]
    split
    · intro h
      simp only [List.mem_cons] at h
      rcases h with rfl | h
      · exact .inl rfl
      · rcases camelSlots_spec U r _ _ h with h | ⟨d, hd, h⟩
        · exact .inl h
        · exact .inr ⟨d, by simp [hd], h⟩
    · rename_i hc
      have ha : U.isAlnum c = true := by
        simp only [Uni.isAlnum]
        cases h1 : U.isAlpha c <;> cases h2 : U.isNumeric c <;> simp_all
      split
      · intro h
        simp only [List.mem_cons] at h
        rcases h with rfl | h
        · exact .inr ⟨c, by simp, ha, .inr rfl⟩
        · rcases camelSlots_spec U r _ _ h with h | ⟨d, hd, h⟩
          · exact .inl h
          · exact .inr ⟨d, by simp [hd], h⟩
      · intro h
        simp only [List.mem_cons] at h
        rcases h with rfl | h
        · exact .inr ⟨c, by simp, ha, .inl rfl⟩
        · rcases camelSlots_spec U r _ _ h with h | ⟨d, hd, h⟩
          · exact .inl h
          · exact .inr ⟨d, by simp [hd], h⟩

/-- The first slot is never upper-cased by the loop itself. -/
theorem camelSlots_head (U : Uni) (c : Char) (r : Str) :
    (U.isAlnum c = true ∧ camelSlots U false (c :: r) = [c] :: camelSlots U false r) ∨
    (U.isAlnum c = false ∧ camelSlots U false (c :: r) = [] :: camelSlots U true r) := by
  simp only [camelSlots, Uni.isAlnum]
  cases h1 : U.isAlpha c <;> cases h2 : U.isNumeric c <;> simp

/-- Recasing of the slots after the first. -/
theorem camelSlots_recased (U : Uni) : ∀ (s : Str) b, Recased U (s.filter U.isAlnum) (camelSlots U b s).flatten
  | [], b => by simpa [camelSlots] using Recased.nil
  | c :: r, b => by
    simp only [camelSlots]
    split
    · rename_i h
      have ha : U.isAlnum c = false := by simpa [Uni.isAlnum] using h
      simpa [ha] using camelSlots_recased U r true
    · rename_i h
      have ha : U.isAlnum c = true := by
        simp only [Uni.isAlnum]
        cases h1 : U.isAlpha c <;> cases h2 : U.isNumeric c <;> simp_all
      split
      · simpa [ha] using Recased.raise c (camelSlots_recased U r false)
      · simpa [ha] using Recased.keep c (camelSlots_recased U r false)

theorem camelBody_recased (U : Uni) (s : Str) : Recased U (s.filter U.isAlnum) (camelBody U s) := by
  cases s with
  | nil => simpa [camelBody, camelSlots] using Recased.nil
  | cons c r =>
    unfold camelBody
    rcases camelSlots_head U c r with ⟨ha, h⟩ | ⟨ha, h⟩
    · rw [h]
      simpa [ha, Uni.upperStr] using Recased.raise c (camelSlots_recased U r false)
    · rw [h]
      simpa [ha, Uni.upperStr] using camelSlots_recased U r true

theorem dropWhile_length_lt {α} {p : α → Bool} {l : List α} :
    (l.dropWhile p).length < l.length ↔ ∃ a r, l = a :: r ∧ p a = true := by
  cases l with
  | nil => simp
  | cons a r =>
    by_cases h : p a = true
    · have : (r.dropWhile p).length ≤ r.length := (List.dropWhile_suffix p).length_le
      simp [List.dropWhile, h]; omega
    · simp [List.dropWhile, h]

theorem dropWhile_isEmpty {α} {p : α → Bool} {l : List α} : (l.dropWhile p).isEmpty = l.all p := by
  induction l with
  | nil => rfl
  | cons a r ih =>
    by_cases h : p a = true
    · simp [List.dropWhile, h]; simpa using ih
    · simp [List.dropWhile, h]

/-- `toCamel` is `camelBody` of the string without its leading digits, if anything is left. -/
theorem toCamel_eq (U : Uni) (s : Str) :
    toCamel U s = if s.all U.isDecimal then s else camelBody U (s.dropWhile U.isDecimal) := by
  unfold toCamel
  dsimp only
  split
  · rw [dropWhile_isEmpty]
  · rename_i h
    rw [dropWhile_length_lt] at h
    cases s with
    | nil => rfl
    | cons a r =>
      have ha : U.isDecimal a = false := by
        cases h' : U.isDecimal a
        · rfl
        · exact absurd ⟨a, r, rfl, h'⟩ h
      simp [List.dropWhile, ha]

theorem recased_word {U : Uni} {xs ys : Str} (h : Recased U xs ys) (hx : ∀ c ∈ xs, U.isAlnum c = true)
    (hc : CaseSafe U xs) : Word U ys := by
  induction h with
  | nil => exact Word.nil
  | keep c _ ih =>
    intro d hd
    simp only [List.mem_cons] at hd
    rcases hd with rfl | hd
    · exact .inl (hx d (by simp))
    · exact ih (fun c hc' => hx c (by simp [hc'])) (fun c hc' => hc c (by simp [hc'])) d hd
  | raise c _ ih =>
    exact Word.append (hc c (by simp) (.inl (hx c (by simp)))).1
      (ih (fun c hc' => hx c (by simp [hc'])) (fun c hc' => hc c (by simp [hc'])))

theorem toCamel_recased (U : Uni) (s : Str) : Recased U ((cutDigits U s).filter U.isAlnum) (toCamel U s) := by
  rw [toCamel_eq]
  unfold cutDigits
  split
  · rename_i h
    have : s.filter U.isAlnum = s := by
      rw [List.filter_eq_self]
      intro c hc
      have := List.all_eq_true.mp h c hc
      simp [Uni.isAlnum, U.decimal_numeric c this]
    rw [this]
    clear h this
    induction s with
    | nil => exact .nil
    | cons c r ih => exact .keep c ih
  · exact camelBody_recased U _

theorem cutDigits_subset {U : Uni} {s : Str} {c : Char} (h : c ∈ cutDigits U s) : c ∈ s := by
  unfold cutDigits at h
  split at h
  · exact h
  · exact (List.dropWhile_suffix _).subset h

theorem toCamel_word {U : Uni} {s : Str} (h : CaseSafe U s) : Word U (toCamel U s) := by
  apply recased_word (toCamel_recased U s)
  · intro c hc; exact (List.mem_filter.mp hc).2
  · intro c hc
    exact h c (cutDigits_subset (List.mem_filter.mp hc).1)

theorem nameOk_append {U : Uni} {a b : Str} (ha : nameOk U a = true) (hb : Word U b) : nameOk U (a ++ b) = true := by
  unfold nameOk at ha ⊢
  cases a with
  | nil => simp at ha
  | cons c r =>
    simp only [Bool.and_eq_true, Bool.not_eq_true', List.all_eq_true] at ha ⊢
    obtain ⟨⟨h1, h2⟩, h3⟩ := ha
    rw [List.isEmpty_eq_false_iff] at h1 ⊢
    refine ⟨⟨?_, ?_⟩, ?_⟩
    · rw [List.filter_append]; simp [h1]
    · intro x hx
      rw [List.filter_append, List.mem_append] at hx
      rcases hx with hx | hx
      · exact h2 x hx
      · rw [List.mem_filter] at hx
        rcases hb x hx.1 with h | h
        · exact h
        · simp [h] at hx
    · simpa using h3

theorem ascii_upper_word {U : Uni} {c : Char} (ha : isAscii c = true) (h : U.isAlnum c = true ∨ c = '_') :
    Word U (U.upper c) ∧ Word U (U.lower c) ∧ Word U (U.title c) := by
  have key : ∀ d : Char, d.toNat < 128 → ((d.isAlpha = true ∨ d.isDigit = true) ∨ d = '_') →
      (d.toUpper.toNat < 128 ∧ (((d.toUpper).isAlpha = true ∨ (d.toUpper).isDigit = true) ∨ d.toUpper = '_')) ∧
      (d.toLower.toNat < 128 ∧ (((d.toLower).isAlpha = true ∨ (d.toLower).isDigit = true) ∨ d.toLower = '_')) := by
    intro d hd
    have : ∀ n : Fin 128, ((Char.ofNat n).isAlpha = true ∨ (Char.ofNat n).isDigit = true) ∨ Char.ofNat n = '_' →
      ((Char.ofNat n).toUpper.toNat < 128 ∧ ((((Char.ofNat n).toUpper).isAlpha = true ∨
        ((Char.ofNat n).toUpper).isDigit = true) ∨ (Char.ofNat n).toUpper = '_')) ∧
      ((Char.ofNat n).toLower.toNat < 128 ∧ ((((Char.ofNat n).toLower).isAlpha = true ∨
        ((Char.ofNat n).toLower).isDigit = true) ∨ (Char.ofNat n).toLower = '_')) := by decide +kernel
    have h := this ⟨d.toNat, hd⟩
    simpa [Char.ofNat_toNat] using h
  have lift : ∀ d : Char, d.toNat < 128 → ((d.isAlpha = true ∨ d.isDigit = true) ∨ d = '_') → Word U [d] := by
    intro d hd h x hx
    simp only [List.mem_singleton] at hx
    subst hx
    have hx : isAscii x = true := by simpa [isAscii] using hd
    rcases h with h | h
    · left; simpa [Uni.isAlnum, U.alpha_ascii x hx, U.numeric_ascii x hx] using h
    · exact .inr h
  have hc : (c.isAlpha = true ∨ c.isDigit = true) ∨ c = '_' := by
    rcases h with h | h
    · left; simpa [Uni.isAlnum, U.alpha_ascii c ha, U.numeric_ascii c ha] using h
    · exact .inr h
  have hk := key c (by simpa [isAscii] using ha) hc
  rw [U.upper_ascii c ha, U.lower_ascii c ha, U.title_ascii c ha]
  exact ⟨lift _ hk.1.1 hk.1.2, lift _ hk.2.1 hk.2.2, lift _ hk.1.1 hk.1.2⟩

theorem caseSafe_ascii {U : Uni} {s : Str} (h : ∀ c ∈ s, isAscii c = true) : CaseSafe U s :=
  fun c hc hw => ascii_upper_word (h c hc) hw

end Verif
