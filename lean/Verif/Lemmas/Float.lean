import Verif.Py.Float
/-
Accuracy of `int(100 * (c / t))` in double arithmetic.
-/
namespace Verif

theorem roundHalfEven_bound (n d : Nat) (hd : 0 < d) :
    2 * n ≤ 2 * (roundHalfEven n d * d) + d ∧ 2 * (roundHalfEven n d * d) ≤ 2 * n + d := by
  have h := Nat.div_add_mod n d
  have hr := Nat.mod_lt n hd
  have hc : d * (n / d) = (n / d) * d := Nat.mul_comm _ _
  unfold roundHalfEven
  dsimp only
  split
  · omega
  · split
    · rw [Nat.add_mul]; omega
    · split
      · omega
      · rw [Nat.add_mul]; omega

theorem divScale_ge (c t : Nat) : 52 ≤ divScale c t := by
  unfold divScale
  dsimp only
  split <;> omega

theorem divScale_bound {c t : Nat} (hc : 0 < c) (ht : c ≤ t) : c * 2 ^ divScale c t < 2 ^ 53 * t := by
  have h1 : c < 2 ^ (c.log2 + 1) := Nat.lt_log2_self
  have h2 : 2 ^ t.log2 ≤ t := Nat.log2_self_le (by omega)
  have hl : c.log2 ≤ t.log2 := by
    have := Nat.log2_self_le (n := c) (by omega)
    rw [Nat.le_log2 (by omega)]
    omega
  unfold divScale
  dsimp only
  split
  · have : c * 2 ^ (52 + (t.log2 - c.log2)) < 2 ^ (c.log2 + 1) * 2 ^ (52 + (t.log2 - c.log2)) :=
      Nat.mul_lt_mul_of_pos_right h1 (Nat.two_pow_pos _)
    rw [← Nat.pow_add] at this
    have e : c.log2 + 1 + (52 + (t.log2 - c.log2)) = 53 + t.log2 := by omega
    rw [e, Nat.pow_add 2 53] at this
    have h3 : 2 ^ 53 * 2 ^ t.log2 ≤ 2 ^ 53 * t := Nat.mul_le_mul_left _ h2
    omega
  · rename_i h
    rw [Nat.pow_succ]
    have e : (2:Nat) ^ 53 * t = 2 * (2 ^ 52 * t) := by rw [← Nat.mul_assoc]
    have e2 : c * (2 ^ (52 + (t.log2 - c.log2)) * 2) = 2 * (c * 2 ^ (52 + (t.log2 - c.log2))) := by
      rw [← Nat.mul_assoc, Nat.mul_comm]
    omega

theorem divSig_le {c t : Nat} (hc : 0 < c) (ht : c ≤ t) : divSig c t ≤ 2 ^ 53 := by
  have hb := divScale_bound hc ht
  have hr := (roundHalfEven_bound (c * 2 ^ divScale c t) t (by omega)).2
  unfold divSig
  refine Nat.le_of_not_lt fun h => ?_
  have h1 : (2 ^ 53 + 1) * t ≤ roundHalfEven (c * 2 ^ divScale c t) t * t := Nat.mul_le_mul_right t h
  rw [Nat.add_mul] at h1
  omega

theorem round53_bound {n : Nat} (hn : n < 2 ^ 60) : n ≤ round53 n + 64 ∧ round53 n ≤ n + 64 := by
  have hl : n.log2 < 60 := by
    rcases Nat.eq_zero_or_pos n with rfl | hpos
    · decide
    · rw [Nat.log2_lt (by omega)]; exact hn
  have hk : 2 ^ (n.log2 - 52) ≤ 2 ^ 7 := Nat.pow_le_pow_right (by omega) (by omega)
  have := roundHalfEven_bound n (2 ^ (n.log2 - 52)) (Nat.two_pow_pos _)
  unfold round53
  dsimp only
  omega

/-- The scaled product, within 114 units of the exact value. -/
theorem percent_core {c t : Nat} (hc : 0 < c) (ht : c ≤ t) :
    100 * c * 2 ^ divScale c t ≤ round53 (100 * divSig c t) * t + 114 * t ∧
    round53 (100 * divSig c t) * t ≤ 100 * c * 2 ^ divScale c t + 114 * t := by
  have h1 := roundHalfEven_bound (c * 2 ^ divScale c t) t (by omega)
  have h1 : 2 * (c * 2 ^ divScale c t) ≤ 2 * (divSig c t * t) + t ∧ 2 * (divSig c t * t) ≤ 2 * (c * 2 ^ divScale c t) + t := h1
  have h2 := divSig_le hc ht
  have h3 := round53_bound (n := 100 * divSig c t) (by omega)
  have h4 : 100 * divSig c t * t ≤ (round53 (100 * divSig c t) + 64) * t := Nat.mul_le_mul_right t h3.1
  have h5 : round53 (100 * divSig c t) * t ≤ (100 * divSig c t + 64) * t := Nat.mul_le_mul_right t h3.2
  rw [Nat.add_mul] at h4 h5
  rw [Nat.mul_assoc] at h4
  rw [Nat.mul_assoc 100 (divSig c t) t] at h5
  rw [Nat.mul_assoc]
  generalize divSig c t * t = a at *
  generalize c * 2 ^ divScale c t = b at *
  generalize round53 (100 * divSig c t) * t = d at *
  omega

/-- The computed percentage `p` as bounds on the exact one. -/
theorem percent_bounds {c t : Nat} (ht : c ≤ t) (h0 : 0 < t) :
    ∃ s, 52 ≤ s ∧ 100 * c * 2 ^ s < (percentSimilarity c t + 1) * t * 2 ^ s + 114 * t ∧
      percentSimilarity c t * t * 2 ^ s ≤ 100 * c * 2 ^ s + 114 * t := by
  unfold percentSimilarity
  rw [if_neg (by omega)]
  by_cases hc : c = 0
  · subst hc
    refine ⟨52, Nat.le_refl _, ?_, ?_⟩ <;> simp
    omega
  · rw [if_neg hc]
    obtain ⟨h1, h2⟩ := percent_core (by omega : 0 < c) ht
    refine ⟨divScale c t, divScale_ge c t, ?_, ?_⟩
    · have h3 := Nat.lt_div_mul_add (a := round53 (100 * divSig c t)) (b := 2 ^ divScale c t) (Nat.two_pow_pos _)
      have h4 : (round53 (100 * divSig c t)) * t < ((round53 (100 * divSig c t) / 2 ^ divScale c t) * 2 ^ divScale c t + 2 ^ divScale c t) * t :=
        Nat.mul_lt_mul_of_pos_right h3 h0
      have e : (round53 (100 * divSig c t) / 2 ^ divScale c t + 1) * t * 2 ^ divScale c t =
          ((round53 (100 * divSig c t) / 2 ^ divScale c t) * 2 ^ divScale c t + 2 ^ divScale c t) * t := by
        rw [Nat.mul_right_comm, Nat.add_mul _ 1, Nat.one_mul]
      omega
    · have h3 := Nat.div_mul_le_self (round53 (100 * divSig c t)) (2 ^ divScale c t)
      have h4 := Nat.mul_le_mul_right t h3
      rw [Nat.mul_right_comm]
      omega

theorem pow52_le {s : Nat} (hs : 52 ≤ s) : 2 ^ 52 ≤ 2 ^ s := Nat.pow_le_pow_right (by omega) hs

/-- At most one percent too high. -/
theorem percent_upper {c t : Nat} (ht : c ≤ t) (h0 : 0 < t) : percentSimilarity c t * t < 100 * c + t := by
  obtain ⟨s, hs, _, h⟩ := percent_bounds ht h0
  have hp := pow52_le hs
  refine Nat.lt_of_not_le fun hn => ?_
  have h1 := Nat.mul_le_mul_right (2 ^ s) hn
  rw [Nat.add_mul] at h1
  have h2 : 2 ^ 52 * t ≤ 2 ^ s * t := Nat.mul_le_mul_right t hp
  rw [Nat.mul_comm (2 ^ s)] at h2
  omega

/-- Less than two percent too low. -/
theorem percent_lower {c t : Nat} (ht : c ≤ t) (h0 : 0 < t) : 100 * c < (percentSimilarity c t + 2) * t := by
  obtain ⟨s, hs, h, _⟩ := percent_bounds ht h0
  have hp := pow52_le hs
  refine Nat.lt_of_not_le fun hn => ?_
  have h1 := Nat.mul_le_mul_right (2 ^ s) hn
  have e : (percentSimilarity c t + 2) * t * 2 ^ s = (percentSimilarity c t + 1) * t * 2 ^ s + t * 2 ^ s := by
    rw [show percentSimilarity c t + 2 = percentSimilarity c t + 1 + 1 from rfl, Nat.add_mul (percentSimilarity c t + 1) 1, Nat.one_mul, Nat.add_mul]
  have h2 : 2 ^ 52 * t ≤ 2 ^ s * t := Nat.mul_le_mul_right t hp
  rw [Nat.mul_comm (2 ^ s)] at h2
  omega

/-- For less than 2^40 keys the computed percentage is never too high. -/
theorem percent_le {c t : Nat} (ht : c ≤ t) (h0 : 0 < t) (hb : t < 2 ^ 40) : percentSimilarity c t * t ≤ 100 * c := by
  obtain ⟨s, hs, _, h⟩ := percent_bounds ht h0
  have hp := pow52_le hs
  refine Nat.le_of_not_lt fun hn => ?_
  have h1 := Nat.mul_le_mul_right (2 ^ s) (Nat.succ_le_of_lt hn)
  rw [Nat.succ_mul] at h1
  omega

/-- For less than 2^40 keys the computed percentage is the exact one rounded down, unless the exact one is an integer. -/
theorem percent_ge {c t : Nat} (ht : c ≤ t) (h0 : 0 < t) (hb : t < 2 ^ 40) : 100 * c ≤ (percentSimilarity c t + 1) * t := by
  obtain ⟨s, hs, h, _⟩ := percent_bounds ht h0
  have hp := pow52_le hs
  refine Nat.le_of_not_lt fun hn => ?_
  have h1 := Nat.mul_le_mul_right (2 ^ s) (Nat.succ_le_of_lt hn)
  rw [Nat.succ_mul] at h1
  omega

/-- Equal key sets have similarity 100. -/
theorem percent_full {t : Nat} (h0 : 0 < t) : percentSimilarity t t = 100 := by
  have hs : divScale t t = 52 := by
    unfold divScale
    simp [Nat.mul_comm]
  have hd : divSig t t = 2 ^ 52 := by
    unfold divSig
    rw [hs]
    unfold roundHalfEven
    simp [h0]
  unfold percentSimilarity
  rw [if_neg (by omega), if_neg (by omega), hd, hs]
  decide +kernel

/-! ### The percentage depends on the ratio only -/

theorem divScale_lower {c t : Nat} (hc : 0 < c) (ht : c ≤ t) : 2 ^ 52 * t ≤ c * 2 ^ divScale c t := by
  have h1 : 2 ^ c.log2 ≤ c := Nat.log2_self_le (by omega)
  have h2 : t < 2 ^ (t.log2 + 1) := Nat.lt_log2_self
  have hl : c.log2 ≤ t.log2 := by
    rw [Nat.le_log2 (by omega)]
    omega
  unfold divScale
  dsimp only
  split
  · assumption
  · have : 2 ^ c.log2 * 2 ^ (52 + (t.log2 - c.log2) + 1) ≤ c * 2 ^ (52 + (t.log2 - c.log2) + 1) := Nat.mul_le_mul_right _ h1
    rw [← Nat.pow_add] at this
    have e : c.log2 + (52 + (t.log2 - c.log2) + 1) = 52 + (t.log2 + 1) := by omega
    rw [e, Nat.pow_add 2 52] at this
    have h3 : 2 ^ 52 * t ≤ 2 ^ 52 * 2 ^ (t.log2 + 1) := Nat.mul_le_mul_left _ (by omega)
    omega

theorem scale_unique {X T S S' : Nat} (h1 : 2 ^ 52 * T ≤ X * 2 ^ S) (h2 : X * 2 ^ S' < 2 ^ 53 * T) : S' ≤ S := by
  refine Nat.le_of_not_lt fun h => ?_
  have h3 : X * 2 ^ (S + 1) ≤ X * 2 ^ S' := Nat.mul_le_mul_left _ (Nat.pow_le_pow_right (by omega) h)
  rw [Nat.pow_succ, ← Nat.mul_assoc] at h3
  omega

theorem divScale_ratio {c t c' t' : Nat} (hc : 0 < c) (ht : c ≤ t) (hc' : 0 < c') (ht' : c' ≤ t') (h : c * t' = c' * t) :
    divScale c t = divScale c' t' := by
  have mul : ∀ (a b k S : Nat), a * 2 ^ S * k = a * k * 2 ^ S := by intros; rw [Nat.mul_right_comm]
  have a1 : 2 ^ 52 * (t * t') ≤ c * t' * 2 ^ divScale c t := by
    rw [← Nat.mul_assoc, Nat.mul_right_comm c]
    exact Nat.mul_le_mul_right _ (divScale_lower hc ht)
  have a2 : c * t' * 2 ^ divScale c t < 2 ^ 53 * (t * t') := by
    rw [← Nat.mul_assoc, Nat.mul_right_comm c]
    exact Nat.mul_lt_mul_of_pos_right (divScale_bound hc ht) (by omega)
  have b1 : 2 ^ 52 * (t * t') ≤ c' * t * 2 ^ divScale c' t' := by
    rw [Nat.mul_comm t, ← Nat.mul_assoc, Nat.mul_right_comm c']
    exact Nat.mul_le_mul_right _ (divScale_lower hc' ht')
  have b2 : c' * t * 2 ^ divScale c' t' < 2 ^ 53 * (t * t') := by
    rw [Nat.mul_comm t, ← Nat.mul_assoc, Nat.mul_right_comm c']
    exact Nat.mul_lt_mul_of_pos_right (divScale_bound hc' ht') (by omega)
  rw [h] at a1 a2
  exact Nat.le_antisymm (scale_unique b1 a2) (scale_unique a1 b2)

theorem roundHalfEven_mul (n d k : Nat) (hk : 0 < k) : roundHalfEven (n * k) (d * k) = roundHalfEven n d := by
  unfold roundHalfEven
  dsimp only
  rw [Nat.mul_div_mul_right _ _ hk, Nat.mul_mod_mul_right]
  have e1 : 2 * (n % d * k) < d * k ↔ 2 * (n % d) < d := by
    rw [← Nat.mul_assoc]; exact Nat.mul_lt_mul_right hk
  have e2 : d * k < 2 * (n % d * k) ↔ d < 2 * (n % d) := by
    rw [← Nat.mul_assoc]; exact Nat.mul_lt_mul_right hk
  simp only [e1, e2]

theorem roundHalfEven_ratio {n d n' d' : Nat} (hd : 0 < d) (hd' : 0 < d') (h : n * d' = n' * d) :
    roundHalfEven n d = roundHalfEven n' d' := by
  rw [← roundHalfEven_mul n d d' hd', ← roundHalfEven_mul n' d' d hd, h, Nat.mul_comm d']

/-- Equal ratios have equal percentages. -/
theorem percent_ratio {c t c' t' : Nat} (hc : 0 < c) (ht : c ≤ t) (hc' : 0 < c') (ht' : c' ≤ t') (h : c * t' = c' * t) :
    percentSimilarity c t = percentSimilarity c' t' := by
  have hs := divScale_ratio hc ht hc' ht' h
  have hg : divSig c t = divSig c' t' := by
    unfold divSig
    apply roundHalfEven_ratio (by omega) (by omega)
    rw [hs, Nat.mul_right_comm, h, Nat.mul_right_comm]
  unfold percentSimilarity
  rw [if_neg (by omega), if_neg (by omega), if_neg (by omega), if_neg (by omega), hs, hg]

end Verif
