import Verif.Spec.Pieces
/-
Files written in pieces.
-/
namespace Verif
open Verif.Spec

theorem writeAt_get {c s : List UInt8} {pos x : Nat} (hs : s ≠ []) :
    (writeAt c pos s)[x]? = if x < pos then (if x < c.length then c[x]? else some 0)
      else if x < pos + s.length then s[x - pos]? else c[x]? := by
  unfold writeAt
  rw [if_neg (by simpa using hs)]
  have hl : (c.take pos ++ List.replicate (pos - c.length) (0 : UInt8)).length = pos := by
    simp only [List.length_append, List.length_take, List.length_replicate]; omega
  by_cases h1 : x < pos
  · rw [if_pos h1, List.append_assoc, List.append_assoc]
    by_cases h2 : x < c.length
    · rw [if_pos h2, List.getElem?_append_left (by simp; omega), List.getElem?_take_of_lt h1]
    · rw [if_neg h2, List.getElem?_append_right (by simp; omega), List.getElem?_append_left (by simp; omega)]
      simp only [List.length_take, List.getElem?_replicate]
      rw [if_pos (by omega)]
  · rw [if_neg h1]
    by_cases h2 : x < pos + s.length
    · rw [if_pos h2, List.getElem?_append_left (by rw [List.length_append, hl]; omega), List.getElem?_append_right (by omega), hl]
    · rw [if_neg h2, List.getElem?_append_right (by rw [List.length_append, hl]; omega), List.length_append, hl, List.getElem?_drop]
      congr 1
      omega

/-- The file agrees with the text in the first bytes, and is not longer. -/
def AgreesTo (c t : List UInt8) (p : Nat) : Prop := p ≤ c.length ∧ (∀ x, x < p → c[x]? = t[x]?) ∧ c.length ≤ t.length

theorem length_le_of_get {c : List UInt8} {n : Nat} (h : ∀ x, n ≤ x → c[x]? = none) : c.length ≤ n := by
  have := h n (Nat.le_refl _)
  rw [List.getElem?_eq_none_iff] at this
  exact this

theorem lt_length_of_get {c : List UInt8} {n : Nat} (h : ∀ x, x < n → c[x]? ≠ none) : n ≤ c.length := by
  cases n with
  | zero => omega
  | succ n =>
    have := h n (by omega)
    rw [ne_eq, List.getElem?_eq_none_iff] at this
    omega

theorem AgreesTo.whole {c t : List UInt8} (h : AgreesTo c t t.length) : c = t := by
  obtain ⟨h1, h2, h3⟩ := h
  apply List.ext_getElem?
  intro x
  by_cases hx : x < t.length
  · exact h2 x hx
  · rw [List.getElem?_eq_none (by omega), List.getElem?_eq_none (by omega)]

/-- Writing a part of the text where it belongs keeps what is already right. -/
theorem AgreesTo.write {c t : List UInt8} {p q n : Nat} (h : AgreesTo c t p) : AgreesTo (writeAt c q ((t.drop q).take n)) t p := by
  by_cases hs : (t.drop q).take n = []
  · rw [hs]; simpa [writeAt] using h
  · obtain ⟨h1, h2, h3⟩ := h
    have hlen : q + ((t.drop q).take n).length ≤ t.length := by
      have : ((t.drop q).take n).length ≠ 0 := fun e => hs (List.length_eq_zero_iff.mp e)
      simp only [List.length_take, List.length_drop] at this ⊢
      omega
    have get : ∀ x, x < p → (writeAt c q ((t.drop q).take n))[x]? = t[x]? := by
      intro x hx
      rw [writeAt_get hs]
      split
      · rw [if_pos (by omega)]; exact h2 x hx
      · split
        · rename_i a b
          have hb : x - q < n := by simp only [List.length_take] at b; omega
          rw [List.getElem?_take_of_lt hb, List.getElem?_drop]
          congr 1
          omega
        · exact h2 x hx
    refine ⟨?_, get, ?_⟩
    · apply lt_length_of_get
      intro x hx
      rw [get x hx, ne_eq, List.getElem?_eq_none_iff]
      omega
    · apply length_le_of_get
      intro x hx
      rw [writeAt_get hs, if_neg (by omega), if_neg (by omega)]
      exact List.getElem?_eq_none (by omega)

/-- ... and the writer at that place gets further. -/
theorem AgreesTo.extend {c t : List UInt8} {p n : Nat} (h : AgreesTo c t p) :
    AgreesTo (writeAt c p ((t.drop p).take n)) t (p + ((t.drop p).take n).length) := by
  have hw := h.write (q := p) (n := n)
  by_cases hs : (t.drop p).take n = []
  · rw [hs] at hw ⊢; simpa [writeAt] using h
  · obtain ⟨_, w2, w3⟩ := hw
    have get : ∀ x, x < p + ((t.drop p).take n).length → (writeAt c p ((t.drop p).take n))[x]? = t[x]? := by
      intro x hx
      by_cases hp : x < p
      · exact w2 x hp
      · rw [writeAt_get hs, if_neg hp, if_pos hx]
        have hb : x - p < n := by simp only [List.length_take] at hx; omega
        rw [List.getElem?_take_of_lt hb, List.getElem?_drop]
        congr 1
        omega
    refine ⟨?_, get, w3⟩
    apply lt_length_of_get
    intro x hx
    rw [get x hx, ne_eq, List.getElem?_eq_none_iff]
    have : ((t.drop p).take n).length ≤ t.length - p := by simp only [List.length_take, List.length_drop]; omega
    have : ((t.drop p).take n).length ≠ 0 := fun e => hs (List.length_eq_zero_iff.mp e)
    omega

/-- How far the call is, in bytes. -/
def FileWriter.reached (w : FileWriter) : Nat := match w.phase with
  | .before => 0
  | .opened p => p
  | .closed => w.bytes.length

/-- Nobody has opened the file, or what the call that opened it last has written so far is there. -/
def PieceInv (c0 : Option (List UInt8)) (f : SharedFile) : Prop :=
  ((∀ i w, f.writers i = some w → w.phase = .before) ∧ f.content = c0) ∨
  ∃ i w c, f.writers i = some w ∧ w.phase ≠ .before ∧ f.content = some c ∧ AgreesTo c w.bytes w.reached ∧
    ∀ j v, f.writers j = some v → v.Open → v.bytes = w.bytes

theorem writer_bytes (w : FileWriter) (c : Option (List UInt8)) (n : Nat) : (w.step c n).1.bytes = w.bytes := by
  unfold FileWriter.step
  split
  · rfl
  · split <;> rfl
  · rfl

theorem step_writers {f : SharedFile} {i n j : Nat} {w : FileWriter} (h : f.writers i = some w) :
    (f.step i n).writers j = if j = i then some (w.step f.content n).1 else f.writers j := by
  simp only [SharedFile.step, h]

theorem step_content {f : SharedFile} {i n : Nat} {w : FileWriter} (h : f.writers i = some w) :
    (f.step i n).content = (w.step f.content n).2 := by
  simp only [SharedFile.step, h]

theorem pieceInv_step {c0 : Option (List UInt8)} {f : SharedFile} {i n : Nat} (h : PieceInv c0 f) (h1 : (f.step i n).OneText) :
    PieceInv c0 (f.step i n) := by
  cases hw : f.writers i with
  | none =>
    have : f.step i n = f := by simp only [SharedFile.step, hw]
    rw [this]; exact h
  | some w =>
    have self : (f.step i n).writers i = some (w.step f.content n).1 := by rw [step_writers hw, if_pos rfl]
    cases hp : w.phase with
    | before =>
      have hs : w.step f.content n = ({ w with phase := .opened 0 }, some []) := by simp only [FileWriter.step, hp]
      rw [hs] at self
      refine .inr ⟨i, _, [], self, by simp, by rw [step_content hw, hs], ⟨Nat.le_refl _, by simp [FileWriter.reached], by simp⟩, ?_⟩
      intro j v hv ho
      exact h1 j i v _ hv self ho ⟨0, rfl⟩
    | closed =>
      have hs : w.step f.content n = (w, f.content) := by simp only [FileWriter.step, hp]
      have : f.step i n = f := by
        have e : (fun j => if j = i then some w else f.writers j) = f.writers := by
          funext j
          split
          · rename_i e; rw [e]; exact hw.symm
          · rfl
        simp only [SharedFile.step, hw, hs, e]
      rw [this]; exact h
    | opened pos =>
      rcases h with ⟨h, _⟩ | ⟨k, v, c, hk, hnb, hc, hag, hall⟩
      · rw [h i w hw] at hp; cases hp
      · have htext : w.bytes = v.bytes := hall i w hw ⟨pos, hp⟩
        have others : ∀ (v' : FileWriter), v'.bytes = v.bytes → ∀ j u, (f.step i n).writers j = some u → u.Open → u.bytes = v'.bytes := by
          intro v' hv' j u hu ho
          rw [step_writers hw] at hu
          split at hu
          · injection hu with hu
            rw [← hu, writer_bytes, htext, hv']
          · obtain hu := hall j u hu ho
            rw [hu, hv']
        by_cases hlt : pos < w.bytes.length
        · have hs : w.step f.content n = ({ w with phase := .opened (pos + ((w.bytes.drop pos).take n).length) },
              f.content.map (writeAt · pos ((w.bytes.drop pos).take n))) := by simp only [FileWriter.step, hp, if_pos hlt]
          rw [hs] at self
          by_cases e : k = i
          · subst e
            rw [hw] at hk
            injection hk with hk
            subst hk
            refine .inr ⟨k, _, _, self, by simp, by rw [step_content hw, hs, hc]; rfl, ?_, others _ rfl⟩
            have hr : w.reached = pos := by simp only [FileWriter.reached, hp]
            rw [hr] at hag
            exact hag.extend
          · refine .inr ⟨k, v, _, by rw [step_writers hw, if_neg e]; exact hk, hnb, by rw [step_content hw, hs, hc]; rfl, ?_, others _ rfl⟩
            rw [htext]
            exact hag.write
        · have hs : w.step f.content n = ({ w with phase := .closed }, f.content) := by simp only [FileWriter.step, hp, if_neg hlt]
          rw [hs] at self
          by_cases e : k = i
          · subst e
            rw [hw] at hk
            injection hk with hk
            subst hk
            refine .inr ⟨k, _, c, self, by simp, by rw [step_content hw, hs, hc], ?_, others _ rfl⟩
            have hr : w.reached = pos := by simp only [FileWriter.reached, hp]
            rw [hr] at hag
            have : pos = w.bytes.length := by have := hag.1; have := hag.2.2; omega
            rw [this] at hag
            exact hag
          · exact .inr ⟨k, v, c, by rw [step_writers hw, if_neg e]; exact hk, hnb, by rw [step_content hw, hs, hc], hag, others _ rfl⟩

theorem pieceInv_run {c0 : Option (List UInt8)} : ∀ (sched : List (Nat × Nat)) (f : SharedFile), PieceInv c0 f →
    (∀ pre post, sched = pre ++ post → (f.run pre).OneText) → PieceInv c0 (f.run sched)
  | [], _, h, _ => h
  | a :: r, f, h, h1 => by
    refine pieceInv_run r (f.step a.1 a.2) (pieceInv_step h (h1 [a] r rfl)) ?_
    intro pre post e
    exact h1 (a :: pre) post (by rw [e]; rfl)

/-- The calls stay the same. -/
theorem pieces_back : ∀ (sched : List (Nat × Nat)) (f : SharedFile) {i : Nat} {w : FileWriter}, (f.run sched).writers i = some w →
    ∃ v, f.writers i = some v ∧ v.bytes = w.bytes
  | [], _, _, w, h => ⟨w, h, rfl⟩
  | a :: r, f, i, w, h => by
    obtain ⟨v, hv, e⟩ := pieces_back r (f.step a.1 a.2) h
    cases hw : f.writers a.1 with
    | none =>
      have : f.step a.1 a.2 = f := by simp only [SharedFile.step, hw]
      rw [this] at hv
      exact ⟨v, hv, e⟩
    | some u =>
      rw [step_writers hw] at hv
      split at hv
      · rename_i ei
        injection hv with hv
        exact ⟨u, by rw [ei]; exact hw, by rw [← e, ← hv, writer_bytes]⟩
      · exact ⟨v, hv, e⟩

theorem pieces_none : ∀ (sched : List (Nat × Nat)) (f : SharedFile) {i : Nat}, (f.run sched).writers i = none → f.writers i = none
  | [], _, _, h => h
  | a :: r, f, i, h => by
    have h := pieces_none r (f.step a.1 a.2) h
    cases hw : f.writers a.1 with
    | none =>
      have : f.step a.1 a.2 = f := by simp only [SharedFile.step, hw]
      rw [this] at h
      exact h
    | some u =>
      rw [step_writers hw] at h
      split at h
      · cases h
      · exact h

/-! ### One call -/

theorem writeAt_end {t : List UInt8} {p n : Nat} : writeAt (t.take p) p ((t.drop p).take n) = t.take (p + ((t.drop p).take n).length) := by
  by_cases hs : (t.drop p).take n = []
  · rw [hs]; simp [writeAt]
  · have h0 : ((t.drop p).take n).length ≠ 0 := fun e => hs (List.length_eq_zero_iff.mp e)
    have hp : p < t.length := by simp only [List.length_take, List.length_drop] at h0; omega
    apply List.ext_getElem?
    intro x
    rw [writeAt_get hs]
    simp only [List.getElem?_take, List.getElem?_drop, List.length_take, List.length_drop]
    by_cases h1 : x < p
    · rw [if_pos h1, if_pos (by omega), if_pos h1, if_pos (by omega)]
    · rw [if_neg h1]
      by_cases h2 : x < p + min n (t.length - p)
      · rw [if_pos h2, if_pos (by omega), if_pos h2]
        congr 1
        omega
      · rw [if_neg h2, if_neg h2, if_neg h1]

/-- The call has not opened the file, or has written as far as it is. -/
def LoneState (c0 : Option (List UInt8)) (t : List UInt8) (w : FileWriter) (content : Option (List UInt8)) : Prop :=
  (w.phase = .before ∧ content = c0) ∨ (w.phase ≠ .before ∧ content = some (t.take w.reached))

theorem lone_step {c0 content : Option (List UInt8)} {w : FileWriter} {n : Nat} (h : LoneState c0 w.bytes w content) :
    LoneState c0 w.bytes (w.step content n).1 (w.step content n).2 := by
  unfold FileWriter.step
  cases hp : w.phase with
  | before => exact .inr ⟨by simp, by simp [FileWriter.reached]⟩
  | closed => exact h
  | opened pos =>
    rcases h with ⟨h, _⟩ | ⟨_, h⟩
    · rw [hp] at h; cases h
    · have hr : w.reached = pos := by simp only [FileWriter.reached, hp]
      rw [hr] at h
      dsimp only
      split
      · refine .inr ⟨by simp, ?_⟩
        rw [h]
        simp only [Option.map_some, FileWriter.reached, writeAt_end]
      · refine .inr ⟨by simp, ?_⟩
        rw [h]
        simp only [FileWriter.reached]
        rw [List.take_of_length_le (by omega), List.take_of_length_le (Nat.le_refl _)]

theorem lone_run {c0 : Option (List UInt8)} : ∀ (sched : List (Nat × Nat)) (f : SharedFile) {i : Nat} {w : FileWriter}, f.writers i = some w →
    (∀ j, j ≠ i → f.writers j = none) → LoneState c0 w.bytes w f.content →
    ∃ v, (f.run sched).writers i = some v ∧ LoneState c0 w.bytes v (f.run sched).content ∧ v.bytes = w.bytes
  | [], _, _, w, hw, _, h => ⟨w, hw, h, rfl⟩
  | a :: r, f, i, w, hw, ha, h => by
    by_cases e : a.1 = i
    · have hw' : (f.step a.1 a.2).writers i = some (w.step f.content a.2).1 := by rw [step_writers (e ▸ hw), if_pos e.symm]
      have := lone_run r (f.step a.1 a.2) hw' (by
        intro j hj
        rw [step_writers (e ▸ hw), if_neg (by rw [e]; exact hj)]
        exact ha j hj) (by
        rw [writer_bytes, step_content (e ▸ hw)]
        exact lone_step h)
      rw [writer_bytes] at this
      exact this
    · have : f.step a.1 a.2 = f := by simp only [SharedFile.step, ha _ e]
      have e' : f.run (a :: r) = f.run r := by simp only [SharedFile.run, this]
      rw [e']
      exact lone_run r f hw ha h

end Verif
