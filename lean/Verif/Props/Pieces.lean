import Verif.Lemmas.Pieces
/-
C96: files that are written in several pieces.
-/
namespace Verif.Props
open Verif Verif.Spec

/-- **C96** (partial). However the texts are cut into pieces and whatever the order of the steps: the file is whole in the end if calls with
different texts do not have it open at the same time. -/
theorem whole_pieces_partial : WholeFile (fun f sched => ∀ pre post, sched = pre ++ post → (f.run pre).OneText) := by
  intro f sched h hb hd
  rcases pieceInv_run sched f (.inl ⟨hb, rfl⟩) h with ⟨h1, h2⟩ | ⟨i, w, c, hw, _, hc, hag, _⟩
  · refine .inl ⟨fun i => pieces_none sched f ?_, h2⟩
    cases hx : (f.run sched).writers i with
    | none => rfl
    | some w =>
      have e1 := h1 i w hx
      rw [hd i w hx] at e1
      cases e1
  · obtain ⟨v, hv, e⟩ := pieces_back sched f hw
    have hr : w.reached = w.bytes.length := by simp only [FileWriter.reached, hd i w hw]
    rw [hr] at hag
    exact .inr ⟨i, v, hv, by rw [hc, hag.whole, e]⟩

/-- **C96**: calls that write the same text leave the whole file. -/
theorem whole_pieces_agree : WholeFile (fun f _ => ∀ i j v w, f.writers i = some v → f.writers j = some w → v.bytes = w.bytes) := by
  intro f sched h
  refine whole_pieces_partial f sched ?_
  intro pre _ _ i j v w hv hw _ _
  obtain ⟨v', hv', e⟩ := pieces_back pre f hv
  obtain ⟨w', hw', e'⟩ := pieces_back pre f hw
  rw [← e, ← e']
  exact h i j v' w' hv' hw'

/-- **C96**: calls one after the other leave the whole file. -/
theorem whole_pieces_one : WholeFile (fun f sched => ∀ pre post, sched = pre ++ post → (f.run pre).OneOpen) := by
  intro f sched h
  refine whole_pieces_partial f sched ?_
  intro pre post e i j v w hv hw ho ho'
  have := h pre post e i j v w hv hw ho ho'
  subst this
  rw [hv] at hw
  injection hw with hw
  rw [hw]

/-- **C96** and **C48**: wherever a call that is alone is interrupted, the file is as before or holds the beginning of the text. -/
theorem interrupted_prefix (f : SharedFile) (i : Nat) (w : FileWriter) (hw : f.writers i = some w) (hb : w.phase = .before)
    (ha : ∀ j, j ≠ i → f.writers j = none) (sched : List (Nat × Nat)) :
    (f.run sched).content = f.content ∨ ∃ p, (f.run sched).content = some (w.bytes.take p) := by
  obtain ⟨v, _, h, _⟩ := lone_run sched f hw ha (.inl ⟨hb, rfl⟩)
  rcases h with ⟨_, h⟩ | ⟨_, h⟩
  · exact .inl h
  · exact .inr ⟨_, h⟩

/-- The calls with these texts. -/
def writersOf (texts : List (List UInt8)) (content : Option (List UInt8)) : SharedFile :=
  { content, writers := fun i => (texts[i]?).map fun t => ⟨t, .before⟩ }

theorem writersOf_before (texts : List (List UInt8)) (c : Option (List UInt8)) : ∀ i w, (writersOf texts c).writers i = some w → w.phase = .before := by
  intro i w h
  obtain ⟨t, _, rfl⟩ := Option.map_eq_some_iff.mp h
  rfl

/-- The second call opens the file while the first one writes; the zeros in between are overwritten in the end. -/
example : ((writersOf [[1, 2, 3], [1, 2, 3]] none).run [(0, 0), (0, 2), (1, 0), (0, 9)]).content = some [0, 0, 3] ∧
    ((writersOf [[1, 2, 3], [1, 2, 3]] none).run [(0, 0), (0, 2), (1, 0), (0, 9), (0, 0), (1, 1), (1, 2), (1, 0)]).content = some [1, 2, 3] := by decide

/-- **C96 is false** of calls with different texts: the file is neither of the two. -/
theorem whole_pieces_fails : ¬ WholeFile (fun _ _ => True) := by
  intro h
  have := h (writersOf [[1, 1, 1], [2]] none) [(0, 0), (1, 0), (0, 3), (1, 1), (0, 0), (1, 0)] trivial (writersOf_before _ _) (by
    intro i w hw
    obtain ⟨v, hv, _⟩ := pieces_back _ _ hw
    obtain ⟨t, ht, _⟩ := Option.map_eq_some_iff.mp hv
    have hi : i < 2 := by
      rcases Nat.lt_or_ge i 2 with h | h
      · exact h
      · rw [List.getElem?_eq_none (by simpa using h)] at ht; cases ht
    have key : ∀ i : Fin 2, ((((writersOf [[1, 1, 1], [2]] none).run [(0, 0), (1, 0), (0, 3), (1, 1), (0, 0), (1, 0)]).writers i.val).map (·.phase)) =
        some .closed := by decide
    have := key ⟨i, hi⟩
    dsimp only at this
    rw [hw] at this
    simpa using this)
  have hc : ((writersOf [[1, 1, 1], [2]] none).run [(0, 0), (1, 0), (0, 3), (1, 1), (0, 0), (1, 0)]).content = some [2, 1, 1] := by decide
  rw [hc] at this
  rcases this with ⟨h0, _⟩ | ⟨i, w, hw, e⟩
  · have := h0 0
    simp [writersOf] at this
  · obtain ⟨t, ht, rfl⟩ := Option.map_eq_some_iff.mp hw
    injection e with e
    have : t ∈ [[1, 1, 1], [2]] := List.mem_of_getElem? ht
    have e : [2, 1, 1] = t := e
    rw [← e] at this
    revert this
    decide

end Verif.Props
