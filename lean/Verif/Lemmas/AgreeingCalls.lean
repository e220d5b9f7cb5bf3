import Verif.Lemmas.LiveSteps
/-
Calls for the same class that generate the same text.
-/
namespace Verif
open Verif.Spec

/-- The process has not opened the file of its class, or has failed. -/
def Proc.Unopened (p : Proc) : Prop := p.pc.before = true ∨ ∃ e, p.pc = .done (.error e)

theorem step_agree {E : Env} (p : Proc) (d : Disk) :
    (∃ text, p.pc = .writeClass text ∧ p.step E d = ({ p with pc := .check }, d.writeClass p.c (overlay text ((d.files p.c).getD [])))) ∨
    (∃ text, p.pc = .openClass text ∧ (p.step E d).1.WritingClass ∧ (p.step E d).2.files p.c = some []) ∨
    (¬ p.WritingClass ∧ (p.step E d).2.files p.c = d.files p.c ∧ (p.Unopened → (p.step E d).1.Unopened)) := by
  have no : ∀ {q : Proc}, (∀ text, q.pc ≠ .writeClass text) → ¬ q.WritingClass := fun h ⟨_, e⟩ => h _ e
  cases hp : p.pc with
  | writeClass text => exact .inl ⟨text, rfl, by unfold Proc.step; rw [hp]⟩
  | openClass text =>
    refine .inr (.inl ?_)
    unfold Proc.step
    rw [hp]
    exact ⟨text, rfl, ⟨text, rfl⟩, by simp [Disk.writeClass]⟩
  | edit es =>
    have hu : ¬ p.Unopened := by rintro (h | ⟨e, h⟩) <;> rw [hp] at h <;> cases h
    cases es with
    | nil =>
      refine .inr (.inr ⟨no (by simp [hp]), ?_, fun h => absurd h hu⟩)
      unfold Proc.step; rw [hp]
    | cons e es =>
      refine .inr (.inr ⟨no (by simp [hp]), ?_, fun h => absurd h hu⟩)
      unfold Proc.step
      rw [hp]
      dsimp only
      split <;> rfl
  | done r =>
    refine .inr (.inr ⟨no (by simp [hp]), ?_, ?_⟩) <;> unfold Proc.step <;> rw [hp]
    exact id
  | check =>
    have hu : ¬ p.Unopened := by rintro (h | ⟨e, h⟩) <;> rw [hp] at h <;> cases h
    refine .inr (.inr ⟨no (by simp [hp]), ?_, fun h => absurd h hu⟩)
    unfold Proc.step
    rw [hp]
    dsimp only
    split <;> rfl
  | writeStub text es =>
    have hu : ¬ p.Unopened := by rintro (h | ⟨e, h⟩) <;> rw [hp] at h <;> cases h
    refine .inr (.inr ⟨no (by simp [hp]), ?_, fun h => absurd h hu⟩)
    unfold Proc.step
    rw [hp]
    rfl
  | begin =>
    unfold Proc.step
    rw [hp]
    dsimp only
    (repeat' split) <;> first
      | exact .inr (.inr ⟨no (by simp [hp]), rfl, fun _ => .inr ⟨_, rfl⟩⟩)
      | exact .inr (.inr ⟨no (by simp [hp]), rfl, fun _ => .inl rfl⟩)
  | compare known =>
    unfold Proc.step
    rw [hp]
    dsimp only
    (repeat' split) <;> first
      | exact .inr (.inr ⟨no (by simp [hp]), rfl, fun _ => .inr ⟨_, rfl⟩⟩)
      | exact .inr (.inr ⟨no (by simp [hp]), rfl, fun _ => .inl rfl⟩)
  | dirTest text =>
    unfold Proc.step
    rw [hp]
    dsimp only
    split <;> exact .inr (.inr ⟨no (by simp [hp]), rfl, fun _ => .inl rfl⟩)
  | makeDir text =>
    unfold Proc.step
    rw [hp]
    dsimp only
    split
    · exact .inr (.inr ⟨no (by simp [hp]), rfl, fun _ => .inr ⟨_, rfl⟩⟩)
    · exact .inr (.inr ⟨no (by simp [hp]), rfl, fun _ => .inl rfl⟩)

/-- Calls for the same class generate the same text. -/
def Sys.Agree (E : Env) (s : Sys) : Prop :=
  ∀ i j p q t u, s.procs i = some p → s.procs j = some q → p.c = q.c → p.makes E t → q.makes E u → t = u

/-- The file of a class is the first one, or the text all processes generate, or it is being written. -/
def AgreeInv (E : Env) (x : Str) (first : Option Str) (s : Sys) : Prop :=
  (s.disk.files x = first ∧ ∀ i p, s.procs i = some p → p.c = x → p.Unopened) ∨
  ∃ i p, s.procs i = some p ∧ p.c = x ∧ ((∃ t, p.makes E t ∧ s.disk.files x = some t) ∨ (p.WritingClass ∧ s.disk.files x = some []))

theorem agree_move {E : Env} {s : Sys} (h : s.Agree E) (j : Nat) : (s.move E j).Agree E := by
  have back : ∀ {i p}, (s.move E j).procs i = some p → ∃ p', s.procs i = some p' ∧ p'.c = p.c ∧ ∀ t, p.makes E t ↔ p'.makes E t := by
    intro i p hp
    exact run_back (E := E) [j] s hp
  intro i k p q t u hp hq hc ht hu
  obtain ⟨p', hp', c1, m1⟩ := back hp
  obtain ⟨q', hq', c2, m2⟩ := back hq
  exact h i k p' q' t u hp' hq' (c1.trans (hc.trans c2.symm)) ((m1 t).mp ht) ((m2 u).mp hu)

theorem agreeInv_move {E : Env} {x : Str} {first : Option Str} {s : Sys} (h : AgreeInv E x first s) (ha : s.Agree E)
    (hm : ∀ i p, s.procs i = some p → ∀ t, p.pc.pending = some t → p.makes E t) (j : Nat) : AgreeInv E x first (s.move E j) := by
  cases hq : s.procs j with
  | none =>
    have : s.move E j = s := by unfold Sys.move; rw [hq]
    rw [this]; exact h
  | some q =>
    obtain ⟨m1, m2⟩ := move_self (E := E) hq
    have hsc := step_c (E := E) q s.disk
    have keep : ∀ {i p}, i ≠ j → s.procs i = some p → (s.move E j).procs i = some p := fun hi hp => by rw [move_other hi]; exact hp
    by_cases hcx : q.c = x
    · rcases step_agree (E := E) q s.disk with ⟨text, hpc, hst⟩ | ⟨text, hpc, hw, hf⟩ | ⟨hnw, hf, hun⟩
      · have hmk : q.makes E text := hm j q hq text (by rw [hpc]; rfl)
        refine .inr ⟨j, _, m1, by rw [hsc]; exact hcx, .inl ⟨text, step_makes.mpr hmk, ?_⟩⟩
        rw [m2, hst]
        rcases h with ⟨_, hu⟩ | ⟨i, p, hp, hpx, ⟨t, ht, hfx⟩ | ⟨_, hfx⟩⟩
        · rcases hu j q hq hcx with h | ⟨e, h⟩ <;> rw [hpc] at h <;> cases h
        · have e := ha i j p q t text hp hq (hpx.trans hcx.symm) ht hmk
          subst e
          simp [Disk.writeClass, overlay, hcx, hfx]
        · simp [Disk.writeClass, overlay, hcx, hfx]
      · refine .inr ⟨j, _, m1, by rw [hsc]; exact hcx, .inr ⟨hw, ?_⟩⟩
        rw [m2, ← hcx]; exact hf
      · rw [hcx] at hf
        rcases h with ⟨hfx, hu⟩ | ⟨i, p, hp, hpx, hh⟩
        · refine .inl ⟨by rw [m2, hf]; exact hfx, fun i p hp hpx => ?_⟩
          by_cases hi : i = j
          · subst hi; rw [m1] at hp; cases hp; exact hun (hu i q hq hcx)
          · rw [move_other hi] at hp; exact hu i p hp hpx
        · by_cases hi : i = j
          · subst hi
            rw [hq] at hp; cases hp
            rcases hh with ⟨t, ht, hfx⟩ | ⟨hw, _⟩
            · exact .inr ⟨i, _, m1, by rw [hsc]; exact hcx, .inl ⟨t, step_makes.mpr ht, by rw [m2, hf]; exact hfx⟩⟩
            · exact absurd hw hnw
          · refine .inr ⟨i, p, keep hi hp, hpx, ?_⟩
            rw [m2, hf]; exact hh
    · have hd : (s.move E j).disk.files x = s.disk.files x := by
        rw [m2]; exact (step_files (E := E) q s.disk).2.1 x (Ne.symm hcx)
      rcases h with ⟨hfx, hu⟩ | ⟨i, p, hp, hpx, hh⟩
      · refine .inl ⟨by rw [hd]; exact hfx, fun i p hp hpx => ?_⟩
        by_cases hi : i = j
        · subst hi; rw [m1] at hp; cases hp; exact absurd (by rw [← hsc]; exact hpx) hcx
        · rw [move_other hi] at hp; exact hu i p hp hpx
      · have hi : i ≠ j := by rintro rfl; rw [hq] at hp; cases hp; exact hcx hpx
        refine .inr ⟨i, p, keep hi hp, hpx, ?_⟩
        rw [hd]; exact hh

theorem agreeInv_run {E : Env} {x : Str} {first : Option Str} : ∀ (sched : List Nat) (s : Sys), AgreeInv E x first s → s.Agree E →
    (∀ i p, s.procs i = some p → ∀ t, p.pc.pending = some t → p.makes E t) → AgreeInv E x first (s.run E sched)
  | [], _, h, _, _ => h
  | j :: r, s, h, ha, hm => by
    simp only [Sys.run]
    exact agreeInv_run r (s.move E j) (agreeInv_move h ha hm j) (agree_move ha j) (pending_move hm j)

end Verif
