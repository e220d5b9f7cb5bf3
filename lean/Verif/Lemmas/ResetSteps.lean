import Verif.Lemmas.LiveSteps
import Verif.Lemmas.Live
import Verif.Spec.ResetTogether
/-
A call while other processes reset everything.
-/
namespace Verif
open Verif.Spec

theorem Caller.step_gone {E : Env} {r : Caller} {d : Disk} (h : r.gone = true) : r.step E d = (r, d) := by
  unfold Caller.step; simp [h]

/-- A reset either changes nothing, or removes the directory, or removes the stub. -/
theorem reset_cases (x : ResetPc) (d : Disk) :
    (x.step d).2 = d ∧ ((x ≠ .removeDir ∧ x ≠ .removeStub) ∨ (x = .removeDir ∧ d.build = false) ∨ (x = .removeStub ∧ d.pyi = none)) ∨
    (x = .removeDir ∧ d.build = true ∧ (x.step d).2 = { d with build := false, files := fun _ => none }) ∨
    (x = .removeStub ∧ d.pyi ≠ none ∧ (x.step d).2 = { d with pyi := none }) := by
  cases x with
  | removeDir =>
    cases hb : d.build with
    | true => exact .inr (.inl ⟨rfl, rfl, by simp [ResetPc.step, hb]⟩)
    | false => exact .inl ⟨by simp [ResetPc.step, hb], .inr (.inl ⟨rfl, rfl⟩)⟩
  | removeStub =>
    cases hb : d.pyi with
    | some t => exact .inr (.inr ⟨rfl, by simp, by simp [ResetPc.step, hb]⟩)
    | none => exact .inl ⟨by simp [ResetPc.step, hb], .inr (.inr ⟨rfl, rfl⟩)⟩
  | _ => exact .inl ⟨rfl, .inl ⟨by simp, by simp⟩⟩

theorem Caller.after_proc (r : Caller) (x : ResetPc) (d : Disk) : (r.after x d).proc = r.proc ∧ (r.after x d).gone = r.gone := by
  unfold Caller.after
  split <;> exact ⟨rfl, rfl⟩

/-- A reset that changes nothing does not concern the caller. -/
theorem Caller.after_quiet {r : Caller} {x : ResetPc} {d : Disk}
    (h : (x ≠ .removeDir ∧ x ≠ .removeStub) ∨ (x = .removeDir ∧ d.build = false) ∨ (x = .removeStub ∧ d.pyi = none)) : r.after x d = r := by
  unfold Caller.after
  split
  · rename_i e1 e2
    rcases h with ⟨h, _⟩ | ⟨_, h⟩ | ⟨h, _⟩
    · exact absurd rfl h
    · simp [h]
    · cases h
  · rename_i e1 e2
    rcases h with ⟨_, h⟩ | ⟨h, _⟩ | ⟨_, h⟩
    · exact absurd rfl h
    · cases h
    · simp [h]
  · rfl

/-! ### One reset never fails -/

/-- A reset finds what it has seen. -/
def ResetFinds (x : ResetPc) (d : Disk) : Prop := (x = .removeDir → d.build = true) ∧ (x = .removeStub → d.pyi ≠ none) ∧ x ≠ .done false

theorem resetFinds_step {x : ResetPc} {d : Disk} (h : ResetFinds x d) : ResetFinds (x.step d).1 (x.step d).2 := by
  obtain ⟨h1, h2, h3⟩ := h
  cases x with
  | dirTest => cases hb : d.build <;> simp [ResetFinds, ResetPc.step, hb]
  | removeDir => simp [ResetFinds, ResetPc.step, h1 rfl]
  | stubTest => cases hb : d.pyi <;> simp [ResetFinds, ResetPc.step, hb]
  | removeStub =>
    cases hb : d.pyi with
    | none => exact absurd hb (h2 rfl)
    | some t => simp [ResetFinds, ResetPc.step, hb]
  | done ok => cases ok <;> simp [ResetFinds, ResetPc.step] at h3 ⊢

theorem step_pyi {E : Env} (p : Proc) (d : Disk) (h : d.pyi ≠ none) : (p.step E d).2.pyi ≠ none := by
  unfold Proc.step
  (repeat' split) <;> first
    | exact h
    | simp [Disk.writePyi, Disk.writeClass]
    | (simp only [Disk.writeClass]; exact h)

theorem Caller.step_disk {E : Env} (r : Caller) (d : Disk) : (r.step E d).2 = d ∨ (r.step E d).2 = (r.proc.step E d).2 := by
  unfold Caller.step
  (repeat' split) <;> first
    | exact .inl rfl
    | exact .inr rfl

theorem resetFinds_caller {E : Env} {x : ResetPc} {r : Caller} {d : Disk} (h : ResetFinds x d) : ResetFinds x (r.step E d).2 := by
  rcases r.step_disk (E := E) d with e | e
  · rw [e]; exact h
  · rw [e]
    refine ⟨fun hx => ?_, fun hx => step_pyi _ _ (h.2.1 hx), h.2.2⟩
    rcases (step_files (E := E) r.proc d).1 with b | b
    · exact b
    · rw [b]; exact h.1 hx

/-- Only the reset `j` is still to run. -/
def ResetSys.Only (s : ResetSys) (j : Nat) : Prop := ∀ i, i ≠ j → s.resets i = .done true

theorem resetFinds_run {E : Env} {j : Nat} : ∀ (sched : List (Option Nat)) (s : ResetSys), s.Only j → ResetFinds (s.resets j) s.disk →
    (s.run E sched).Only j ∧ ResetFinds ((s.run E sched).resets j) (s.run E sched).disk
  | [], _, h, h' => ⟨h, h'⟩
  | none :: r, s, h, h' => resetFinds_run r (s.move E none) h (resetFinds_caller h')
  | some i :: r, s, h, h' => by
    refine resetFinds_run r (s.move E (some i)) ?_ ?_
    · intro k hk
      simp only [ResetSys.move]
      split
      · rename_i e; subst e; rw [h k hk]; rfl
      · exact h k hk
    · simp only [ResetSys.move]
      by_cases e : j = i
      · subst e; rw [if_pos rfl]; exact resetFinds_step h'
      · rw [if_neg e, h i (Ne.symm e)]; exact h'

/-! ### Nothing is torn -/

/-- The state of the class file and the stub, with the text of the class (if any) and what there was before. -/
structure Untorn (E : Env) (g : Live) (c : Str) (v : Val) (first : Disk) (r : Caller) (d : Disk) : Prop where
  c_eq : r.proc.c = c
  others : ∀ x, x ≠ c → d.files x = none ∨ d.files x = first.files x
  makes : ∀ t, r.proc.pc.pending = some t → generate { E with S := g.S } c v true = .ok t
  settings : r.proc.live.S = g.S ∧ r.proc.v = v
  opened : r.proc.WritingClass → d.files c = if r.lost then none else some []
  closed : ¬ r.proc.WritingClass → d.files c = none ∨ d.files c = first.files c ∨
    ∃ text, generate { E with S := g.S } c v true = .ok text ∧ d.files c = some text
  stub : r.proc.Writing → r.proc.TextOk ∧ d.pyi = if r.lost then none else some []
  stubClosed : ¬ r.proc.Writing → d.pyi = none ∨ d.pyi = first.pyi ∨ d.pyi = some (join py!"\n" r.proc.live.lines) ∨
    ∃ e, r.proc.pc = .done (.error e)
  lost : r.lost = true → r.proc.WritingClass ∨ r.proc.Writing

theorem Untorn.begins {E : Env} {g : Live} {c : Str} {v : Val} {d : Disk} : Untorn E g c v d ⟨.start g c v, false, false⟩ d where
  c_eq := rfl
  others _ _ := .inr rfl
  makes _ h := by cases h
  settings := ⟨rfl, rfl⟩
  opened := fun ⟨_, h⟩ => by cases h
  closed _ := .inr (.inl rfl)
  stub := fun ⟨_, _, h⟩ => by cases h
  stubClosed _ := .inr (.inl rfl)
  lost h := by cases h

theorem Untorn.unlost {E : Env} {g : Live} {c : Str} {v : Val} {f d : Disk} {r : Caller} (h : Untorn E g c v f r d) (hw : ¬ r.proc.WritingClass)
    (hs : ¬ r.proc.Writing) : r.lost = false := by
  cases hl : r.lost with
  | false => rfl
  | true => rcases h.lost hl with h | h <;> contradiction

/-- Steps that touch no file. -/
theorem Untorn.quiet {E : Env} {g : Live} {c : Str} {v : Val} {f d d' : Disk} {r r' : Caller} (h : Untorn E g c v f r d)
    (hw : ¬ r.proc.WritingClass) (hs : ¬ r.proc.Writing) (he : ∀ e, r.proc.pc ≠ .done (.error e)) (hl : r'.lost = r.lost)
    (hr : ∃ pc, r'.proc = { r.proc with pc } ∧ (∀ t, pc.pending = some t → generate { E with S := g.S } c v true = .ok t) ∧
      (∀ t, pc ≠ .writeClass t) ∧ (∀ t es, pc ≠ .writeStub t es)) (hf : d'.files = d.files) (hp : d'.pyi = d.pyi) :
    Untorn E g c v f r' d' := by
  obtain ⟨pc, e, h1, h2, h3⟩ := hr
  have nw : ¬ r'.proc.WritingClass := fun ⟨t, ht⟩ => h2 t (by rw [e] at ht; exact ht)
  have ns : ¬ r'.proc.Writing := fun ⟨t, es, ht⟩ => h3 t es (by rw [e] at ht; exact ht)
  refine ⟨by rw [e]; exact h.c_eq, fun x hx => by rw [hf]; exact h.others x hx, fun t ht => h1 t (by rw [e] at ht; exact ht),
    by rw [e]; exact h.settings, fun h => absurd h nw, fun _ => by rw [hf]; exact h.closed hw, fun h => absurd h ns, fun _ => ?_, fun hx => ?_⟩
  · rw [hp, e]
    rcases h.stubClosed hs with h | h | h | ⟨x, h⟩
    · exact .inl h
    · exact .inr (.inl h)
    · exact .inr (.inr (.inl h))
    · exact absurd h (he x)
  · rw [hl, h.unlost hw hs] at hx; cases hx

theorem untorn_reset {E : Env} {g : Live} {c : Str} {v : Val} {f d : Disk} {r : Caller} (h : Untorn E g c v f r d) (x : ResetPc) :
    Untorn E g c v f (r.after x d) (x.step d).2 := by
  rcases reset_cases x d with ⟨e, hq⟩ | ⟨rfl, hb, e⟩ | ⟨rfl, hb, e⟩
  · rw [e, Caller.after_quiet hq]; exact h
  · rw [e]
    by_cases hw : r.proc.WritingClass
    · obtain ⟨t, ht⟩ := hw
      have ea : r.after .removeDir d = { r with lost := true } := by
        unfold Caller.after; rw [ht]; simp [hb]
      rw [ea]
      have ns : ¬ r.proc.Writing := fun ⟨_, _, hx⟩ => by rw [ht] at hx; cases hx
      exact ⟨h.c_eq, fun _ _ => .inl rfl, h.makes, h.settings, fun _ => by simp, fun _ => .inl rfl, fun hx => absurd hx ns,
        fun _ => h.stubClosed ns, fun _ => .inl ⟨t, ht⟩⟩
    · have ea : r.after .removeDir d = r := by
        unfold Caller.after
        split
        · rename_i hx; exact absurd ⟨_, hx⟩ hw
        · rename_i hx _; cases hx
        · rfl
      rw [ea]
      exact ⟨h.c_eq, fun _ _ => .inl rfl, h.makes, h.settings, fun hx => absurd hx hw, fun _ => .inl rfl, h.stub, h.stubClosed, h.lost⟩
  · rw [e]
    by_cases hs : r.proc.Writing
    · obtain ⟨t, es, ht⟩ := hs
      have ea : r.after .removeStub d = { r with lost := true } := by
        unfold Caller.after; rw [ht]; simp [Option.isSome_iff_ne_none, hb]
      rw [ea]
      have nw : ¬ r.proc.WritingClass := fun ⟨_, hx⟩ => by rw [ht] at hx; cases hx
      exact ⟨h.c_eq, h.others, h.makes, h.settings, fun hx => absurd hx nw, fun _ => h.closed nw,
        fun hx => ⟨(h.stub hx).1, by simp⟩, fun _ => .inl rfl, fun _ => .inr ⟨t, es, ht⟩⟩
    · have ea : r.after .removeStub d = r := by
        unfold Caller.after
        split
        · rename_i hx _; cases hx
        · rename_i hx; exact absurd ⟨_, _, hx⟩ hs
        · rfl
      rw [ea]
      exact ⟨h.c_eq, h.others, h.makes, h.settings, h.opened, h.closed, fun hx => absurd hx hs, fun _ => .inl rfl, h.lost⟩

theorem untorn_caller {E : Env} {g : Live} {c : Str} {v : Val} {f d : Disk} {r : Caller} (h : Untorn E g c v f r d) :
    Untorn E g c v f (r.step E d).1 (r.step E d).2 := by
  cases hg : r.gone with
  | true => rw [Caller.step_gone hg]; exact h
  | false =>
    obtain ⟨p, lost, gone⟩ := r
    simp only at hg
    subst hg
    have hpc := h.makes
    have hc := h.c_eq
    obtain ⟨hS, hv⟩ := h.settings
    simp only at hpc hc hS hv
    cases hp : p.pc with
    | begin =>
      refine h.quiet ?_ ?_ ?_ ?_ ?_ ?_ ?_ <;> simp [Proc.WritingClass, Proc.Writing, Caller.step, Proc.step, hp]
      · split
        · split
          · exact ⟨_, rfl, by simp [Pc.pending], by simp, by simp⟩
          · exact ⟨_, rfl, by simp [Pc.pending], by simp, by simp⟩
        · exact ⟨_, rfl, by simp [Pc.pending], by simp, by simp⟩
      · (repeat' split) <;> rfl
      · (repeat' split) <;> rfl
    | compare known =>
      have hgen : generate { E with S := p.live.S } p.c p.v true = generate { E with S := g.S } c v true := by rw [hc, hS, hv]
      refine h.quiet ?_ ?_ ?_ ?_ ?_ ?_ ?_ <;> simp only [Proc.WritingClass, Proc.Writing, Caller.step, Proc.step, hp, hgen]
      · simp
      · simp
      · simp
      · (repeat' split) <;> first | rfl | contradiction
      · cases hx : generate { E with S := g.S } c v true with
        | error e => exact ⟨_, rfl, by simp [Pc.pending], by simp, by simp⟩
        | ok text =>
          simp only [Bool.false_eq_true, if_false]
          split
          · exact ⟨.compare known, by simp [← hp], by simp [Pc.pending], by simp, by simp⟩
          · split
            · exact ⟨_, rfl, by simp [Pc.pending], by simp, by simp⟩
            · exact ⟨_, rfl, by simp [Pc.pending], by simp, by simp⟩
      · (repeat' split) <;> rfl
      · (repeat' split) <;> rfl
    | dirTest text =>
      have ht := hpc text (by rw [hp]; rfl)
      have e : Caller.step E ⟨p, lost, false⟩ d = (⟨{ p with pc := if d.build then .openClass text else .makeDir text }, lost, false⟩, d) := by
        simp [Caller.step, Proc.step, hp]
      rw [e]
      refine h.quiet ?_ ?_ ?_ rfl ⟨_, rfl, ?_, ?_, ?_⟩ rfl rfl
      · simp [Proc.WritingClass, hp]
      · simp [Proc.Writing, hp]
      · simp [hp]
      · split <;> (simp [Pc.pending]; exact ht)
      · split <;> simp
      · split <;> simp
    | makeDir text =>
      have ht := hpc text (by rw [hp]; rfl)
      refine h.quiet ?_ ?_ ?_ ?_ ?_ ?_ ?_ <;> simp only [Proc.WritingClass, Proc.Writing, Caller.step, Proc.step, hp]
      · simp
      · simp
      · simp
      · simp
      · simp only [Bool.false_eq_true, if_false]
        split
        · exact ⟨_, rfl, by simp [Pc.pending], by simp, by simp⟩
        · exact ⟨_, rfl, by simp [Pc.pending]; exact ht, by simp, by simp⟩
      · (repeat' split) <;> rfl
      · (repeat' split) <;> rfl
    | openClass text =>
      have ht := hpc text (by rw [hp]; rfl)
      have nw : ¬ p.WritingClass := fun ⟨_, hx⟩ => by rw [hp] at hx; cases hx
      have ns : ¬ p.Writing := fun ⟨_, _, hx⟩ => by rw [hp] at hx; cases hx
      have hl : lost = false := h.unlost nw ns
      subst hl
      cases hb : d.build with
      | false =>
        have e : Caller.step E ⟨p, false, false⟩ d = (⟨p, false, true⟩, d) := by simp [Caller.step, hp, hb]
        rw [e]
        exact h.quiet nw ns (by simp [hp]) rfl ⟨p.pc, rfl, hpc, by simp [hp], by simp [hp]⟩ rfl rfl
      | true =>
        have e : Caller.step E ⟨p, false, false⟩ d = (⟨{ p with pc := .writeClass text }, false, false⟩, d.writeClass p.c []) := by
          simp [Caller.step, Proc.step, hp, hb]
        rw [e]
        refine ⟨hc, fun x hx => ?_, by simp [Pc.pending]; exact ht, ⟨hS, hv⟩, fun _ => by simp [Disk.writeClass, hc], fun hx => absurd ⟨text, rfl⟩ hx,
          fun ⟨_, _, hx⟩ => by simp at hx, fun _ => ?_, by simp⟩
        · simp [Disk.writeClass, hc, hx]; exact h.others x hx
        · rcases h.stubClosed ns with h | h | h | ⟨x, h⟩
          · exact .inl h
          · exact .inr (.inl h)
          · exact .inr (.inr (.inl h))
          · simp [hp] at h
    | writeClass text =>
      have ht := hpc text (by rw [hp]; rfl)
      have ns : ¬ p.Writing := fun ⟨_, _, hx⟩ => by rw [hp] at hx; cases hx
      have ho := h.opened ⟨text, hp⟩
      have hst : d.pyi = none ∨ d.pyi = f.pyi ∨ d.pyi = some (join py!"\n" p.live.lines) ∨ ∃ e, Pc.check = Pc.done (.error e) := by
        rcases h.stubClosed ns with h | h | h | ⟨x, h⟩
        · exact .inl h
        · exact .inr (.inl h)
        · exact .inr (.inr (.inl h))
        · simp [hp] at h
      cases lost with
      | true =>
        have e : Caller.step E ⟨p, true, false⟩ d = (⟨{ p with pc := .check }, false, false⟩, d) := by simp [Caller.step, Proc.step, hp]
        rw [e]
        exact ⟨hc, h.others, by simp [Pc.pending], ⟨hS, hv⟩, fun ⟨_, hx⟩ => by simp at hx, fun _ => .inl (by simpa using ho),
          fun ⟨_, _, hx⟩ => by simp at hx, fun _ => hst, by simp⟩
      | false =>
        have e : Caller.step E ⟨p, false, false⟩ d = (⟨{ p with pc := .check }, false, false⟩, d.writeClass p.c (overlay text ((d.files p.c).getD []))) := by
          simp [Caller.step, Proc.step, hp]
        rw [e]
        refine ⟨hc, fun x hx => ?_, by simp [Pc.pending], ⟨hS, hv⟩, fun ⟨_, hx⟩ => by simp at hx, fun _ => .inr (.inr ⟨text, ht, ?_⟩),
          fun ⟨_, _, hx⟩ => by simp at hx, fun _ => hst, by simp⟩
        · simp [Disk.writeClass, hc, hx]; exact h.others x hx
        · simp only [Bool.false_eq_true, if_false] at ho
          simp [Disk.writeClass, hc, ho, overlay]
    | check =>
      refine h.quiet ?_ ?_ ?_ ?_ ?_ ?_ ?_ <;> simp only [Proc.WritingClass, Proc.Writing, Caller.step, Proc.step, hp]
      · simp
      · simp
      · simp
      · simp
      · simp only [Bool.false_eq_true, if_false]
        split
        · exact ⟨_, rfl, by simp [Pc.pending], by simp, by simp⟩
        · exact ⟨_, rfl, by split <;> simp [Pc.pending], by split <;> simp, by split <;> simp⟩
      · (repeat' split) <;> rfl
      · (repeat' split) <;> rfl
    | edit es =>
      have nw : ¬ p.WritingClass := fun ⟨_, hx⟩ => by rw [hp] at hx; cases hx
      have ns : ¬ p.Writing := fun ⟨_, _, hx⟩ => by rw [hp] at hx; cases hx
      have hl : lost = false := h.unlost nw ns
      subst hl
      cases es with
      | nil =>
        have e : Caller.step E ⟨p, false, false⟩ d = (⟨{ p with pc := .done (.ok p.v) }, false, false⟩, d) := by simp [Caller.step, Proc.step, hp]
        rw [e]
        exact h.quiet nw ns (by simp [hp]) rfl ⟨_, rfl, by simp [Pc.pending], by simp, by simp⟩ rfl rfl
      | cons e es =>
        rcases he : e p.live.lines with ⟨lines, _ | err⟩
        · have e' : Caller.step E ⟨p, false, false⟩ d =
              (⟨{ p with live := { p.live with lines }, pc := .writeStub (join py!"\n" lines) es }, false, false⟩, d.writePyi []) := by
            simp [Caller.step, Proc.step, hp, he]
          rw [e']
          refine ⟨hc, h.others, by simp [Pc.pending], ⟨hS, hv⟩, fun ⟨_, hx⟩ => by simp at hx, fun _ => h.closed nw,
            fun _ => ⟨?_, by simp [Disk.writePyi]⟩, fun hx => absurd ⟨_, _, rfl⟩ hx, by simp⟩
          intro t es' hx
          simp only [Pc.writeStub.injEq] at hx
          exact hx.1.symm
        · have e' : Caller.step E ⟨p, false, false⟩ d =
              (⟨{ p with live := { p.live with lines }, pc := .done (.error (.live err)) }, false, false⟩, d) := by
            simp [Caller.step, Proc.step, hp, he]
          rw [e']
          exact ⟨hc, h.others, by simp [Pc.pending], ⟨hS, hv⟩, fun ⟨_, hx⟩ => by simp at hx, fun _ => h.closed nw,
            fun ⟨_, _, hx⟩ => by simp at hx, fun _ => .inr (.inr (.inr ⟨_, rfl⟩)), by simp⟩
    | writeStub text es =>
      have nw : ¬ p.WritingClass := fun ⟨_, hx⟩ => by rw [hp] at hx; cases hx
      obtain ⟨htx, ho⟩ := h.stub ⟨text, es, hp⟩
      have htx := htx text es hp
      cases lost with
      | true =>
        have e : Caller.step E ⟨p, true, false⟩ d = (⟨{ p with pc := .edit es }, false, false⟩, d) := by simp [Caller.step, Proc.step, hp]
        rw [e]
        exact ⟨hc, h.others, by simp [Pc.pending], ⟨hS, hv⟩, fun ⟨_, hx⟩ => by simp at hx, fun _ => h.closed nw,
          fun ⟨_, _, hx⟩ => by simp at hx, fun _ => .inl (by simpa using ho), by simp⟩
      | false =>
        have e : Caller.step E ⟨p, false, false⟩ d = (⟨{ p with pc := .edit es }, false, false⟩, d.writePyi (overlay text (d.pyi.getD []))) := by
          simp [Caller.step, Proc.step, hp]
        rw [e]
        refine ⟨hc, h.others, by simp [Pc.pending], ⟨hS, hv⟩, fun ⟨_, hx⟩ => by simp at hx, fun _ => h.closed nw,
          fun ⟨_, _, hx⟩ => by simp at hx, fun _ => .inr (.inr (.inl ?_)), by simp⟩
        simp only [Bool.false_eq_true, if_false] at ho
        simp [Disk.writePyi, ho, overlay, ← htx]
    | done res =>
      have e : Caller.step E ⟨p, lost, false⟩ d = (⟨p, lost, false⟩, d) := by simp [Caller.step, Proc.step, hp]
      rw [e]; exact h

theorem untorn_run {E : Env} {g : Live} {c : Str} {v : Val} {f : Disk} : ∀ (sched : List (Option Nat)) (s : ResetSys),
    Untorn E g c v f s.caller s.disk → Untorn E g c v f (s.run E sched).caller (s.run E sched).disk
  | [], _, h => h
  | none :: r, s, h => untorn_run r (s.move E none) (untorn_caller h)
  | some j :: r, s, h => untorn_run r (s.move E (some j)) (untorn_reset h (s.resets j))

/-! ### While the directory stays -/

/-- The caller has not yet begun to edit the stub. -/
theorem step_without_stub {E : Env} {p : Proc} (d : Disk) (x : Option Str) (h : p.pc.early) :
    p.step E { d with pyi := x } = ((p.step E d).1, { (p.step E d).2 with pyi := x }) ∧ (p.step E d).2.pyi = d.pyi := by
  have hc : ∀ l, classesAdded l { d with pyi := x } = classesAdded l d := fun _ => rfl
  unfold Proc.step
  cases hp : p.pc with
  | edit => rw [hp] at h; exact h.elim
  | writeStub => rw [hp] at h; exact h.elim
  | done => rw [hp] at h; exact h.elim
  | _ => dsimp only; (try rw [hc]); (repeat' split) <;> exact ⟨rfl, rfl⟩

/-- The caller is where it would be if nobody reset anything, and only the stub may be missing. -/
structure SoFar (r : Caller) (d : Disk) (p : Proc) (d' : Disk) : Prop where
  proc : r.proc = p
  there : r.gone = false
  disk : ∃ x, d = { d' with pyi := x } ∧ (x = none ∨ x = d'.pyi) ∧ (r.lost = true → x = none) ∧ (r.lost = false → p.Writing → x = d'.pyi)
  lost : r.lost = true → p.Writing
  known : p.pc = .compare true → d'.files p.c ≠ none
  dir : ∀ t, p.pc = .openClass t ∨ p.pc = .writeClass t → d'.build = true

theorem SoFar.begins {p : Proc} {d : Disk} (h : p.pc = .begin) : SoFar ⟨p, false, false⟩ d p d where
  proc := rfl
  there := rfl
  disk := ⟨d.pyi, rfl, .inr rfl, by simp, fun _ _ => rfl⟩
  lost := by simp
  known := by simp [h]
  dir := by simp [h]

theorem sofar_reset {r : Caller} {d d' : Disk} {p : Proc} (h : SoFar r d p d') (x : ResetPc) (hx : ¬ (x = .removeDir ∧ d.build = true)) :
    SoFar (r.after x d) (x.step d).2 p d' := by
  rcases reset_cases x d with ⟨e, hq⟩ | ⟨e1, e2, _⟩ | ⟨rfl, hb, e⟩
  · rw [e, Caller.after_quiet hq]; exact h
  · exact absurd ⟨e1, e2⟩ hx
  · rw [e]
    obtain ⟨y, hy, _, _, _⟩ := h.disk
    have hd : ({ d with pyi := none } : Disk) = { d' with pyi := none } := by rw [hy]
    by_cases hs : p.Writing
    · have ea : r.after .removeStub d = { r with lost := true } := by
        obtain ⟨t, es, ht⟩ := hs
        rw [← h.proc] at ht
        unfold Caller.after; rw [ht]; simp [Option.isSome_iff_ne_none, hb]
      rw [ea]
      exact ⟨h.proc, h.there, ⟨none, hd, .inl rfl, fun _ => rfl, by simp⟩, fun _ => hs, h.known, h.dir⟩
    · have ea : r.after .removeStub d = r := by
        unfold Caller.after
        split
        · rename_i hx _; cases hx
        · rename_i hx; rw [h.proc] at hx; exact absurd ⟨_, _, hx⟩ hs
        · rfl
      rw [ea]
      exact ⟨h.proc, h.there, ⟨none, hd, .inl rfl, fun _ => rfl, fun _ hw => absurd hw hs⟩, h.lost, h.known, h.dir⟩

/-- What a process knows after a step. -/
theorem step_knows {E : Env} (p : Proc) (d : Disk) (h : p.pc.early) (hd : ∀ t, p.pc = .openClass t ∨ p.pc = .writeClass t → d.build = true) :
    ¬ (p.step E d).1.Writing ∧ ((p.step E d).1.pc = .compare true → (p.step E d).2.files p.c ≠ none) ∧
    (∀ t, (p.step E d).1.pc = .openClass t ∨ (p.step E d).1.pc = .writeClass t → (p.step E d).2.build = true) := by
  unfold Proc.step
  cases hp : p.pc with
  | edit => rw [hp] at h; exact h.elim
  | writeStub => rw [hp] at h; exact h.elim
  | done => rw [hp] at h; exact h.elim
  | begin =>
    dsimp only
    split
    · split
      · simp [Proc.Writing]
      · rename_i names hn
        refine ⟨by simp [Proc.Writing], fun hk => ?_, by simp⟩
        simp only [Pc.compare.injEq, List.contains_iff_mem] at hk
        obtain ⟨cs, _, e, hf⟩ := classesAdded_files hn
        rw [e] at hk
        exact Option.isSome_iff_ne_none.mp (hf _ (mem_dedup.mp hk))
    · simp [Proc.Writing]
  | compare known =>
    dsimp only
    (repeat' split) <;> simp [Proc.Writing]
  | dirTest text =>
    dsimp only
    cases hb : d.build <;> simp [Proc.Writing]
  | makeDir text =>
    dsimp only
    cases hb : d.build <;> simp [Proc.Writing]
  | openClass text =>
    have := hd text (.inl hp)
    simp [Proc.Writing, Disk.writeClass, this]
  | writeClass text => simp [Proc.Writing]
  | check =>
    dsimp only
    split
    · simp [Proc.Writing]
    · refine ⟨?_, ?_, ?_⟩ <;> simp only [Proc.Writing] <;> split <;> simp

theorem sofar_caller {E : Env} {r : Caller} {d d' : Disk} {p : Proc} (h : SoFar r d p d') :
    SoFar (r.step E d).1 (r.step E d).2 (p.step E d').1 (p.step E d').2 := by
  obtain ⟨rp, lost, gone⟩ := r
  obtain ⟨h1, h2, ⟨x, hd, hx, hl, hw⟩, h4, h5, h6⟩ := h
  simp only at h1 h2 hl hw h4
  subst h1 h2 hd
  by_cases he : rp.pc.early
  · obtain ⟨e1, e2⟩ := step_without_stub (E := E) d' x he
    obtain ⟨k1, k2, k3⟩ := step_knows (E := E) rp d' he h6
    have hlost : lost = false := by
      cases lost with
      | false => rfl
      | true =>
        obtain ⟨t, es, ht⟩ := h4 rfl
        rw [ht] at he; exact he.elim
    subst hlost
    have e : Caller.step E ⟨rp, false, false⟩ { d' with pyi := x } =
        (⟨(rp.step E d').1, false, false⟩, { (rp.step E d').2 with pyi := x }) := by
      have hn : (({ proc := (rp.step E { d' with pyi := x }).1, lost := false, gone := false } : Caller), (rp.step E { d' with pyi := x }).2) =
        (⟨(rp.step E d').1, false, false⟩, { (rp.step E d').2 with pyi := x }) := by rw [e1]
      unfold Caller.step
      dsimp only
      rw [if_neg (by simp), hn]
      split
      · rename_i known hp
        split
        · rfl
        · have : (known && rp.live.mode == Mode.validate && (d'.files rp.c).isNone) = false := by
            cases known with
            | false => rfl
            | true =>
              have := h5 hp
              cases hf : d'.files rp.c with
              | none => exact absurd hf this
              | some t => simp
          simp [this]
      · rename_i hp
        rw [if_pos (h6 _ (.inl hp))]
      · simp
      · simp
      · rfl
    rw [e]
    exact ⟨rfl, rfl, ⟨x, rfl, by rw [e2]; exact hx, by simp, fun _ hk => absurd hk k1⟩, by simp, by rw [step_c]; exact k2, k3⟩
  · cases hp : rp.pc with
    | edit es =>
      have hlost : lost = false := by
        cases lost with
        | false => rfl
        | true =>
          obtain ⟨t, es, ht⟩ := h4 rfl
          rw [hp] at ht; cases ht
      subst hlost
      cases es with
      | nil =>
        have e : Caller.step E ⟨rp, false, false⟩ { d' with pyi := x } = (⟨{ rp with pc := .done (.ok rp.v) }, false, false⟩, { d' with pyi := x }) := by
          simp [Caller.step, Proc.step, hp]
        have e' : rp.step E d' = ({ rp with pc := .done (.ok rp.v) }, d') := by simp [Proc.step, hp]
        rw [e, e']
        exact ⟨rfl, rfl, ⟨x, rfl, hx, by simp, fun _ ⟨_, _, hk⟩ => by simp at hk⟩, by simp, by simp, by simp⟩
      | cons ed es =>
        rcases he : ed rp.live.lines with ⟨lines, _ | err⟩
        · have e : Caller.step E ⟨rp, false, false⟩ { d' with pyi := x } =
              (⟨{ rp with live := { rp.live with lines }, pc := .writeStub (join py!"\n" lines) es }, false, false⟩, d'.writePyi []) := by
            simp [Caller.step, Proc.step, hp, he, Disk.writePyi]
          have e' : rp.step E d' = ({ rp with live := { rp.live with lines }, pc := .writeStub (join py!"\n" lines) es }, d'.writePyi []) := by
            simp [Proc.step, hp, he]
          rw [e, e']
          exact ⟨rfl, rfl, ⟨some [], rfl, .inr rfl, by simp, fun _ _ => rfl⟩, by simp, by simp, by simp⟩
        · have e : Caller.step E ⟨rp, false, false⟩ { d' with pyi := x } =
              (⟨{ rp with live := { rp.live with lines }, pc := .done (.error (.live err)) }, false, false⟩, { d' with pyi := x }) := by
            simp [Caller.step, Proc.step, hp, he]
          have e' : rp.step E d' = ({ rp with live := { rp.live with lines }, pc := .done (.error (.live err)) }, d') := by
            simp [Proc.step, hp, he]
          rw [e, e']
          exact ⟨rfl, rfl, ⟨x, rfl, hx, by simp, fun _ ⟨_, _, hk⟩ => by simp at hk⟩, by simp, by simp, by simp⟩
    | writeStub text es =>
      have e' : rp.step E d' = ({ rp with pc := .edit es }, d'.writePyi (overlay text (d'.pyi.getD []))) := by simp [Proc.step, hp]
      rw [e']
      cases lost with
      | true =>
        have e : Caller.step E ⟨rp, true, false⟩ { d' with pyi := x } = (⟨{ rp with pc := .edit es }, false, false⟩, { d' with pyi := x }) := by
          simp [Caller.step, Proc.step, hp]
        rw [e]
        exact ⟨rfl, rfl, ⟨x, rfl, .inl (hl rfl), by simp, fun _ ⟨_, _, hk⟩ => by simp at hk⟩, by simp, by simp, by simp⟩
      | false =>
        have hx' := hw rfl ⟨text, es, hp⟩
        have e : Caller.step E ⟨rp, false, false⟩ { d' with pyi := x } =
            (⟨{ rp with pc := .edit es }, false, false⟩, d'.writePyi (overlay text (x.getD []))) := by
          simp [Caller.step, Proc.step, hp, Disk.writePyi]
        rw [e, hx']
        exact ⟨rfl, rfl, ⟨_, rfl, .inr rfl, by simp, fun _ _ => rfl⟩, by simp, by simp, by simp⟩
    | done res =>
      have e : Caller.step E ⟨rp, lost, false⟩ { d' with pyi := x } = (⟨rp, lost, false⟩, { d' with pyi := x }) := by
        simp [Caller.step, Proc.step, hp]
      have e' : rp.step E d' = (rp, d') := by simp [Proc.step, hp]
      rw [e, e']
      exact ⟨rfl, rfl, ⟨x, rfl, hx, hl, hw⟩, h4, h5, h6⟩
    | _ => rw [hp] at he; exact absurd trivial he

theorem sofar_run {E : Env} : ∀ (sched : List (Option Nat)) (s : ResetSys) (p : Proc) (d' : Disk), SoFar s.caller s.disk p d' →
    (∀ pre i post, sched = pre ++ i :: post → ¬ (s.run E pre).RemovesDir i) →
    SoFar (s.run E sched).caller (s.run E sched).disk (Proc.alone E (sched.count none) p d').1 (Proc.alone E (sched.count none) p d').2
  | [], _, _, _, h, _ => h
  | none :: r, s, p, d', h, hn => by
    rw [List.count_cons_self]
    exact sofar_run r (s.move E none) _ _ (sofar_caller h) (fun pre i post e => hn (none :: pre) i post (by rw [e]; rfl))
  | some j :: r, s, p, d', h, hn => by
    rw [List.count_cons_of_ne (by simp)]
    refine sofar_run r (s.move E (some j)) p d' (sofar_reset h (s.resets j) ?_) (fun pre i post e => hn (some j :: pre) i post (by rw [e]; rfl))
    intro hx
    exact hn [] (some j) r rfl ⟨j, rfl, hx⟩

/-! ### Where the caller raises, and after it is over -/

/-- A `FileNotFoundError` is raised where a file is read or opened. -/
def Caller.GoneAt (r : Caller) : Prop := r.gone = true → (∃ k, r.proc.pc = .compare k) ∨ ∃ t, r.proc.pc = .openClass t

theorem goneAt_step {E : Env} {r : Caller} {d : Disk} (h : r.GoneAt) : (r.step E d).1.GoneAt := by
  cases hg : r.gone with
  | true => rw [Caller.step_gone hg]; exact h
  | false =>
    unfold Caller.step
    dsimp only
    rw [if_neg (by simp [hg])]
    split
    · rename_i k hp
      split
      · intro hx; simp [hg] at hx
      · split
        · exact fun _ => .inl ⟨k, hp⟩
        · intro hx; simp [hg] at hx
    · rename_i t hp
      split
      · intro hx; simp [hg] at hx
      · exact fun _ => .inr ⟨t, hp⟩
    · split <;> (intro hx; simp [hg] at hx)
    · split <;> (intro hx; simp [hg] at hx)
    · intro hx; simp [hg] at hx

theorem goneAt_after {r : Caller} (h : r.GoneAt) (x : ResetPc) (d : Disk) : (r.after x d).GoneAt := by
  intro hg
  rw [(r.after_proc x d).2] at hg
  rw [(r.after_proc x d).1]
  exact h hg

theorem goneAt_run {E : Env} : ∀ (sched : List (Option Nat)) (s : ResetSys), s.caller.GoneAt → (s.run E sched).caller.GoneAt
  | [], _, h => h
  | none :: r, s, h => goneAt_run r (s.move E none) (goneAt_step h)
  | some j :: r, s, h => goneAt_run r (s.move E (some j)) (goneAt_after h _ _)

theorem over_stays {E : Env} {r : Caller} {d : Disk} (h : r.gone = true ∨ ∃ x, r.proc.pc = .done x) : r.step E d = (r, d) := by
  rcases h with h | ⟨x, h⟩
  · exact Caller.step_gone h
  · cases hg : r.gone with
    | true => exact Caller.step_gone hg
    | false =>
      obtain ⟨p, lost, gone⟩ := r
      simp only at hg h
      subst hg
      simp [Caller.step, Proc.step, h]

/-- Every class in the registry of the stub has a file. -/
def Disk.Registered (d : Disk) : Prop :=
  ∀ text names, d.pyi = some text → registered (splitlines text) = .ok names → ∀ x ∈ names, d.files x ≠ none

/-- After the call: the registry is as it should be, or the stub is missing or going to be removed. -/
def ResetSys.Settled (s : ResetSys) : Prop := s.disk.Registered ∨ s.disk.pyi = none ∨ ∃ j, s.resets j = .stubTest ∨ s.resets j = .removeStub

theorem settled_reset {E : Env} {s : ResetSys} (h : s.Settled) (j : Nat) : (s.move E (some j)).Settled := by
  have hd : (s.move E (some j)).disk = ((s.resets j).step s.disk).2 := rfl
  have hj : (s.move E (some j)).resets j = ((s.resets j).step s.disk).1 := by simp [ResetSys.move]
  rcases reset_cases (s.resets j) s.disk with ⟨e, _⟩ | ⟨h1, h2, _⟩ | ⟨h1, h2, e⟩
  · rw [e] at hd
    rcases h with h | h | ⟨i, h⟩
    · exact .inl (by rw [hd]; exact h)
    · exact .inr (.inl (by rw [hd]; exact h))
    · by_cases hi : i = j
      · subst hi
        cases hp : s.disk.pyi with
        | none => exact .inr (.inl (by rw [hd]; exact hp))
        | some t =>
          rcases h with h | h
          · exact .inr (.inr ⟨i, .inr (by rw [hj, h]; simp [ResetPc.step, hp])⟩)
          · rw [h] at e
            have := congrArg Disk.pyi e
            simp [ResetPc.step, hp] at this
      · exact .inr (.inr ⟨i, by simp only [ResetSys.move, if_neg hi]; exact h⟩)
  · exact .inr (.inr ⟨j, .inl (by rw [hj, h1]; simp [ResetPc.step, h2])⟩)
  · exact .inr (.inl (by rw [hd, e]))

/-- During the call the caller is where it would be alone; afterwards the registry settles. -/
def Progress (E : Env) (p : Proc) (d : Disk) (s : ResetSys) : Prop :=
  (¬ s.CallOver ∧ ∃ n, SoFar s.caller s.disk (Proc.alone E n p d).1 (Proc.alone E n p d).2) ∨ (s.CallOver ∧ s.Settled)

theorem alone_snoc {E : Env} : ∀ (n : Nat) (p : Proc) (d : Disk),
    Proc.alone E (n + 1) p d = (Proc.alone E n p d).1.step E (Proc.alone E n p d).2
  | 0, _, _ => rfl
  | n + 1, p, d => by rw [Proc.alone, alone_snoc n]; rfl

theorem progress_of_sofar {E : Env} {p : Proc} {d : Disk} {s : ResetSys} {n : Nat}
    (h : SoFar s.caller s.disk (Proc.alone E n p d).1 (Proc.alone E n p d).2)
    (hr : ∀ n x, (Proc.alone E n p d).1.pc = .done x → (Proc.alone E n p d).2.Registered) : Progress E p d s := by
  by_cases ho : s.CallOver
  · refine .inr ⟨ho, ?_⟩
    rcases ho with hg | ⟨x, hx⟩
    · rw [h.there] at hg; cases hg
    · rw [h.proc] at hx
      have := hr n x hx
      obtain ⟨y, hd, hy, _⟩ := h.disk
      rcases hy with hy | hy
      · exact .inr (.inl (by rw [hd]; exact hy))
      · refine .inl ?_
        rw [hd, hy]; exact this
  · exact .inl ⟨ho, n, h⟩

theorem progress_run {E : Env} {p : Proc} {d : Disk} (hr : ∀ n x, (Proc.alone E n p d).1.pc = .done x → (Proc.alone E n p d).2.Registered) :
    ∀ (sched : List (Option Nat)) (s : ResetSys), Progress E p d s →
    (∀ pre i post, sched = pre ++ i :: post → ¬ (s.run E pre).CallOver → ¬ (s.run E pre).RemovesDir i) → Progress E p d (s.run E sched)
  | [], _, h, _ => h
  | i :: r, s, h, hn => by
    refine progress_run hr r (s.move E i) ?_ (fun pre k post e => hn (i :: pre) k post (by rw [e]; rfl))
    rcases h with ⟨ho, n, h⟩ | ⟨ho, h⟩
    · cases i with
      | none =>
        refine progress_of_sofar (n := n + 1) ?_ hr
        rw [alone_snoc]
        exact sofar_caller h
      | some j =>
        refine progress_of_sofar (n := n) (sofar_reset h (s.resets j) ?_) hr
        intro hx
        exact hn [] (some j) r rfl ho ⟨j, rfl, hx⟩
    · cases i with
      | none =>
        have : s.move E none = s := by
          simp only [ResetSys.move]
          rw [over_stays ho]
        rw [this]
        exact .inr ⟨ho, h⟩
      | some j =>
        refine .inr ⟨?_, settled_reset h j⟩
        have := s.caller.after_proc (s.resets j) s.disk
        simp only [ResetSys.CallOver, ResetSys.move] at ho ⊢
        rw [this.1, this.2]; exact ho

end Verif
