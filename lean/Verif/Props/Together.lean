import Verif.Lemmas.AgreeingCalls
import Verif.Props.LiveCrash
/-
C96: live calls in several processes at the same time.
-/
namespace Verif.Props
open Verif Verif.Spec

/-- The steps of a call that nobody interrupts, put together, are the call of `Model/Live`. -/
theorem steps_make_call (E : Env) (g : Live) (d : Disk) (c : Str) (v : Val) (n : Nat) (hn : 16 ≤ n) :
    Proc.alone E n (.start g c v) d =
      (⟨(g.fromData E d c v).live, c, v, .done ((g.fromData E d c v).result.mapError .live)⟩, (g.fromData E d c v).disk) := by
  obtain ⟨k, hk, h⟩ := call_alone (E := E) g d c v
  exact h.ends rfl (by omega)

/-- **C96** (partial). Calls for different classes do not disturb each other, whatever the order of their steps, if the directory of
generated classes exists and no registered class has lost its file. Missing: calls for the same class, the first calls of all, the
stub (see `whole_stub_partial`). -/
theorem undisturbed_partial (E : Env) : Undisturbed E (fun s => s.Distinct ∧ s.disk.build = true ∧ s.Complete) := by
  rintro s sched i g c v ⟨hd, hb, hp⟩ _ hi hc
  have hP : Present (.start g c v) s.disk := fun _ => hp i _ hi
  obtain ⟨h1, h2⟩ := run_alone (E := E) sched s _ s.disk hd hi ⟨rfl, hb, hb, hP, hP⟩
  rw [steps_make_call E g s.disk c v _ hc] at h1 h2
  exact ⟨h1, h2⟩

/-- **C96**: whatever the order of steps, the files of classes that no call is about are left alone. -/
theorem other_files_untouched (E : Env) (s : Sys) (sched : List Nat) (x : Str) (h : ∀ i p, s.procs i = some p → p.c ≠ x) :
    (s.run E sched).disk.files x = s.disk.files x := run_untouched sched s h

/-- **C96** (partial). If no process opens the stub while another one is writing it, the stub is whole in the end. -/
theorem whole_stub_partial (E : Env) :
    WholeStub E (fun s sched => ∀ pre post, sched = pre ++ post → (s.run E pre).OneWriter) := by
  intro s sched h hb hd
  have h0 : StubInv s.disk.pyi s := .inl ⟨rfl, fun i p hp ⟨_, _, e⟩ => by rw [hb i p hp] at e; cases e⟩
  rcases stubInv_run (E := E) sched s h0 h with ⟨h1, _⟩ | ⟨i, p, hp, ⟨⟨_, _, e⟩, _⟩ | ⟨h1, _⟩ | ⟨_, e⟩⟩
  · exact .inl h1
  · rw [hd i p hp] at e; cases e
  · exact .inr ⟨i, p, hp, h1⟩
  · rw [hd i p hp] at e; cases e

/-- **C96** (partial). If no process opens the file of a class while another one is writing it, the file holds in the end the complete
text that one of the calls for the class generates. -/
theorem whole_class_partial (E : Env) :
    WholeClass E (fun s sched => ∀ pre post, sched = pre ++ post → (s.run E pre).OneClassWriter) := by
  intro s sched h hb hd x
  have h0 : ClassInv E x (s.disk.files x) s := .inl ⟨rfl, fun i p hp _ => by rw [hb i p hp]; rfl⟩
  have hm : ∀ i p, s.procs i = some p → ∀ t, p.pc.pending = some t → p.makes E t := fun i p hp t ht => by rw [hb i p hp] at ht; cases ht
  rcases classInv_run (E := E) sched s h0 hm h with ⟨h1, h2⟩ | ⟨i, p, hp, ⟨_, ⟨_, e⟩, _⟩ | ⟨hc, ⟨t, ht, hf⟩, _⟩ | ⟨_, e⟩⟩
  · refine .inl ⟨?_, h1⟩
    intro j q hq hc
    obtain ⟨q', hq', e⟩ := run_forth (E := E) sched s hq
    have := h2 j q' hq' (e.trans hc)
    rw [hd j q' hq'] at this
    cases this
  · rw [hd i p hp] at e; cases e
  · obtain ⟨q, hq, e, hmk⟩ := run_back sched s hp
    have := (hmk t).mp ht
    unfold Proc.makes at this
    rw [e, hc] at this
    exact .inr ⟨i, q, t, hq, e.trans hc, this, hf⟩
  · rw [hd i p hp] at e; cases e

/-- **C96**: calls for different classes write whole files, whatever the order of their steps. -/
theorem whole_class_distinct (E : Env) : WholeClass E (fun s _ => s.Distinct) := by
  intro s sched h
  refine whole_class_partial E s sched ?_
  intro pre _ _ i j p q hp hq hc _ _
  by_cases hij : i = j
  · exact hij
  · exact absurd hc (Sys.Distinct.run pre h i j p q hij hp hq)

/-- **C96**: calls for the same class that generate the same text, and calls for different classes, write whole files, whatever the order of
their steps. -/
theorem whole_class_agree (E : Env) : WholeClass E (fun s _ => ∀ i j p q t u, s.procs i = some p → s.procs j = some q → p.c = q.c →
    generate { E with S := p.live.S } p.c p.v true = .ok t → generate { E with S := q.live.S } q.c q.v true = .ok u → t = u) := by
  intro s sched h hb hd x
  have h0 : AgreeInv E x (s.disk.files x) s := .inl ⟨rfl, fun i p hp _ => .inl (by rw [hb i p hp]; rfl)⟩
  have hm : ∀ i p, s.procs i = some p → ∀ t, p.pc.pending = some t → p.makes E t := fun i p hp t ht => by rw [hb i p hp] at ht; cases ht
  rcases agreeInv_run (E := E) sched s h0 h hm with ⟨h1, h2⟩ | ⟨i, p, hp, hc, ⟨t, ht, hf⟩ | ⟨⟨_, e⟩, _⟩⟩
  · refine .inl ⟨?_, h1⟩
    intro j q hq hc
    obtain ⟨q', hq', e⟩ := run_forth (E := E) sched s hq
    rcases h2 j q' hq' (e.trans hc) with h | ⟨_, h⟩ <;> rw [hd j q' hq'] at h <;> cases h
  · obtain ⟨q, hq, e, hmk⟩ := run_back sched s hp
    have := (hmk t).mp ht
    unfold Proc.makes at this
    rw [e, hc] at this
    exact .inr ⟨i, q, t, hq, e.trans hc, this, hf⟩
  · rw [hd i p hp] at e; cases e

/-! ### Where the claim is false -/

/-- Two processes after a history: the generators 0 and 1 are called for the classes `a` and `b`. -/
def twoProcs (hist : List Event) (a b : Str) (x y : Val) : Sys :=
  let w := World.empty.run (exEnv {}) hist
  { procs := fun i => if i = 0 then (w.gens 0).map (fun g => .start g a x) else if i = 1 then (w.gens 1).map (fun g => .start g b y) else none,
    disk := w.disk }

/-- Both generators are new. -/
def bothNew : List Event := [.new 0 {} .overwrite, .new 1 {} .overwrite]

/-- ... and there is already a class. -/
def bothLater : List Event := [.new 2 {} .overwrite, .call 2 py!"Z" undocumented, .new 0 {} .overwrite, .new 1 {} .overwrite]

theorem twoProcs_cases {hist : List Event} {a b : Str} {x y : Val} {i : Nat} {p : Proc} (h : (twoProcs hist a b x y).procs i = some p) :
    (i = 0 ∧ ∃ g, ((World.empty.run (exEnv {}) hist).gens 0) = some g ∧ p = .start g a x) ∨
    (i = 1 ∧ ∃ g, ((World.empty.run (exEnv {}) hist).gens 1) = some g ∧ p = .start g b y) := by
  simp only [twoProcs] at h
  split at h
  · rename_i e
    obtain ⟨g, hg, rfl⟩ := Option.map_eq_some_iff.mp h
    exact .inl ⟨e, g, hg, rfl⟩
  · split at h
    · rename_i e
      obtain ⟨g, hg, rfl⟩ := Option.map_eq_some_iff.mp h
      exact .inr ⟨e, g, hg, rfl⟩
    · cases h

theorem twoProcs_begin (hist : List Event) (a b : Str) (x y : Val) :
    ∀ j q, (twoProcs hist a b x y).procs j = some q → q.pc = .begin := by
  intro j q h
  rcases twoProcs_cases h with ⟨_, g, _, rfl⟩ | ⟨_, g, _, rfl⟩ <;> rfl

theorem twoProcs_distinct (hist : List Event) {a b : Str} (hab : a ≠ b) (x y : Val) : (twoProcs hist a b x y).Distinct := by
  intro i j p q hij hp hq
  rcases twoProcs_cases hp with ⟨rfl, g, _, rfl⟩ | ⟨rfl, g, _, rfl⟩ <;> rcases twoProcs_cases hq with ⟨rfl, g', _, rfl⟩ | ⟨rfl, g', _, rfl⟩
  · exact absurd rfl hij
  · exact hab
  · exact hab.symm
  · exact absurd rfl hij

/-- Both generators after a history know of exactly these classes. -/
def bothKnow (hist : List Event) (names : List Str) : Bool :=
  [0, 1].all fun i => match (World.empty.run (exEnv {}) hist).gens i with
    | some g => registered g.lines == .ok names
    | none => false

theorem twoProcs_complete {hist : List Event} {names : List Str} (h : bothKnow hist names = true)
    (hf : names.all (fun n => ((World.empty.run (exEnv {}) hist).disk.files n).isSome) = true) (a b : Str) (x y : Val) :
    (twoProcs hist a b x y).Complete := by
  intro i p hp l hl n hn
  simp only [bothKnow, List.all_cons, List.all_nil, Bool.and_true, Bool.and_eq_true] at h
  have : l = names := by
    rcases twoProcs_cases hp with ⟨rfl, g, hg, rfl⟩ | ⟨rfl, g, hg, rfl⟩
    · have := h.1; rw [hg] at this; simp only [beq_iff_eq, Proc.start] at this hl; rw [this] at hl; cases hl; rfl
    · have := h.2; rw [hg] at this; simp only [beq_iff_eq, Proc.start] at this hl; rw [this] at hl; cases hl; rfl
  subst this
  have := List.all_eq_true.mp hf n hn
  exact Option.isSome_iff_ne_none.mp this

theorem bothNew_complete (a b : Str) (x y : Val) : (twoProcs bothNew a b x y).Complete :=
  twoProcs_complete (names := []) (by decide +kernel) (by decide +kernel) a b x y

theorem bothLater_complete (a b : Str) (x y : Val) : (twoProcs bothLater a b x y).Complete :=
  twoProcs_complete (names := [py!"Z"]) (by decide +kernel) (by decide +kernel) a b x y

/-- Has the process failed because the directory exists? -/
def dirRaised (s : Sys) (i : Nat) : Bool := match s.procs i with
  | some ⟨_, _, _, .done (.error .dirExists)⟩ => true
  | _ => false

/-- **C96 is false** of first calls: the second process that has seen no directory fails to make one. -/
theorem undisturbed_first_fails : ¬ Undisturbed (exEnv {}) (fun s => s.Distinct ∧ s.Complete) := by
  intro h
  obtain ⟨g, hg⟩ : ∃ g, (World.empty.run (exEnv {}) bothNew).gens 1 = some g := Option.isSome_iff_exists.mp (by decide +kernel)
  have := (h (twoProcs bothNew py!"A" py!"B" undocumented undocumented) ([0, 0, 0, 1, 1, 1, 0, 1] ++ List.replicate 16 0 ++ List.replicate 16 1)
    1 g py!"B" undocumented ⟨twoProcs_distinct _ (by decide) _ _, bothNew_complete _ _ _ _⟩ (twoProcs_begin _ _ _ _ _)
    (by simp [twoProcs, hg]) (by decide)).1
  have hr : dirRaised ((twoProcs bothNew py!"A" py!"B" undocumented undocumented).run (exEnv {})
    ([0, 0, 0, 1, 1, 1, 0, 1] ++ List.replicate 16 0 ++ List.replicate 16 1)) 1 = true := by decide +kernel
  unfold dirRaised at hr
  rw [this] at hr
  cases hx : (g.fromData (exEnv {}) (twoProcs bothNew py!"A" py!"B" undocumented undocumented).disk py!"B" undocumented).result with
  | error e => rw [hx] at hr; simp [Except.mapError] at hr
  | ok e => rw [hx] at hr; simp [Except.mapError] at hr

/-- Have both processes succeeded? -/
def bothOk (s : Sys) : Bool := [0, 1].all fun i => match s.procs i with
  | some ⟨_, _, _, .done (.ok _)⟩ => true
  | _ => false

theorem bothOk_done {hist : List Event} {a b : Str} {x y : Val} {sched : List Nat}
    (h : bothOk ((twoProcs hist a b x y).run (exEnv {}) sched) = true) :
    ∀ j q, ((twoProcs hist a b x y).run (exEnv {}) sched).procs j = some q → q.pc = .done (.ok q.v) := by
  intro j q hq
  have hj : j = 0 ∨ j = 1 := by
    obtain ⟨p, hp, _⟩ := run_back sched _ hq
    rcases twoProcs_cases hp with ⟨e, _⟩ | ⟨e, _⟩
    · exact .inl e
    · exact .inr e
  have : ∃ x, q.pc = .done (.ok x) := by
    simp only [bothOk, List.all_cons, List.all_nil, Bool.and_true, Bool.and_eq_true] at h
    rcases hj with rfl | rfl
    · have h := h.1
      rw [hq] at h
      split at h
      · rename_i e; cases e; exact ⟨_, rfl⟩
      · cases h
    · have h := h.2
      rw [hq] at h
      split at h
      · rename_i e; cases e; exact ⟨_, rfl⟩
      · cases h
  obtain ⟨x, hx⟩ := this
  rw [hx, run_result sched _ (fun i p hp y e => by rw [twoProcs_begin _ _ _ _ _ i p hp] at e; cases e) j q hq x hx]

/-- Is the file of a class the text of one of the calls? -/
def oneOfTexts (s t : Sys) (x : Str) : Bool := [0, 1].any fun i => match s.procs i with
  | some q => match generate { exEnv {} with S := q.live.S } x q.v true with | .ok text => some text == t.disk.files x | .error _ => false
  | none => false

/-- **C96 is false** of calls for the same class: the file of the class may be a mixture of two texts. -/
theorem whole_class_fails : ¬ WholeClass (exEnv {}) (fun s _ => s.disk.build = true ∧ s.Complete) := by
  intro h
  rcases h (twoProcs bothLater py!"A" py!"A" undocumented (.inst .int none))
    (List.replicate 4 0 ++ List.replicate 4 1 ++ [0, 1] ++ List.replicate 16 0 ++ List.replicate 16 1)
    ⟨by decide +kernel, bothLater_complete _ _ _ _⟩ (twoProcs_begin _ _ _ _ _) (bothOk_done (by decide +kernel)) py!"A"
    with ⟨h, _⟩ | ⟨j, q, text, hq, _, hg, hf⟩
  · obtain ⟨g, hg⟩ : ∃ g, (World.empty.run (exEnv {}) bothLater).gens 1 = some g := Option.isSome_iff_exists.mp (by decide +kernel)
    exact h 1 (.start g py!"A" (.inst .int none)) (by simp [twoProcs, hg]) rfl
  · have : oneOfTexts (twoProcs bothLater py!"A" py!"A" undocumented (.inst .int none)) ((twoProcs bothLater py!"A" py!"A" undocumented
      (.inst .int none)).run (exEnv {}) (List.replicate 4 0 ++ List.replicate 4 1 ++ [0, 1] ++ List.replicate 16 0 ++ List.replicate 16 1))
        py!"A" = false := by decide +kernel
    simp only [oneOfTexts, List.any_cons, List.any_nil, Bool.or_false, Bool.or_eq_false_iff, hf] at this
    have hj : j = 0 ∨ j = 1 := by
      rcases twoProcs_cases hq with ⟨e, _⟩ | ⟨e, _⟩
      · exact .inl e
      · exact .inr e
    rcases hj with rfl | rfl
    · have h := this.1; rw [hq] at h; dsimp only at h; rw [hg] at h; simp at h
    · have h := this.2; rw [hq] at h; dsimp only at h; rw [hg] at h; simp at h

/-- Is the stub the copy of one of the generators? -/
def oneOfCopies (s : Sys) : Bool := [0, 1].any fun i => match s.procs i with
  | some q => s.disk.pyi == some (join py!"\n" q.live.lines)
  | none => false

/-- **C96 is false** of the stub: it may be a mixture of two texts, even with calls for different classes. -/
theorem whole_stub_fails : ¬ WholeStub (exEnv {}) (fun s _ => s.Distinct ∧ s.disk.build = true ∧ s.Complete) := by
  intro h
  rcases h (twoProcs bothLater py!"A" py!"LongName" undocumented undocumented) (List.replicate 13 0 ++ List.replicate 13 1 ++ [1, 0, 1, 0])
    ⟨twoProcs_distinct _ (by decide) _ _, by decide +kernel, bothLater_complete _ _ _ _⟩ (twoProcs_begin _ _ _ _ _)
    (bothOk_done (by decide +kernel)) with h | ⟨j, q, hq, hf⟩
  · revert h; decide +kernel
  · have : oneOfCopies ((twoProcs bothLater py!"A" py!"LongName" undocumented undocumented).run (exEnv {})
      (List.replicate 13 0 ++ List.replicate 13 1 ++ [1, 0, 1, 0])) = false := by decide +kernel
    simp only [oneOfCopies, List.any_cons, List.any_nil, Bool.or_false, Bool.or_eq_false_iff, hf] at this
    have hj : j = 0 ∨ j = 1 := by
      obtain ⟨p, hp, _⟩ := run_back _ _ hq
      rcases twoProcs_cases hp with ⟨e, _⟩ | ⟨e, _⟩
      · exact .inl e
      · exact .inr e
    rcases hj with rfl | rfl
    · have h := this.1; rw [hq] at h; simp at h
    · have h := this.2; rw [hq] at h; simp at h

/-- One of two calls at the same time may be lost: both succeed, each of them alone would be registered, and a process that starts
afterwards knows only one of the classes. -/
theorem registration_lost :
    let s := twoProcs bothLater py!"A" py!"B" undocumented undocumented
    let t := s.run (exEnv {}) ((List.replicate 16 [0, 1]).flatten)
    bothOk t = true ∧ registryOf s.disk = some (.ok [py!"Z"]) ∧ registryOf t.disk = some (.ok [py!"Z", py!"B"]) ∧
      (t.disk.files py!"A").isSome = true := by decide +kernel

/-! ### Cases that meet the hypotheses -/

/-- Two calls whose steps alternate. -/
def alternating : List Nat := (List.replicate 16 [0, 1]).flatten

/-- Two calls whose steps alternate until the classes are written. -/
def alternatingFirst : List Nat := (List.replicate 6 [0, 1]).flatten ++ List.replicate 10 1 ++ List.replicate 10 0

example : ∃ s i g, (Sys.Distinct s ∧ s.disk.build = true ∧ s.Complete) ∧ (∀ j q, s.procs j = some q → q.pc = .begin) ∧
    s.procs i = some (.start g py!"B" undocumented) ∧ 16 ≤ alternating.count i ∧ bothOk (s.run (exEnv {}) alternating) = true := by
  obtain ⟨g, hg⟩ : ∃ g, (World.empty.run (exEnv {}) bothLater).gens 1 = some g := Option.isSome_iff_exists.mp (by decide +kernel)
  exact ⟨twoProcs bothLater py!"A" py!"B" undocumented undocumented, 1, g,
    ⟨twoProcs_distinct _ (by decide) _ _, by decide +kernel, bothLater_complete _ _ _ _⟩, twoProcs_begin _ _ _ _ _,
    by simp [twoProcs, hg], by decide, by decide +kernel⟩

theorem fromData_settings (E : Env) (g : Live) (d : Disk) (c : Str) (v : Val) : (g.fromData E d c v).live.S = g.S := by
  unfold Live.fromData
  dsimp only
  (repeat' split) <;> rfl

theorem run_settings (E : Env) (S : Strategies) : ∀ (es : List Event) (w : World), (∀ i T m, Event.new i T m ∈ es → T = S) →
    (∀ i g, w.gens i = some g → g.S = S) → ∀ i g, (w.run E es).gens i = some g → g.S = S
  | [], _, _, h => h
  | e :: es, w, hes, h => by
    refine run_settings E S es (w.step E e) (fun i T m hm => hes i T m (by simp [hm])) ?_
    intro i g hg
    cases e with
    | new j T m =>
      have hT := hes j T m (by simp)
      simp only [World.step] at hg
      split at hg
      next g' hn =>
        simp only at hg
        split at hg
        · cases hg
          unfold newLive at hn
          split at hn
          · cases hn; exact hT
          · cases hs : generateStub with
            | error _ => rw [hs] at hn; cases hn
            | ok ls => rw [hs] at hn; cases hn; exact hT
        · exact h i g hg
      next => exact h i g hg
    | call j c v =>
      simp only [World.step] at hg
      split at hg
      next g' hj =>
        simp only at hg
        split at hg
        · cases hg; rw [fromData_settings]; exact h j g' hj
        · exact h i g hg
      next => exact h i g hg
    | reset => exact h i g hg

/-- The same call in two processes at the same time. -/
example : ∃ s : Sys, (∀ i j p q t u, s.procs i = some p → s.procs j = some q → p.c = q.c →
      generate { exEnv {} with S := p.live.S } p.c p.v true = .ok t → generate { exEnv {} with S := q.live.S } q.c q.v true = .ok u → t = u) ∧
    (∀ j q, s.procs j = some q → q.pc = .begin) ∧ bothOk (s.run (exEnv {}) alternating) = true ∧
    s.disk.files py!"A" = none ∧ ((s.run (exEnv {}) alternating).disk.files py!"A").isSome = true := by
  refine ⟨twoProcs bothLater py!"A" py!"A" undocumented undocumented, ?_, twoProcs_begin _ _ _ _ _, by decide +kernel, by decide +kernel, by decide +kernel⟩
  have key : ∀ i p, (twoProcs bothLater py!"A" py!"A" undocumented undocumented).procs i = some p → p.live.S = {} ∧ p.c = py!"A" ∧ p.v = undocumented := by
    intro i p hp
    have hS := run_settings (exEnv {}) {} bothLater World.empty (by simp only [bothLater, List.mem_cons, Event.new.injEq, reduceCtorEq, List.not_mem_nil, or_false, false_or]; rintro _ _ _ (⟨_, h, _⟩ | ⟨_, h, _⟩ | ⟨_, h, _⟩) <;> exact h) (by simp [World.empty])
    rcases twoProcs_cases hp with ⟨rfl, g, hg, rfl⟩ | ⟨rfl, g, hg, rfl⟩
    · exact ⟨hS 0 g hg, rfl, rfl⟩
    · exact ⟨hS 1 g hg, rfl, rfl⟩
  intro i j p q t u hp hq _ ht hu
  obtain ⟨a1, a2, a3⟩ := key i p hp
  obtain ⟨b1, b2, b3⟩ := key j q hq
  rw [a1, a2, a3] at ht
  rw [b1, b2, b3, ht] at hu
  injection hu

/-- Has only one of the two processes opened the stub? -/
def oneWriterB (s : Sys) : Bool := !([0, 1].all fun i => match s.procs i with
  | some ⟨_, _, _, .writeStub _ _⟩ => true
  | _ => false)

theorem oneWriterB_sound {hist : List Event} {a b : Str} {x y : Val} {sched : List Nat}
    (h : oneWriterB ((twoProcs hist a b x y).run (exEnv {}) sched) = true) : ((twoProcs hist a b x y).run (exEnv {}) sched).OneWriter := by
  have two : ∀ {i p}, ((twoProcs hist a b x y).run (exEnv {}) sched).procs i = some p → i = 0 ∨ i = 1 := by
    intro i p hp
    obtain ⟨q, hq, _⟩ := run_back sched _ hp
    rcases twoProcs_cases hq with ⟨e, _⟩ | ⟨e, _⟩
    · exact .inl e
    · exact .inr e
  have no : ∀ {p q}, ((twoProcs hist a b x y).run (exEnv {}) sched).procs 0 = some p →
      ((twoProcs hist a b x y).run (exEnv {}) sched).procs 1 = some q → p.Writing → q.Writing → False := by
    rintro ⟨_, _, _, pc⟩ ⟨_, _, _, pc'⟩ hp hq ⟨_, _, e⟩ ⟨_, _, e'⟩
    cases e
    cases e'
    simp [oneWriterB, hp, hq] at h
  intro i j p q hp hq wp wq
  rcases two hp with rfl | rfl <;> rcases two hq with rfl | rfl
  · rfl
  · exact (no hp hq wp wq).elim
  · exact (no hq hp wq wp).elim
  · rfl

example : ∃ s, (∀ pre post, alternatingFirst = pre ++ post → (Sys.run (exEnv {}) s pre).OneWriter) ∧
    (∀ j q, s.procs j = some q → q.pc = .begin) ∧
    (∀ j q, (s.run (exEnv {}) alternatingFirst).procs j = some q → q.pc = .done (.ok q.v)) ∧
    (s.run (exEnv {}) alternatingFirst).disk.pyi ≠ s.disk.pyi := by
  refine ⟨twoProcs bothLater py!"A" py!"B" undocumented undocumented, ?_, twoProcs_begin _ _ _ _ _, bothOk_done (by decide +kernel),
    by decide +kernel⟩
  intro pre post e
  have hpre : pre = alternatingFirst.take pre.length := by rw [e]; simp
  have hlen : pre.length < 33 := by
    have := congrArg List.length e
    rw [List.length_append, show alternatingFirst.length = 32 from rfl] at this
    omega
  have all : ∀ k, k < 33 → oneWriterB ((twoProcs bothLater py!"A" py!"B" undocumented undocumented).run (exEnv {}) (alternatingFirst.take k)) = true := by
    decide +kernel
  have := all _ hlen
  rw [← hpre] at this
  exact oneWriterB_sound this

end Verif.Props
