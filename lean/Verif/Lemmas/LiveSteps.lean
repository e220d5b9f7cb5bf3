import Verif.Spec.Together
/-
Helper lemmas for C96.
-/
namespace Verif

theorem overlay_nil (s : Str) : overlay s [] = s := by simp [overlay]

/-! ### A process alone -/

/-- `k` steps lead from one state to another. -/
def Leads (E : Env) (k : Nat) (p : Proc) (d : Disk) (q : Proc) (e : Disk) : Prop := ∀ m, Proc.alone E (k + m) p d = Proc.alone E m q e

theorem Leads.refl {E : Env} {p : Proc} {d : Disk} : Leads E 0 p d p d := fun m => by rw [Nat.zero_add]

theorem Leads.step {E : Env} {k : Nat} {p q : Proc} {d e : Disk} {x : Proc × Disk} (h : p.step E d = x) (h' : Leads E k x.1 x.2 q e) :
    Leads E (k + 1) p d q e := fun m => by
  rw [show k + 1 + m = (k + m) + 1 by omega, Proc.alone, h]
  exact h' m

theorem alone_done {E : Env} {p : Proc} {d : Disk} {r : Except StepErr Val} (h : p.pc = .done r) : ∀ n, Proc.alone E n p d = (p, d)
  | 0 => rfl
  | n + 1 => by
    have : p.step E d = (p, d) := by unfold Proc.step; rw [h]
    rw [Proc.alone, this]
    exact alone_done h n

theorem Leads.ends {E : Env} {k n : Nat} {p q : Proc} {d e : Disk} {r : Except StepErr Val} (h : Leads E k p d q e) (hq : q.pc = .done r)
    (hn : k ≤ n) : Proc.alone E n p d = (q, e) := by
  have := h (n - k)
  rw [show k + (n - k) = n by omega] at this
  rw [this]
  exact alone_done hq _

theorem Leads.trans {E : Env} {k l : Nat} {p q r : Proc} {d e f : Disk} (h : Leads E k p d q e) (h' : Leads E l q e r f) :
    Leads E (k + l) p d r f := fun m => by
  rw [Nat.add_assoc, h, h']

theorem writePyi_twice (d : Disk) (s t : Str) : (d.writePyi s).writePyi t = d.writePyi t := rfl

theorem writeClass_twice (d : Disk) (c s t : Str) : (d.writeClass c s).writeClass c t = d.writeClass c t := by
  simp only [Disk.writeClass, Disk.mk.injEq, true_and]
  funext x
  by_cases h : x = c <;> simp [h]

theorem edits_alone {E : Env} (c : Str) (v : Val) : ∀ (es : List Edit) (g : Live) (d : Disk),
    ∃ k ≤ 2 * es.length + 1, Leads E k ⟨g, c, v, .edit es⟩ d
      ⟨{ g with lines := (runEdits es g.lines d).1 }, c, v,
        .done (match (runEdits es g.lines d).2.2.2 with
          | some e => .error (.live e)
          | none => .ok v)⟩ (runEdits es g.lines d).2.1
  | [], g, d => ⟨1, by simp, Leads.step rfl Leads.refl⟩
  | e :: es, g, d => by
    cases he : e g.lines with
    | mk lines x =>
      cases x with
      | some err =>
        refine ⟨1, by simp, ?_⟩
        refine Leads.step (x := (⟨{ g with lines }, c, v, .done (.error (.live err))⟩, d)) (by simp [Proc.step, he]) ?_
        simp only [runEdits, he]
        exact Leads.refl
      | none =>
        obtain ⟨k, hk, h⟩ := edits_alone c v es { g with lines } (d.writePyi (join py!"\n" lines))
        refine ⟨k + 1 + 1, by simp only [List.length_cons]; omega, ?_⟩
        refine Leads.step (x := (⟨{ g with lines }, c, v, .writeStub (join py!"\n" lines) es⟩, d.writePyi [])) (by simp [Proc.step, he]) ?_
        refine Leads.step (x := (⟨{ g with lines }, c, v, .edit es⟩, d.writePyi (join py!"\n" lines))) ?_ ?_
        · simp only [Proc.step]
          rw [show (d.writePyi []).pyi.getD [] = [] from rfl, overlay_nil, writePyi_twice]
        · simp only [runEdits, he]
          exact h

theorem call_alone {E : Env} (g : Live) (d : Disk) (c : Str) (v : Val) :
    ∃ k ≤ 16, Leads E k (Proc.start g c v) d ⟨(g.fromData E d c v).live, c, v, .done ((g.fromData E d c v).result.mapError .live)⟩
      (g.fromData E d c v).disk := by
  unfold Proc.start
  by_cases hn : nameOk E.U c = true
  case neg =>
    refine ⟨1, by simp, Leads.step (x := (⟨g, c, v, .done (.error (.live .className))⟩, d)) (by simp [Proc.step, hn]) ?_⟩
    simp only [Live.fromData, hn]
    exact Leads.refl
  cases hc : classesAdded g.lines d with
  | error e =>
    refine ⟨1, by simp, Leads.step (x := (⟨g, c, v, .done (.error (.live e))⟩, d)) (by simp [Proc.step, hn, hc]) ?_⟩
    simp only [Live.fromData, hn, if_true, hc]
    exact Leads.refl
  | ok names =>
    have s1 : Proc.step E ⟨g, c, v, .begin⟩ d = (⟨g, c, v, .compare (names.contains c)⟩, d) := by simp [Proc.step, hn, hc]
    cases ht : generate { E with S := g.S } c v true with
    | error e =>
      refine ⟨2, by simp, Leads.step s1 (Leads.step (x := (⟨g, c, v, .done (.error (.live (.gen e)))⟩, d)) (by simp [Proc.step, ht]) ?_)⟩
      simp only [Live.fromData, hn, if_true, hc, ht]
      exact Leads.refl
    | ok text =>
      by_cases hv : (names.contains c && g.mode == .validate && removeDocstrings text != removeDocstrings ((d.files c).getD [])) = true
      · refine ⟨2, by simp, Leads.step s1 (Leads.step (x := (⟨g, c, v, .done (.error (.live .validation))⟩, d))
          (by simp only [Proc.step, ht, if_pos hv]) ?_)⟩
        simp only [Live.fromData, hn, if_true, hc, ht, if_pos hv]
        exact Leads.refl
      · have s2 : Proc.step E ⟨g, c, v, .compare (names.contains c)⟩ d = (⟨g, c, v, .dirTest text⟩, d) := by
          simp only [Proc.step, ht, if_neg hv]
        have s3 : ∃ k ≤ 2, Leads E k ⟨g, c, v, .dirTest text⟩ d ⟨g, c, v, .openClass text⟩ { d with build := true } := by
          by_cases hb : d.build = true
          · refine ⟨1, by simp, Leads.step (x := (⟨g, c, v, .openClass text⟩, d)) (by simp [Proc.step, hb]) ?_⟩
            have : { d with build := true } = d := by cases d; simp only at hb; rw [hb]
            rw [this]
            exact Leads.refl
          · refine ⟨2, by simp, Leads.step (x := (⟨g, c, v, .makeDir text⟩, d)) (by simp [Proc.step, hb]) ?_⟩
            exact Leads.step (x := (⟨g, c, v, .openClass text⟩, { d with build := true })) (by simp [Proc.step, hb]) Leads.refl
        obtain ⟨k3, hk3, s3⟩ := s3
        let d1 : Disk := { d with build := true }
        have s4 : Leads E 2 ⟨g, c, v, .openClass text⟩ d1 ⟨g, c, v, .check⟩ (d1.writeClass c text) := by
          refine Leads.step (x := (⟨g, c, v, .writeClass text⟩, d1.writeClass c [])) rfl ?_
          refine Leads.step (x := (⟨g, c, v, .check⟩, d1.writeClass c text)) ?_ Leads.refl
          simp only [Proc.step]
          rw [show ((d1.writeClass c []).files c).getD [] = [] by simp [Disk.writeClass], overlay_nil, writeClass_twice]
        have s5 : ∃ k ≤ 10, Leads E k ⟨g, c, v, .check⟩ (d1.writeClass c text)
            ⟨(g.fromData E d c v).live, c, v, .done ((g.fromData E d c v).result.mapError .live)⟩ (g.fromData E d c v).disk := by
          simp only [Live.fromData, hn, if_true, hc, ht, if_neg hv]
          cases hc2 : classesAdded g.lines (d1.writeClass c text) with
          | error e =>
            refine ⟨1, by simp, Leads.step (x := (⟨g, c, v, .done (.error (.live e))⟩, d1.writeClass c text)) (by simp [Proc.step, hc2]) ?_⟩
            simp only [d1] at hc2
            simp only [hc2]
            exact Leads.refl
          | ok names2 =>
            by_cases hm : names2.contains c = true
            · refine ⟨1, by simp, Leads.step (x := (⟨g, c, v, .done (.ok v)⟩, d1.writeClass c text))
                (by simp only [Proc.step, hc2, if_pos hm]) ?_⟩
              simp only [d1] at hc2
              simp only [hc2, if_pos hm]
              exact Leads.refl
            · obtain ⟨k, hk, h⟩ := edits_alone (E := E) c v (newClassEdits c) g (d1.writeClass c text)
              refine ⟨k + 1, by simp only [newClassEdits, List.length_cons, List.length_nil] at hk; omega, ?_⟩
              refine Leads.step (x := (⟨g, c, v, .edit (newClassEdits c)⟩, d1.writeClass c text))
                (by simp only [Proc.step, hc2, if_neg hm]) ?_
              simp only [d1] at hc2 h
              simp only [hc2, if_neg hm]
              generalize runEdits (newClassEdits c) g.lines _ = r at h ⊢
              obtain ⟨a, b, x, y⟩ := r
              cases y <;> exact h
        obtain ⟨k5, hk5, s5⟩ := s5
        refine ⟨1 + 1 + (k3 + (2 + k5)), by omega, ?_⟩
        exact ((Leads.step s1 (Leads.step s2 Leads.refl)).trans (s3.trans (s4.trans s5)))

/-! ### Several processes -/

theorem step_c {E : Env} (p : Proc) (d : Disk) : (p.step E d).1.c = p.c := by
  unfold Proc.step
  (repeat' split) <;> rfl

/-- What a step leaves alone. -/
theorem step_files {E : Env} (p : Proc) (d : Disk) : ((p.step E d).2.build = true ∨ (p.step E d).2.build = d.build) ∧
    (∀ x, x ≠ p.c → (p.step E d).2.files x = d.files x) ∧ (∀ x, d.files x ≠ none → (p.step E d).2.files x ≠ none) := by
  have write : ∀ s, ∀ x, x ≠ p.c → (d.writeClass p.c s).files x = d.files x := fun s x hx => by simp [Disk.writeClass, hx]
  have there : ∀ s, ∀ x, d.files x ≠ none → (d.writeClass p.c s).files x ≠ none := fun s x hx => by
    by_cases h : x = p.c <;> simp [Disk.writeClass, h, hx] <;> (subst h; exact hx)
  unfold Proc.step
  (repeat' split) <;> first
    | exact ⟨.inr rfl, fun _ _ => rfl, fun _ h => h⟩
    | exact ⟨.inl rfl, fun _ _ => rfl, fun _ h => h⟩
    | exact ⟨.inr rfl, write _, there _⟩

/-- The call has not begun to edit the stub. -/
def Pc.early : Pc → Prop
  | .edit _ | .writeStub _ _ | .done _ => False
  | _ => True

/-- The classes registered in the generator's copy of the stub have files, as long as the generator looks for them. -/
def Present (p : Proc) (d : Disk) : Prop := p.pc.early → ∀ names, registered p.live.lines = .ok names → ∀ n ∈ names, d.files n ≠ none

theorem classesAdded_present {lines : List Str} {d d' : Disk} (h : ∀ names, registered lines = .ok names → ∀ n ∈ names, d.files n ≠ none)
    (h' : ∀ names, registered lines = .ok names → ∀ n ∈ names, d'.files n ≠ none) : classesAdded lines d = classesAdded lines d' := by
  unfold classesAdded
  cases hr : registered lines with
  | error e => rfl
  | ok names =>
    have : ∀ {d : Disk}, (∀ n ∈ names, d.files n ≠ none) → names.find? (fun c => (d.files c).isNone) = none := by
      intro d hd
      rw [List.find?_eq_none]
      intro n hn hno
      exact hd n hn (Option.isNone_iff_eq_none.mp hno)
    dsimp only
    rw [this (h _ hr), this (h' _ hr)]

/-- Two disks that a process cannot tell apart. -/
structure Same (p : Proc) (d d' : Disk) : Prop where
  file : d.files p.c = d'.files p.c
  build : d.build = true
  build' : d'.build = true
  present : Present p d
  present' : Present p d'

theorem early_back {E : Env} {p : Proc} {d : Disk} (h : (p.step E d).1.pc.early) : p.pc.early ∧ (p.step E d).1.live = p.live := by
  revert h
  unfold Proc.step
  cases hp : p.pc with
  | edit es => cases es with
    | nil => exact fun h => h.elim
    | cons e es =>
      dsimp only
      split <;> exact fun h => h.elim
  | writeStub => exact fun h => h.elim
  | done r => dsimp only; rw [hp]; exact fun h => h.elim
  | _ => dsimp only; (repeat' split) <;> exact fun _ => ⟨trivial, rfl⟩

theorem step_same {E : Env} {p : Proc} {d d' : Disk} (h : Same p d d') :
    (p.step E d).1 = (p.step E d').1 ∧ Same (p.step E d).1 (p.step E d).2 (p.step E d').2 := by
  have key : (p.step E d).1 = (p.step E d').1 ∧ (p.step E d).2.files p.c = (p.step E d').2.files p.c := by
    have hf := h.file
    have hc : p.pc.early → classesAdded p.live.lines d = classesAdded p.live.lines d' :=
      fun he => classesAdded_present (h.present he) (h.present' he)
    unfold Proc.step
    cases hp : p.pc with
    | begin =>
      rw [hp] at hc
      dsimp only
      rw [hc trivial]
      (repeat' split) <;> exact ⟨rfl, hf⟩
    | compare known =>
      dsimp only
      rw [hf]
      (repeat' split) <;> exact ⟨rfl, hf⟩
    | dirTest text =>
      dsimp only
      rw [h.build, h.build']
      exact ⟨rfl, hf⟩
    | makeDir text =>
      dsimp only
      rw [h.build, h.build']
      exact ⟨rfl, hf⟩
    | openClass text => exact ⟨rfl, by simp [Disk.writeClass]⟩
    | writeClass text => exact ⟨rfl, by simp [Disk.writeClass, hf]⟩
    | check =>
      rw [hp] at hc
      dsimp only
      rw [hc trivial]
      split <;> exact ⟨rfl, hf⟩
    | edit es =>
      cases es with
      | nil => exact ⟨rfl, hf⟩
      | cons e es =>
        dsimp only
        split <;> exact ⟨rfl, hf⟩
    | writeStub text es => exact ⟨rfl, hf⟩
    | done r => exact ⟨rfl, hf⟩
  obtain ⟨b1, _, t1⟩ := step_files (E := E) p d
  obtain ⟨b2, _, t2⟩ := step_files (E := E) p d'
  refine ⟨key.1, by rw [step_c]; exact key.2, ?_, ?_, ?_, ?_⟩
  · rcases b1 with b | b
    · exact b
    · rw [b]; exact h.build
  · rcases b2 with b | b
    · exact b
    · rw [b]; exact h.build'
  · intro he names hn n hm
    obtain ⟨h1, h2⟩ := early_back he
    rw [h2] at hn
    exact t1 n (h.present h1 names hn n hm)
  · rw [key.1]
    intro he names hn n hm
    obtain ⟨h1, h2⟩ := early_back he
    rw [h2] at hn
    exact t2 n (h.present' h1 names hn n hm)

theorem move_self {E : Env} {s : Sys} {i : Nat} {p : Proc} (h : s.procs i = some p) :
    (s.move E i).procs i = some (p.step E s.disk).1 ∧ (s.move E i).disk = (p.step E s.disk).2 := by
  unfold Sys.move
  rw [h]
  simp

theorem move_other {E : Env} {s : Sys} {i j : Nat} (h : j ≠ i) : (s.move E i).procs j = s.procs j := by
  unfold Sys.move
  split
  · rfl
  · simp [h]

theorem move_back {E : Env} {s : Sys} {i j : Nat} {q : Proc} (h : (s.move E i).procs j = some q) : ∃ p, s.procs j = some p ∧ p.c = q.c := by
  by_cases hj : j = i
  · subst hj
    cases hp : s.procs j with
    | none =>
      have : s.move E j = s := by unfold Sys.move; rw [hp]
      rw [this, hp] at h
      cases h
    | some p =>
      rw [(move_self hp).1] at h
      cases h
      exact ⟨p, rfl, (step_c p _).symm⟩
  · rw [move_other hj] at h
    exact ⟨q, h, rfl⟩

theorem Sys.Distinct.move {E : Env} {s : Sys} (h : s.Distinct) (i : Nat) : (s.move E i).Distinct := by
  intro a b p q hab hp hq
  obtain ⟨p', hp', e1⟩ := move_back hp
  obtain ⟨q', hq', e2⟩ := move_back hq
  rw [← e1, ← e2]
  exact h a b p' q' hab hp' hq'

theorem run_alone {E : Env} {i : Nat} : ∀ (sched : List Nat) (s : Sys) (p : Proc) (d : Disk), s.Distinct → s.procs i = some p →
    Same p s.disk d → ((s.run E sched).procs i = some (Proc.alone E (sched.count i) p d).1 ∧
      (s.run E sched).disk.files p.c = (Proc.alone E (sched.count i) p d).2.files p.c)
  | [], s, p, d, _, hp, hs => ⟨hp, hs.file⟩
  | j :: r, s, p, d, hd, hp, hs => by
    simp only [Sys.run]
    by_cases hj : j = i
    · subst hj
      rw [List.count_cons_self, Proc.alone]
      obtain ⟨h1, h2⟩ := move_self (E := E) hp
      obtain ⟨e, hs'⟩ := step_same (E := E) hs
      rw [e] at h1 hs'
      have := run_alone (E := E) r (s.move E j) (p.step E d).1 (p.step E d).2 (hd.move j) h1 (by rw [h2]; exact hs')
      rw [step_c] at this
      exact this
    · rw [List.count_cons_of_ne (by simpa using hj)]
      refine run_alone r (s.move E j) p d (hd.move j) (by rw [move_other (Ne.symm hj)]; exact hp) ?_
      unfold Sys.move
      cases hq : s.procs j with
      | none => exact hs
      | some q =>
        obtain ⟨b, f, t⟩ := step_files (E := E) q s.disk
        refine ⟨?_, ?_, hs.build', ?_, hs.present'⟩
        · dsimp only
          rw [f _ (hd i j p q (Ne.symm hj) hp hq)]
          exact hs.file
        · dsimp only
          rcases b with b | b
          · exact b
          · rw [b]; exact hs.build
        · exact fun he names hn n hm => t n (hs.present he names hn n hm)

theorem run_untouched {E : Env} {x : Str} : ∀ (sched : List Nat) (s : Sys), (∀ i p, s.procs i = some p → p.c ≠ x) →
    (s.run E sched).disk.files x = s.disk.files x
  | [], s, _ => rfl
  | j :: r, s, h => by
    simp only [Sys.run]
    rw [run_untouched r (s.move E j) (fun i p hp => by obtain ⟨q, hq, e⟩ := move_back hp; rw [← e]; exact h i q hq)]
    unfold Sys.move
    cases hq : s.procs j with
    | none => rfl
    | some q => exact (step_files (E := E) q s.disk).2.1 x (Ne.symm (h j q hq))

/-! ### The stub -/

/-- The text to be written is the generator's copy of the stub. -/
def Proc.TextOk (p : Proc) : Prop := ∀ text es, p.pc = .writeStub text es → text = join py!"\n" p.live.lines

theorem step_stub {E : Env} (p : Proc) (d : Disk) :
    (∃ text es, p.pc = .writeStub text es ∧ p.step E d = ({ p with pc := .edit es }, d.writePyi (overlay text (d.pyi.getD [])))) ∨
    ((p.step E d).1.Writing ∧ (p.step E d).1.TextOk ∧ (p.step E d).2.pyi = some []) ∨
    (∃ e, (p.step E d).1.pc = .done (.error e)) ∨
    (¬ p.Writing ∧ ¬ (p.step E d).1.Writing ∧ (p.step E d).1.live = p.live ∧ (p.step E d).2.pyi = d.pyi) := by
  have no : ∀ {q : Proc}, (∀ text es, q.pc ≠ .writeStub text es) → ¬ q.Writing := fun h ⟨_, _, e⟩ => h _ _ e
  cases hp : p.pc with
  | writeStub text es => exact .inl ⟨text, es, rfl, by unfold Proc.step; rw [hp]⟩
  | edit es =>
    cases es with
    | nil =>
      refine .inr (.inr (.inr ⟨no (by simp [hp]), no ?_, ?_, ?_⟩)) <;> unfold Proc.step <;> rw [hp]
      simp
    | cons e es =>
      cases he : e p.live.lines with
      | mk lines x =>
        cases x with
        | some err => exact .inr (.inr (.inl ⟨.live err, by unfold Proc.step; rw [hp]; simp only [he]⟩))
        | none =>
          refine .inr (.inl ?_)
          unfold Proc.step
          rw [hp]
          simp only [he]
          refine ⟨⟨_, _, rfl⟩, ?_, rfl⟩
          rintro text es' e'
          cases e'
          rfl
  | done r =>
    refine .inr (.inr (.inr ⟨no (by simp [hp]), no ?_, ?_, ?_⟩)) <;> unfold Proc.step <;> rw [hp]
    simp [hp]
  | _ =>
    unfold Proc.step
    rw [hp]
    dsimp only
    (repeat' split) <;> first
      | exact .inr (.inr (.inl ⟨_, rfl⟩))
      | exact .inr (.inr (.inr ⟨no (by simp [hp]), no (by simp), rfl, rfl⟩))

/-- The stub is the first one, or the complete text of one of the processes, or is being written, or a process has failed. -/
def StubInv (first : Option Str) (s : Sys) : Prop :=
  (s.disk.pyi = first ∧ ∀ i p, s.procs i = some p → ¬ p.Writing) ∨
  ∃ i p, s.procs i = some p ∧ ((p.Writing ∧ p.TextOk ∧ s.disk.pyi = some []) ∨
    (s.disk.pyi = some (join py!"\n" p.live.lines) ∧ ∀ j q, s.procs j = some q → ¬ q.Writing) ∨ ∃ e, p.pc = .done (.error e))

theorem stubInv_move {E : Env} {first : Option Str} {s : Sys} (h : StubInv first s) (h1 : s.OneWriter) (j : Nat) :
    StubInv first (s.move E j) := by
  cases hq : s.procs j with
  | none =>
    have : s.move E j = s := by unfold Sys.move; rw [hq]
    rw [this]; exact h
  | some q =>
    obtain ⟨m1, m2⟩ := move_self (E := E) hq
    have keep : ∀ {i p}, i ≠ j → s.procs i = some p → (s.move E j).procs i = some p := fun hi hp => by rw [move_other hi]; exact hp
    have quiet : (∀ i p, s.procs i = some p → i ≠ j → ¬ p.Writing) → ¬ (q.step E s.disk).1.Writing →
        ∀ i p, (s.move E j).procs i = some p → ¬ p.Writing := by
      intro ho hn i p hp
      by_cases hi : i = j
      · subst hi; rw [m1] at hp; cases hp; exact hn
      · rw [move_other hi] at hp; exact ho i p hp hi
    have failed : (∃ i p e, s.procs i = some p ∧ p.pc = .done (.error e)) → StubInv first (s.move E j) := by
      rintro ⟨i, p, e, hp, he⟩
      by_cases hi : i = j
      · subst hi
        rw [hq] at hp; cases hp
        refine .inr ⟨i, _, m1, .inr (.inr ⟨e, ?_⟩)⟩
        unfold Proc.step
        rw [he]
        exact he
      · exact .inr ⟨i, p, keep hi hp, .inr (.inr ⟨e, he⟩)⟩
    rcases step_stub (E := E) q s.disk with ⟨text, es, hpc, hst⟩ | ⟨w, t, e⟩ | ⟨e, he⟩ | ⟨w, w', hl, hd⟩
    · have hw : q.Writing := ⟨text, es, hpc⟩
      rcases h with ⟨_, hn⟩ | ⟨i, p, hp, ⟨hpw, ht, hpy⟩ | ⟨_, hn⟩ | ⟨e, he⟩⟩
      · exact absurd hw (hn j q hq)
      · have := h1 i j p q hp hq hpw hw
        subst this
        rw [hq] at hp; cases hp
        refine .inr ⟨i, _, m1, .inr (.inl ⟨?_, quiet ?_ ?_⟩)⟩
        · rw [m2, hst, hpy]
          have := ht text es hpc
          simp [Disk.writePyi, overlay, this]
        · exact fun k r hk hne hr => hne (h1 k i r q hk hq hr hw)
        · rw [hst]
          rintro ⟨_, _, e⟩
          cases e
      · exact absurd hw (hn j q hq)
      · exact failed ⟨i, p, e, hp, he⟩
    · exact .inr ⟨j, _, m1, .inl ⟨w, t, by rw [m2]; exact e⟩⟩
    · exact .inr ⟨j, _, m1, .inr (.inr ⟨e, he⟩)⟩
    · rcases h with ⟨hf, hn⟩ | ⟨i, p, hp, ⟨hpw, ht, hpy⟩ | ⟨hf, hn⟩ | ⟨e, he⟩⟩
      · exact .inl ⟨by rw [m2, hd]; exact hf, quiet (fun i p hp _ => hn i p hp) w'⟩
      · by_cases hi : i = j
        · subst hi
          rw [hq] at hp; cases hp
          exact absurd hpw w
        · exact .inr ⟨i, p, keep hi hp, .inl ⟨hpw, ht, by rw [m2, hd]; exact hpy⟩⟩
      · by_cases hi : i = j
        · subst hi
          rw [hq] at hp; cases hp
          exact .inr ⟨i, _, m1, .inr (.inl ⟨by rw [m2, hd, hl]; exact hf, quiet (fun i p hp _ => hn i p hp) w'⟩)⟩
        · exact .inr ⟨i, p, keep hi hp, .inr (.inl ⟨by rw [m2, hd]; exact hf, quiet (fun i p hp _ => hn i p hp) w'⟩)⟩
      · exact failed ⟨i, p, e, hp, he⟩

theorem stubInv_run {E : Env} {first : Option Str} : ∀ (sched : List Nat) (s : Sys), StubInv first s →
    (∀ pre post, sched = pre ++ post → (s.run E pre).OneWriter) → StubInv first (s.run E sched)
  | [], s, h, _ => h
  | j :: r, s, h, h1 => by
    simp only [Sys.run]
    refine stubInv_run r (s.move E j) (stubInv_move h (h1 [] (j :: r) rfl) j) ?_
    intro pre post e
    exact h1 (j :: pre) post (by rw [e]; rfl)

/-! ### The files of classes -/

/-- What a process generates. -/
def Proc.makes (E : Env) (p : Proc) (text : Str) : Prop := generate { E with S := p.live.S } p.c p.v true = .ok text

/-- The text a process is going to write in the file of its class. -/
def Pc.pending : Pc → Option Str
  | .dirTest t | .makeDir t | .openClass t | .writeClass t => some t
  | _ => none

/-- Has the process still to write the file of its class? -/
def Pc.before : Pc → Bool
  | .begin | .compare _ | .dirTest _ | .makeDir _ | .openClass _ => true
  | _ => false

theorem step_keeps {E : Env} (p : Proc) (d : Disk) :
    (p.step E d).1.c = p.c ∧ (p.step E d).1.v = p.v ∧ (p.step E d).1.live.S = p.live.S := by
  unfold Proc.step
  (repeat' split) <;> exact ⟨rfl, rfl, rfl⟩

theorem step_makes {E : Env} {p : Proc} {d : Disk} {t : Str} : (p.step E d).1.makes E t ↔ p.makes E t := by
  obtain ⟨h1, h2, h3⟩ := step_keeps (E := E) p d
  unfold Proc.makes
  rw [h1, h2, h3]

theorem step_pending {E : Env} {p : Proc} {d : Disk} (h : ∀ t, p.pc.pending = some t → p.makes E t) :
    ∀ t, (p.step E d).1.pc.pending = some t → (p.step E d).1.makes E t := by
  intro t
  rw [step_makes]
  revert h
  unfold Proc.step
  cases hp : p.pc with
  | compare known =>
    intro _
    dsimp only
    split
    · intro e; cases e
    · rename_i text hg
      split
      · intro e; cases e
      · intro e; cases e; exact hg
  | dirTest text =>
    intro h
    dsimp only
    split <;> (intro e; exact h t e)
  | makeDir text =>
    intro h
    dsimp only
    split
    · intro e; cases e
    · intro e; exact h t e
  | openClass text => exact fun h e => h t e
  | writeClass text => intro _ e; cases e
  | done r => intro h; dsimp only; rw [hp]; intro e; cases e
  | edit es =>
    intro _
    cases es with
    | nil => intro e; cases e
    | cons e es => dsimp only; split <;> (intro e; cases e)
  | _ =>
    intro _
    dsimp only
    (repeat' split) <;> (intro e; cases e)

theorem step_class {E : Env} (p : Proc) (d : Disk) :
    (∃ text, p.pc = .writeClass text ∧ p.step E d = ({ p with pc := .check }, d.writeClass p.c (overlay text ((d.files p.c).getD [])))) ∨
    ((p.step E d).1.WritingClass ∧ (p.step E d).2.files p.c = some []) ∨
    (∃ e, (p.step E d).1.pc = .done (.error e)) ∨
    (¬ p.WritingClass ∧ ¬ (p.step E d).1.WritingClass ∧ (p.step E d).2.files p.c = d.files p.c ∧ (p.step E d).1.pc.before = p.pc.before) := by
  have no : ∀ {q : Proc}, (∀ text, q.pc ≠ .writeClass text) → ¬ q.WritingClass := fun h ⟨_, e⟩ => h _ e
  cases hp : p.pc with
  | writeClass text => exact .inl ⟨text, rfl, by unfold Proc.step; rw [hp]⟩
  | openClass text =>
    refine .inr (.inl ?_)
    unfold Proc.step
    rw [hp]
    exact ⟨⟨text, rfl⟩, by simp [Disk.writeClass]⟩
  | edit es =>
    cases es with
    | nil =>
      refine .inr (.inr (.inr ⟨no (by simp [hp]), no ?_, ?_, ?_⟩)) <;> unfold Proc.step <;> rw [hp]
      · simp
      · rfl
    | cons e es =>
      unfold Proc.step
      rw [hp]
      dsimp only
      split
      · exact .inr (.inr (.inl ⟨_, rfl⟩))
      · exact .inr (.inr (.inr ⟨no (by simp [hp]), no (by simp), rfl, rfl⟩))
  | done r =>
    refine .inr (.inr (.inr ⟨no (by simp [hp]), no ?_, ?_, ?_⟩)) <;> unfold Proc.step <;> rw [hp]
    · simp [hp]
    · simp only [hp]
  | _ =>
    unfold Proc.step
    rw [hp]
    dsimp only
    (repeat' split) <;> first
      | exact .inr (.inr (.inl ⟨_, rfl⟩))
      | exact .inr (.inr (.inr ⟨no (by simp [hp]), no (by simp), rfl, rfl⟩))

/-- The file of a class is the first one, or the complete text of one of the processes, or is being written, or a process has failed. -/
def ClassInv (E : Env) (x : Str) (first : Option Str) (s : Sys) : Prop :=
  (s.disk.files x = first ∧ ∀ i p, s.procs i = some p → p.c = x → p.pc.before = true) ∨
  ∃ i p, s.procs i = some p ∧ ((p.c = x ∧ p.WritingClass ∧ s.disk.files x = some []) ∨
    (p.c = x ∧ (∃ t, p.makes E t ∧ s.disk.files x = some t) ∧ ∀ j q, s.procs j = some q → q.c = x → ¬ q.WritingClass) ∨
    ∃ e, p.pc = .done (.error e))

theorem classInv_move {E : Env} {x : Str} {first : Option Str} {s : Sys} (h : ClassInv E x first s) (h1 : s.OneClassWriter)
    (hm : ∀ i p, s.procs i = some p → ∀ t, p.pc.pending = some t → p.makes E t) (j : Nat) :
    ClassInv E x first (s.move E j) := by
  cases hq : s.procs j with
  | none =>
    have : s.move E j = s := by unfold Sys.move; rw [hq]
    rw [this]; exact h
  | some q =>
    obtain ⟨m1, m2⟩ := move_self (E := E) hq
    have hsc := step_c (E := E) q s.disk
    have keep : ∀ {i p}, i ≠ j → s.procs i = some p → (s.move E j).procs i = some p := fun hi hp => by rw [move_other hi]; exact hp
    have quiet : (∀ i p, s.procs i = some p → p.c = x → i ≠ j → ¬ p.WritingClass) → (q.c = x → ¬ (q.step E s.disk).1.WritingClass) →
        ∀ i p, (s.move E j).procs i = some p → p.c = x → ¬ p.WritingClass := by
      intro ho hn i p hp hc
      by_cases hi : i = j
      · subst hi; rw [m1] at hp; cases hp; exact hn (by rw [← hsc]; exact hc)
      · rw [move_other hi] at hp; exact ho i p hp hc hi
    have failed : (∃ i p e, s.procs i = some p ∧ p.pc = .done (.error e)) → ClassInv E x first (s.move E j) := by
      rintro ⟨i, p, e, hp, he⟩
      by_cases hi : i = j
      · subst hi
        rw [hq] at hp; cases hp
        refine .inr ⟨i, _, m1, .inr (.inr ⟨e, ?_⟩)⟩
        unfold Proc.step
        rw [he]
        exact he
      · exact .inr ⟨i, p, keep hi hp, .inr (.inr ⟨e, he⟩)⟩
    by_cases hcx : q.c = x
    · rcases step_class (E := E) q s.disk with ⟨text, hpc, hst⟩ | ⟨w, e⟩ | ⟨e, he⟩ | ⟨w, w', hd, hb⟩
      · have hw : q.WritingClass := ⟨text, hpc⟩
        rcases h with ⟨_, hn⟩ | ⟨i, p, hp, ⟨hpc', hpw, hpy⟩ | ⟨_, _, hn⟩ | ⟨e, he⟩⟩
        · have := hn j q hq hcx; rw [hpc] at this; cases this
        · have := h1 i j p q hp hq (hpc'.trans hcx.symm) hpw hw
          subst this
          rw [hq] at hp; cases hp
          refine .inr ⟨i, _, m1, .inr (.inl ⟨by rw [hsc]; exact hcx, ⟨text, ?_, ?_⟩, quiet ?_ ?_⟩)⟩
          · rw [step_makes]; exact hm i q hq text (by rw [hpc]; rfl)
          · rw [m2, hst]
            simp [Disk.writeClass, overlay, hcx, hpy]
          · exact fun k r hk hrc hne hr => hne (h1 k i r q hk hq (hrc.trans hcx.symm) hr hw)
          · rw [hst]
            rintro _ ⟨_, e⟩
            cases e
        · exact absurd hw (hn j q hq hcx)
        · exact failed ⟨i, p, e, hp, he⟩
      · exact .inr ⟨j, _, m1, .inl ⟨by rw [hsc]; exact hcx, w, by rw [m2, ← hcx]; exact e⟩⟩
      · exact .inr ⟨j, _, m1, .inr (.inr ⟨e, he⟩)⟩
      · rw [hcx] at hd
        rcases h with ⟨hf, hn⟩ | ⟨i, p, hp, ⟨hpc', hpw, hpy⟩ | ⟨hpc', ⟨t, ht, hf⟩, hn⟩ | ⟨e, he⟩⟩
        · refine .inl ⟨by rw [m2, hd]; exact hf, ?_⟩
          intro i p hp hpc
          by_cases hi : i = j
          · subst hi; rw [m1] at hp; cases hp; rw [hb]; exact hn i q hq hcx
          · rw [move_other hi] at hp; exact hn i p hp hpc
        · by_cases hi : i = j
          · subst hi
            rw [hq] at hp; cases hp
            exact absurd hpw w
          · exact .inr ⟨i, p, keep hi hp, .inl ⟨hpc', hpw, by rw [m2, hd]; exact hpy⟩⟩
        · by_cases hi : i = j
          · subst hi
            rw [hq] at hp; cases hp
            exact .inr ⟨i, _, m1, .inr (.inl ⟨by rw [hsc]; exact hcx, ⟨t, step_makes.mpr ht, by rw [m2, hd]; exact hf⟩,
              quiet (fun i p hp hc _ => hn i p hp hc) (fun _ => w')⟩)⟩
          · exact .inr ⟨i, p, keep hi hp, .inr (.inl ⟨hpc', ⟨t, ht, by rw [m2, hd]; exact hf⟩,
              quiet (fun i p hp hc _ => hn i p hp hc) (fun _ => w')⟩)⟩
        · exact failed ⟨i, p, e, hp, he⟩
    · have hd : (s.move E j).disk.files x = s.disk.files x := by
        rw [m2]; exact (step_files (E := E) q s.disk).2.1 x (Ne.symm hcx)
      rcases h with ⟨hf, hn⟩ | ⟨i, p, hp, ⟨hpc', hpw, hpy⟩ | ⟨hpc', ⟨t, ht, hf⟩, hn⟩ | ⟨e, he⟩⟩
      · refine .inl ⟨by rw [hd]; exact hf, ?_⟩
        intro i p hp hpc
        by_cases hi : i = j
        · subst hi; rw [m1] at hp; cases hp; exact absurd (by rw [← hsc]; exact hpc) hcx
        · rw [move_other hi] at hp; exact hn i p hp hpc
      · have hi : i ≠ j := by rintro rfl; rw [hq] at hp; cases hp; exact hcx hpc'
        exact .inr ⟨i, p, keep hi hp, .inl ⟨hpc', hpw, by rw [hd]; exact hpy⟩⟩
      · have hi : i ≠ j := by rintro rfl; rw [hq] at hp; cases hp; exact hcx hpc'
        exact .inr ⟨i, p, keep hi hp, .inr (.inl ⟨hpc', ⟨t, ht, by rw [hd]; exact hf⟩,
          quiet (fun i p hp hc _ => hn i p hp hc) (fun h => absurd h hcx)⟩)⟩
      · exact failed ⟨i, p, e, hp, he⟩

theorem pending_move {E : Env} {s : Sys} (hm : ∀ i p, s.procs i = some p → ∀ t, p.pc.pending = some t → p.makes E t) (j : Nat) :
    ∀ i p, (s.move E j).procs i = some p → ∀ t, p.pc.pending = some t → p.makes E t := by
  intro i p hp
  cases hq : s.procs j with
  | none =>
    have : s.move E j = s := by unfold Sys.move; rw [hq]
    rw [this] at hp
    exact hm i p hp
  | some q =>
    by_cases hi : i = j
    · subst hi
      rw [(move_self hq).1] at hp
      cases hp
      exact step_pending (hm i q hq)
    · rw [move_other hi] at hp
      exact hm i p hp

theorem classInv_run {E : Env} {x : Str} {first : Option Str} : ∀ (sched : List Nat) (s : Sys), ClassInv E x first s →
    (∀ i p, s.procs i = some p → ∀ t, p.pc.pending = some t → p.makes E t) →
    (∀ pre post, sched = pre ++ post → (s.run E pre).OneClassWriter) → ClassInv E x first (s.run E sched)
  | [], s, h, _, _ => h
  | j :: r, s, h, hm, h1 => by
    simp only [Sys.run]
    refine classInv_run r (s.move E j) (classInv_move h (h1 [] (j :: r) rfl) hm j) (pending_move hm j) ?_
    intro pre post e
    exact h1 (j :: pre) post (by rw [e]; rfl)

/-- A process keeps what its call is about. -/
theorem run_back {E : Env} : ∀ (sched : List Nat) (s : Sys) {i : Nat} {q : Proc}, (s.run E sched).procs i = some q →
    ∃ p, s.procs i = some p ∧ p.c = q.c ∧ ∀ t, q.makes E t ↔ p.makes E t
  | [], s, i, q, h => ⟨q, h, rfl, fun _ => Iff.rfl⟩
  | j :: r, s, i, q, h => by
    obtain ⟨p', hp', e, hm⟩ := run_back r (s.move E j) h
    by_cases hi : i = j
    · subst hi
      cases hp : s.procs i with
      | none =>
        have : s.move E i = s := by unfold Sys.move; rw [hp]
        rw [this, hp] at hp'
        cases hp'
      | some p =>
        rw [(move_self hp).1] at hp'
        cases hp'
        exact ⟨p, rfl, by rw [← e, step_c], fun t => by rw [hm, step_makes]⟩
    · rw [move_other hi] at hp'
      exact ⟨p', hp', e, hm⟩

theorem run_forth {E : Env} : ∀ (sched : List Nat) (s : Sys) {i : Nat} {p : Proc}, s.procs i = some p →
    ∃ q, (s.run E sched).procs i = some q ∧ q.c = p.c
  | [], s, i, p, h => ⟨p, h, rfl⟩
  | j :: r, s, i, p, h => by
    by_cases hi : i = j
    · subst hi
      obtain ⟨q, hq, e⟩ := run_forth r (s.move E i) (move_self (E := E) h).1
      exact ⟨q, hq, by rw [e, step_c]⟩
    · exact run_forth r (s.move E j) (by rw [move_other hi]; exact h)

theorem Sys.Distinct.run {E : Env} : ∀ (sched : List Nat) {s : Sys}, s.Distinct → (s.run E sched).Distinct
  | [], _, h => h
  | j :: r, _, h => Sys.Distinct.run r (h.move j)

/-- A call that succeeds returns the object it was given. -/
theorem step_result {E : Env} {p : Proc} {d : Disk} (h : ∀ x, p.pc = .done (.ok x) → x = p.v) :
    ∀ x, (p.step E d).1.pc = .done (.ok x) → x = (p.step E d).1.v := by
  rw [(step_keeps p d).2.1]
  unfold Proc.step
  intro x
  (repeat' split) <;> intro e <;> first
    | (cases e; rfl)
    | (cases e; done)
    | exact h x e

theorem run_result {E : Env} : ∀ (sched : List Nat) (s : Sys), (∀ i p, s.procs i = some p → ∀ x, p.pc = .done (.ok x) → x = p.v) →
    ∀ i p, (s.run E sched).procs i = some p → ∀ x, p.pc = .done (.ok x) → x = p.v
  | [], _, h => h
  | j :: r, s, h => by
    refine run_result r (s.move E j) ?_
    intro i p hp
    cases hq : s.procs j with
    | none =>
      have : s.move E j = s := by unfold Sys.move; rw [hq]
      rw [this] at hp
      exact h i p hp
    | some q =>
      by_cases hi : i = j
      · subst hi
        rw [(move_self hq).1] at hp
        cases hp
        exact step_result (h i q hq)
      · rw [move_other hi] at hp
        exact h i p hp

end Verif
