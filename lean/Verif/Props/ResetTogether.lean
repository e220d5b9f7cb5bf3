import Verif.Lemmas.ResetSteps
import Verif.Props.Together
/-
C103: a call of the live generator while other processes reset everything.
-/
namespace Verif.Props
open Verif Verif.Spec

/-- **C103** (partial). If the directory of generated classes is not removed during the call, the call ends as if nobody had reset
anything: the same outcome and the same class files. Only the stub may be missing. Missing: resets that remove the directory
(`call_despite_resets_fails`). -/
theorem call_despite_resets_partial (E : Env) :
    CallDespiteResets E (fun s sched => ∀ pre i post, sched = pre ++ i :: post → ¬ (s.run E pre).RemovesDir i) := by
  intro s sched g c v hb hn hc
  have h0 : SoFar s.caller s.disk (.start g c v) s.disk := by rw [hb]; exact .begins rfl
  have := sofar_run sched s _ _ h0 hn
  rw [steps_make_call E g s.disk c v _ hc] at this
  obtain ⟨h1, h2, ⟨x, hd, hx, _, _⟩, _⟩ := this
  dsimp only
  rw [hd]
  exact ⟨h1, h2, rfl, rfl, hx⟩

/-- **C103**: whatever the order of steps, and however many processes reset, every file is missing, as it was, or complete when the call
is over. -/
theorem nothing_torn (E : Env) : NothingTorn E := by
  intro s sched g c v hb ho
  have h := untorn_run (E := E) (g := g) (c := c) (v := v) (f := s.disk) sched s (by rw [hb]; exact .begins)
  have hg := goneAt_run (E := E) sched s (by rw [hb]; intro hx; cases hx)
  have nw : ¬ (s.run E sched).caller.proc.WritingClass := by
    rintro ⟨t, ht⟩
    rcases ho with ho | ⟨r, ho⟩
    · rcases hg ho with ⟨k, hk⟩ | ⟨k, hk⟩ <;> rw [ht] at hk <;> cases hk
    · rw [ht] at ho; cases ho
  have ns : ¬ (s.run E sched).caller.proc.Writing := by
    rintro ⟨t, es, ht⟩
    rcases ho with ho | ⟨r, ho⟩
    · rcases hg ho with ⟨k, hk⟩ | ⟨k, hk⟩ <;> rw [ht] at hk <;> cases hk
    · rw [ht] at ho; cases ho
  refine ⟨h.others, h.closed nw, fun hk => ?_⟩
  rcases h.stubClosed ns with h | h | h | ⟨e, h⟩
  · exact .inl h
  · exact .inr (.inl h)
  · exact .inr (.inr h)
  · rcases hk with hk | ⟨x, hk⟩
    · rcases hg hk with ⟨k, hk⟩ | ⟨k, hk⟩ <;> rw [h] at hk <;> cases hk
    · rw [h] at hk; cases hk

/-- **C103** (partial). After any history, if resets do not remove the directory of generated classes during the call (they may before and
after it, and remove the stub at any time), every class in the registry has a file once all is over. Missing: resets that remove the
directory during the call (`registry_has_files_fails`). -/
theorem registry_has_files_partial (E : Env) : RegistryHasFiles E (fun s sched =>
    (∃ hist i, (World.empty.run E hist).gens i = some s.caller.proc.live ∧ s.disk = (World.empty.run E hist).disk) ∧
    ∀ pre i post, sched = pre ++ i :: post → ¬ (s.run E pre).CallOver → ¬ (s.run E pre).RemovesDir i) := by
  rintro s sched g c v hb ⟨⟨hist, i, hg, hd⟩, hn⟩ ho hr
  rw [hb] at hg
  simp only [Proc.start] at hg
  have hs : (g.fromData E s.disk c v).disk.Registered := by
    have := (run_sane (hist ++ [.call i c v]) (sane_empty E)).disk
    rw [run_append] at this
    simp only [World.run, World.step, hg, ← hd] at this
    intro text names hp hx x hm
    obtain ⟨cs, h1, h2⟩ := this text hp
    rw [complete_registered h1] at hx
    cases hx
    exact Option.isSome_iff_ne_none.mp (h2 x hm)
  have key : ∀ n x, (Proc.alone E n (.start g c v) s.disk).1.pc = .done x → (Proc.alone E n (.start g c v) s.disk).2.Registered := by
    intro n x hx
    have h1 := steps_make_call E g s.disk c v (n + 16) (by omega)
    have h2 : Proc.alone E (n + 16) (.start g c v) s.disk = Proc.alone E n (.start g c v) s.disk := by
      rw [alone_add, alone_done hx]
    rw [← h2, h1]
    exact hs
  have h0 : Progress E (.start g c v) s.disk s := by
    refine progress_of_sofar (n := 0) ?_ key
    rw [hb]; exact .begins rfl
  rcases progress_run key sched s h0 hn with ⟨h, _⟩ | ⟨_, h | h | ⟨j, h⟩⟩
  · exact absurd ho h
  · exact h
  · intro text names hp; rw [h] at hp; cases hp
  · obtain ⟨ok, hk⟩ := hr j
    rcases h with h | h <;> rw [h] at hk <;> cases hk
where
  alone_add {E : Env} : ∀ {n m : Nat} {p : Proc} {d : Disk},
      Proc.alone E (n + m) p d = Proc.alone E m (Proc.alone E n p d).1 (Proc.alone E n p d).2
    | 0, m, p, d => by rw [Nat.zero_add]; rfl
    | n + 1, m, p, d => by rw [Nat.succ_add, Proc.alone, alone_add]; rfl

/-- **C103**: a single reset never fails, whatever the call does in the meantime. -/
theorem single_reset_succeeds (E : Env) (s : ResetSys) (sched : List (Option Nat)) (j : Nat) (hj : s.resets j = .dirTest)
    (ho : ∀ i, i ≠ j → s.resets i = .done true) : ∀ i, (s.run E sched).resets i ≠ .done false := by
  obtain ⟨h1, h2⟩ := resetFinds_run (E := E) sched s ho (by rw [hj]; exact ⟨by simp, by simp, by simp⟩)
  intro i
  by_cases e : i = j
  · rw [e]; exact h2.2.2
  · rw [h1 i e]; simp

/-! ### Where the claim is false -/

/-- The generator 0 after a history is called for a class, and `n` processes reset. -/
def withResets (hist : List Event) (a : Str) (x : Val) (n : Nat) : Option ResetSys :=
  ((World.empty.run (exEnv {}) hist).gens 0).map (fun g =>
    ⟨⟨.start g a x, false, false⟩, fun j => if j < n then .dirTest else .done true, (World.empty.run (exEnv {}) hist).disk⟩)

/-- One generator, and nothing else. -/
def oneNew : List Event := [.new 0 {} .overwrite]

/-- A reset after the class file was written. -/
def resetBetween : List (Option Nat) := List.replicate 7 none ++ List.replicate 4 (some 0) ++ List.replicate 9 none

theorem withResets_some {hist : List Event} {a : Str} {x : Val} {n : Nat} {s : ResetSys} (h : withResets hist a x n = some s) :
    s.Begins s.caller.proc.live a x ∧ (World.empty.run (exEnv {}) hist).gens 0 = some s.caller.proc.live ∧
    s.disk = (World.empty.run (exEnv {}) hist).disk ∧ s.resets = fun j => if j < n then .dirTest else .done true := by
  obtain ⟨g, hg, rfl⟩ := Option.map_eq_some_iff.mp h
  exact ⟨rfl, hg, rfl, rfl⟩

/-- What happens with a schedule. -/
def outcome (hist : List Event) (a : Str) (n : Nat) (sched : List (Option Nat)) (check : ResetSys → Bool) : Option Bool :=
  (withResets hist a undocumented n).map (fun s => check (s.run (exEnv {}) sched))

theorem outcome_true {hist : List Event} {a : Str} {n : Nat} {sched : List (Option Nat)} {check : ResetSys → Bool}
    (h : outcome hist a n sched check = some true) :
    ∃ s, withResets hist a undocumented n = some s ∧ check (s.run (exEnv {}) sched) = true := by
  obtain ⟨s, hs, e⟩ := Option.map_eq_some_iff.mp h
  exact ⟨s, hs, e⟩

/-- Has the call returned? -/
def callOk (s : ResetSys) : Bool := !s.caller.gone && match s.caller.proc.pc with | .done (.ok _) => true | _ => false

theorem callOk_over {s : ResetSys} (h : callOk s = true) : s.CallOver := by
  simp only [callOk, Bool.and_eq_true] at h
  have h := h.2
  split at h
  · rename_i x hx; exact .inr ⟨_, hx⟩
  · cases h

/-- Is a class in the registry whose file is missing? -/
def fileMissing (s : ResetSys) : Bool := match s.disk.pyi with
  | some text => match registered (splitlines text) with
    | .ok names => names.any (fun x => (s.disk.files x).isNone)
    | .error _ => false
  | none => false

/-- **C103 is false**: a reset between the writing of the class and the edits of the stub removes the class, and then the call registers
it. -/
theorem registry_has_files_fails : ¬ RegistryHasFiles (exEnv {}) (fun s _ =>
    ∃ hist i, (World.empty.run (exEnv {}) hist).gens i = some s.caller.proc.live ∧ s.disk = (World.empty.run (exEnv {}) hist).disk) := by
  intro h
  obtain ⟨s, hs, hk⟩ := outcome_true (hist := oneNew) (a := py!"A") (n := 1) (sched := resetBetween)
    (check := fun t => callOk t && decide (t.resets 0 = .done true) && fileMissing t) (by decide +kernel)
  simp only [Bool.and_eq_true, decide_eq_true_eq] at hk
  obtain ⟨⟨k1, k2⟩, k3⟩ := hk
  obtain ⟨h1, h2, h3, h4⟩ := withResets_some hs
  have hr := resetFinds_run (E := exEnv {}) (j := 0) resetBetween s (fun i hi => by rw [h4]; simp [hi])
    (by rw [h4]; exact ⟨by simp, by simp, by simp⟩)
  have := h s resetBetween _ _ _ h1 ⟨oneNew, 0, h2, h3⟩ (callOk_over k1) (fun j => by
    by_cases hj : j = 0
    · rw [hj]; exact ⟨_, k2⟩
    · exact ⟨_, hr.1 j hj⟩)
  unfold fileMissing at k3
  split at k3
  · rename_i text ht
    split at k3
    · rename_i names hn
      obtain ⟨x, hx, hf⟩ := List.any_eq_true.mp k3
      exact this text names ht hn x hx (Option.isNone_iff_eq_none.mp hf)
    · cases k3
  · cases k3

/-- ... and from then on every call of a new generator fails. -/
theorem reset_blocks : outcome oneNew py!"A" 1 resetBetween (fun t => callOk t && decide (t.resets 0 = .done true) &&
    match registryOf t.disk with | some (.error (.missing c)) => c == py!"A" | _ => false) = some true := by decide +kernel

/-- A reset after the directory was made. -/
def resetEarly : List (Option Nat) := List.replicate 4 none ++ List.replicate 4 (some 0) ++ List.replicate 16 none

/-- **C103 is false**: a reset before the class is written makes the call raise a `FileNotFoundError`. -/
theorem call_despite_resets_fails : ¬ CallDespiteResets (exEnv {}) (fun s _ =>
    ∃ hist i, (World.empty.run (exEnv {}) hist).gens i = some s.caller.proc.live ∧ s.disk = (World.empty.run (exEnv {}) hist).disk) := by
  intro h
  obtain ⟨s, hs, hk⟩ := outcome_true (hist := oneNew) (a := py!"A") (n := 1) (sched := resetEarly)
    (check := fun t => t.caller.gone) (by decide +kernel)
  obtain ⟨h1, h2, h3, _⟩ := withResets_some hs
  have := (h s resetEarly _ _ _ h1 ⟨oneNew, 0, h2, h3⟩ (by decide)).2.1
  rw [this] at hk
  cases hk

/-- Two resets at the same time: one of them raises a `FileNotFoundError`. -/
theorem two_resets_fail : outcome [.new 0 {} .overwrite, .new 1 {} .overwrite, .call 1 py!"Z" undocumented] py!"A" 2
    [some 0, some 1, some 0, some 1] (fun t => decide (t.resets 1 = .done false)) = some true := by decide +kernel

/-! ### Cases that meet the hypotheses -/

/-- Does no reset remove the directory during the call? -/
def dirStays (E : Env) : ResetSys → List (Option Nat) → Bool
  | _, [] => true
  | s, none :: r => dirStays E (s.move E none) r
  | s, some j :: r => !(s.resets j == .removeDir && s.disk.build) && dirStays E (s.move E (some j)) r

theorem dirStays_prop {E : Env} : ∀ (sched : List (Option Nat)) (s : ResetSys), dirStays E s sched = true →
    ∀ pre i post, sched = pre ++ i :: post → ¬ (s.run E pre).RemovesDir i
  | [], _, _, pre, i, post, e => by cases pre <;> cases e
  | none :: r, s, h, pre, i, post, e => by
    cases pre with
    | nil => cases e; rintro ⟨j, hj, _⟩; cases hj
    | cons a pre => cases e; exact dirStays_prop _ (s.move E none) h pre i post rfl
  | some j :: r, s, h, pre, i, post, e => by
    simp only [dirStays, Bool.and_eq_true, Bool.not_eq_true', Bool.and_eq_false_iff] at h
    cases pre with
    | nil =>
      cases e
      rintro ⟨k, hk, h1, h2⟩
      cases hk
      simp only [ResetSys.run] at h1 h2
      rcases h.1 with h | h
      · rw [h1] at h; cases h
      · rw [h2] at h; cases h
    | cons a pre => cases e; exact dirStays_prop _ (s.move E (some j)) h.2 pre i post rfl

/-- The reset has seen no directory before the call makes one, and removes the stub during the edits. -/
def stubOnly : List (Option Nat) := some 0 :: List.replicate 9 none ++ [some 0, some 0] ++ List.replicate 9 none

example : ∃ s, withResets oneNew py!"A" undocumented 1 = some s ∧ s.Begins s.caller.proc.live py!"A" undocumented ∧
    (∀ pre i post, stubOnly = pre ++ i :: post → ¬ (s.run (exEnv {}) pre).RemovesDir i) ∧ 16 ≤ stubOnly.count none ∧
    (callOk (s.run (exEnv {}) stubOnly) && decide ((s.run (exEnv {}) stubOnly).resets 0 = .done true)) = true := by
  have hd : (withResets oneNew py!"A" undocumented 1).map (fun s => dirStays (exEnv {}) s stubOnly) = some true := by decide +kernel
  obtain ⟨s, hs, hk⟩ := outcome_true (hist := oneNew) (a := py!"A") (n := 1) (sched := stubOnly)
    (check := fun t => callOk t && decide (t.resets 0 = .done true)) (by decide +kernel)
  rw [hs] at hd
  exact ⟨s, hs, (withResets_some hs).1, dirStays_prop _ _ (by simpa using hd), by decide, hk⟩

example : ∃ s, withResets oneNew py!"A" undocumented 1 = some s ∧ s.Begins s.caller.proc.live py!"A" undocumented ∧
    (s.run (exEnv {}) resetBetween).CallOver := by
  obtain ⟨s, hs, hk⟩ := outcome_true (hist := oneNew) (a := py!"A") (n := 1) (sched := resetBetween) (check := callOk) (by decide +kernel)
  exact ⟨s, hs, (withResets_some hs).1, callOk_over hk⟩

end Verif.Props
