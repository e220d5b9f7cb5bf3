import Verif.Props.LiveDocs
/-
Crashes of live generators and several generators at work.
-/
namespace Verif.Props
open Verif Verif.Spec

/-- The disk at a moment of a call after a history; `k` counts the states of the disk. -/
def crashDisk (E : Env) (hist : List Event) (i : Nat) (c : Str) (v : Val) (k : Nat) : Disk :=
  let w := World.empty.run E hist
  match w.gens i with
  | some g => (g.fromData E w.disk c v).states.getD k w.disk
  | none => w.disk

def crashCount (E : Env) (hist : List Event) (i : Nat) (c : Str) (v : Val) : Nat :=
  match (World.empty.run E hist).gens i with
  | some g => (g.fromData E (World.empty.run E hist).disk c v).states.length
  | none => 0

theorem crashDisk_mem {E : Env} {hist : List Event} {i : Nat} {c : Str} {v : Val} {k : Nat} (h : k < crashCount E hist i c v) :
    ∃ g, (World.empty.run E hist).gens i = some g ∧ crashDisk E hist i c v k ∈ (g.fromData E (World.empty.run E hist).disk c v).states := by
  unfold crashCount at h
  cases hg : (World.empty.run E hist).gens i with
  | none => rw [hg] at h; cases h
  | some g =>
    rw [hg] at h
    refine ⟨g, rfl, ?_⟩
    simp only [crashDisk, hg]
    rw [List.getD_eq_getElem?_getD, List.getElem?_eq_getElem h]
    exact List.getElem_mem h

/-! ### C48, reset -/

/-- What a new generator says about the registry of a disk. -/
def registryOf (d : Disk) : Option (Except LiveErr (List Str)) := match newLive {} .overwrite d with
  | .ok g => some (classesAdded g.lines d)
  | .error _ => none

/-- `reset` removes the class files before the stub: stopped in between, it leaves a registry without files. -/
theorem reset_crash_fails : ∃ (E : Env) (hist : List Event) (s : Disk), s ∈ reset (World.empty.run E hist).disk ∧
    registryOf s = some (.error (.missing py!"A")) :=
  ⟨exEnv {}, [.new 0 {} .overwrite, .call 0 py!"A" undocumented], _, List.mem_cons_of_mem _ List.mem_cons_self, by decide +kernel⟩

/-! ### C49 -/

theorem call_ok_cases {E : Env} {g : Live} {d : Disk} {c : Str} {v x : Val} {cs : List Str} (h : Complete E.U cs g.lines)
    (hok : (g.fromData E d c v).result = .ok x) : nameOk E.U c = true ∧ ∃ text, generate { E with S := g.S } c v true = .ok text := by
  rcases call_cases E g d c v h with ⟨_, _, _, e, h', _⟩ | ⟨hn, _, text, h1, _⟩
  · rw [h'] at hok; cases hok
  · exact ⟨hn, text, h1⟩

/-- **C49, partial.** If a call that would succeed stops before it begins to write the stub, then repeating it with a new generator (that
overwrites) succeeds, leaves the same class file as the uninterrupted call, and a complete stub: registry, import and overloads. Missing:
calls stopped while the stub is being written (`crash_recovery_fails`, `crash_recovery_fails_torn`), and validating generators
(`crash_recovery_fails_validate`). -/
theorem crash_recovery_partial (E : Env) (hist : List Event) (h : CallsUpToDate E World.empty hist) (i : Nat) (g : Live)
    (hg : (World.empty.run E hist).gens i = some g) (hu : UpToDate (World.empty.run E hist).disk g) (c : Str) (v : Val)
    (hok : (g.fromData E (World.empty.run E hist).disk c v).result = .ok v) (s : Disk)
    (hs : s ∈ (g.fromData E (World.empty.run E hist).disk c v).states) (hp : s.pyi = (World.empty.run E hist).disk.pyi) :
    ∃ g', newLive g.S .overwrite s = .ok g' ∧ (g'.fromData E s c v).result = .ok v ∧
      (g'.fromData E s c v).disk.files c = (g.fromData E (World.empty.run E hist).disk c v).disk.files c ∧
      ∃ g'' is ys ds cs, newLive g.S .overwrite (g'.fromData E s c v).disk = .ok g'' ∧
        cs = (if c ∈ (LiveState.empty.run E hist).classes then (LiveState.empty.run E hist).classes else (LiveState.empty.run E hist).classes ++ [c]) ∧
        classesAdded g''.lines (g'.fromData E s c v).disk = .ok cs ∧ is.Perm cs ∧ ys.Perm cs ∧ ds.Perm cs ∧ IsStub E.U cs is ys ds g''.lines := by
  have ha := run_agrees (empty_agrees E) h
  obtain ⟨cs0, hcs0⟩ := ha.gens i g hg
  obtain ⟨hn, text, ht⟩ := call_ok_cases hcs0 hok
  have hstub := ha.stub
  rw [← hp] at hstub
  obtain ⟨L, h1, h2, _⟩ := newLive_complete (E := E) (S := g.S) (mode := .overwrite) hstub
  have hfiles : ∀ x ∈ (LiveState.empty.run E hist).classes, (s.files x).isSome :=
    live_crash_registry E hist i g hg c v s hs g.S .overwrite _ h1 _ (complete_registered h2)
  have htext : (g.fromData E (World.empty.run E hist).disk c v).disk.files c = some text := by
    obtain ⟨t, ht', hf⟩ := live_success_text E hist i g hg c v v hok
    rw [ht] at ht'; cases ht'; exact hf
  refine ⟨_, h1, ?_⟩
  rcases call_cases E { S := g.S, mode := .overwrite, lines := L } s c v h2 with ⟨_, _, _, e, h', hc⟩ | ⟨_, _, text', ht', _, h', hc⟩
  · exfalso
    rcases hc with ⟨_, h3⟩ | ⟨_, x, _, hx, hx'⟩ | ⟨_, _, e', _, h3⟩ | ⟨_, _, _, _, h3, _⟩
    · rw [hn] at h3; cases h3
    · have := hfiles x hx
      rw [hx'] at this; cases this
    · simp only at h3; rw [ht] at h3; cases h3
    · cases h3
  · simp only at ht'
    rw [ht] at ht'
    cases ht'
    refine ⟨h', ?_⟩
    rcases hc with ⟨hm, _, e2, _⟩ | ⟨hm, L', states, hL', _, e2, _⟩
    · rw [e2, htext, if_pos hm]
      refine ⟨by simp [Disk.writeClass], ?_⟩
      have hstub' : match (Disk.writeClass { s with build := true } c text).pyi with
          | none => (LiveState.empty.run E hist).classes = []
          | some t => Complete E.U (LiveState.empty.run E hist).classes (splitlines t) := hstub
      obtain ⟨L'', h3, h4, _⟩ := newLive_complete (E := E) (S := g.S) (mode := .overwrite) hstub'
      obtain ⟨is, ys, ds, p1, p2, p3, h5⟩ := h4
      refine ⟨_, is, ys, ds, _, h3, rfl, ?_, p1, p2, p3, h5⟩
      rw [classesAdded_ok ⟨is, ys, ds, p1, p2, p3, h5⟩ (fun x hx => writeClass_files (d := { s with build := true }) (hfiles x hx)), dedup_of_nodup ha.nodup]
    · rw [e2, htext, if_neg hm]
      refine ⟨by simp [Disk.writeClass, Disk.writePyi], ?_⟩
      have h4 := complete_reload hL'
      obtain ⟨is, ys, ds, p1, p2, p3, h5⟩ := h4
      refine ⟨{ S := g.S, mode := .overwrite, lines := splitlines (join py!"\n" L') }, is, ys, ds, _, rfl, rfl, ?_, p1, p2, p3, h5⟩
      have hnd : ((LiveState.empty.run E hist).classes ++ [c]).Nodup := by
        rw [List.nodup_append]
        refine ⟨ha.nodup, by simp, ?_⟩
        intro a ha b hb
        rw [List.mem_singleton.mp hb]
        rintro rfl
        exact hm ha
      simp only
      rw [classesAdded_ok (complete_reload hL'), dedup_of_nodup hnd]
      intro x hx
      rcases List.mem_append.mp hx with hx | hx
      · exact writeClass_files (d := { s with build := true }) (hfiles x hx)
      · rw [List.mem_singleton.mp hx]
        simp [Disk.writePyi, Disk.writeClass]

/-- Repeat a call with a new generator; tells whether it succeeded, and the lines of the stub afterwards. -/
def repeatCall (E : Env) (d : Disk) (mode : Mode) (c : Str) (v : Val) : Option (Option LiveErr × Option (List Str)) :=
  match newLive {} mode d with
  | .ok g => some (match (g.fromData E d c v).result with
      | .ok _ => none
      | .error e => some e, (g.fromData E d c v).disk.pyi.map splitlines)
  | .error _ => none

/-- **C49 fails.** A call stopped after it has written the registry: the class is registered, so that repeating the call succeeds without
ever adding the import and the overloads. -/
theorem crash_recovery_fails : ∃ (E : Env) (hist : List Event) (g : Live) (c : Str) (v : Val) (s : Disk) (lines : List Str),
    (World.empty.run E hist).gens 0 = some g ∧ s ∈ (g.fromData E (World.empty.run E hist).disk c v).states ∧
    repeatCall E s .overwrite c v = some (none, some lines) ∧ registered lines = .ok [c] ∧
    classImport c ∉ lines ∧ dataMethod.overload c ∉ lines ∧ yamlMethod.overload c ∉ lines := by
  obtain ⟨g, hg, hs⟩ := crashDisk_mem (E := exEnv {}) (hist := [.new 0 {} .overwrite]) (i := 0) (c := py!"A") (v := undocumented) (k := 1602)
    (by decide +kernel)
  have hr : (repeatCall (exEnv {}) (crashDisk (exEnv {}) [.new 0 {} .overwrite] 0 py!"A" undocumented 1602) .overwrite py!"A" undocumented).bind
      (fun p => p.2.map (fun lines => (p.1, decide (registered lines = .ok [py!"A"] ∧ classImport py!"A" ∉ lines ∧ dataMethod.overload py!"A" ∉ lines ∧
        yamlMethod.overload py!"A" ∉ lines)))) = some (none, true) := by decide +kernel
  rw [Option.bind_eq_some_iff] at hr
  obtain ⟨⟨e, l⟩, hp, hl⟩ := hr
  cases l with
  | none => cases hl
  | some lines =>
    simp only [Option.map_some, Option.some.injEq, Prod.mk.injEq, decide_eq_true_eq] at hl
    obtain ⟨rfl, hl⟩ := hl
    exact ⟨_, _, g, _, _, _, lines, hg, hs, hp, hl⟩

/-- **C49 fails.** A call stopped while it writes the stub: afterwards every call of every new generator raises. -/
theorem crash_recovery_fails_torn : ∃ (E : Env) (hist : List Event) (g : Live) (c : Str) (v : Val) (s : Disk),
    (World.empty.run E hist).gens 0 = some g ∧ s ∈ (g.fromData E (World.empty.run E hist).disk c v).states ∧
    ∀ (S : Strategies) (mode : Mode) (g' : Live) (c' : Str) (v' : Val), newLive S mode s = .ok g' → ∃ e, (g'.fromData E s c' v').result = .error e := by
  obtain ⟨g, hg, hs⟩ := crashDisk_mem (E := exEnv {}) (hist := [.new 0 {} .overwrite]) (i := 0) (c := py!"A") (v := undocumented) (k := 500)
    (by decide +kernel)
  refine ⟨_, _, g, _, _, _, hg, hs, ?_⟩
  intro S mode g' c' v' hg'
  have hr : (crashDisk (exEnv {}) [.new 0 {} .overwrite] 0 py!"A" undocumented 500).pyi.map (fun t => decide (registered (splitlines t) = .error .noRegistry)) =
      some true := by decide +kernel
  rw [Option.map_eq_some_iff] at hr
  obtain ⟨t, ht, hr⟩ := hr
  unfold newLive at hg'
  rw [ht] at hg'
  simp only [Except.ok.injEq] at hg'
  subst hg'
  unfold Live.fromData
  split
  · simp only [classesAdded, of_decide_eq_true hr]
    exact ⟨_, rfl⟩
  · exact ⟨_, rfl⟩

/-- **C49 fails.** A validating generator also rewrites the class file: stopped while it does, it leaves a file that never validates
again. -/
theorem crash_recovery_fails_validate : ∃ (E : Env) (hist : List Event) (g : Live) (c : Str) (v : Val) (s : Disk) (lines : Option (List Str)),
    (World.empty.run E hist).gens 0 = some g ∧ (g.fromData E (World.empty.run E hist).disk c v).result = .ok v ∧
    s ∈ (g.fromData E (World.empty.run E hist).disk c v).states ∧ s.pyi = (World.empty.run E hist).disk.pyi ∧
    repeatCall E s .validate c v = some (some .validation, lines) := by
  obtain ⟨g, hg, hs⟩ := crashDisk_mem (E := exEnv {}) (hist := [.new 0 {} .validate, .call 0 py!"A" undocumented]) (i := 0) (c := py!"A")
    (v := undocumented) (k := 10) (by decide +kernel)
  have hr : (repeatCall (exEnv {}) (crashDisk (exEnv {}) [.new 0 {} .validate, .call 0 py!"A" undocumented] 0 py!"A" undocumented 10) .validate py!"A"
      undocumented).map (·.1) = some (some .validation) := by decide +kernel
  rw [Option.map_eq_some_iff] at hr
  obtain ⟨⟨e, l⟩, hp, hl⟩ := hr
  simp only at hl
  subst hl
  have hpyi : (crashDisk (exEnv {}) [.new 0 {} .validate, .call 0 py!"A" undocumented] 0 py!"A" undocumented 10).pyi =
      (World.empty.run (exEnv {}) [.new 0 {} .validate, .call 0 py!"A" undocumented]).disk.pyi := by decide +kernel
  have hok : ((World.empty.run (exEnv {}) [.new 0 {} .validate, .call 0 py!"A" undocumented]).gens 0).map (fun g =>
      match (g.fromData (exEnv {}) (World.empty.run (exEnv {}) [.new 0 {} .validate, .call 0 py!"A" undocumented]).disk py!"A" undocumented).result with
      | .ok _ => true
      | .error _ => false) = some true := by decide +kernel
  rw [hg, Option.map_some, Option.some.injEq] at hok
  refine ⟨_, _, g, _, _, _, l, hg, ?_, hs, hpyi, hp⟩
  split at hok
  · rename_i x hx
    rw [hx, live_returns_data _ _ _ _ _ _ hx]
  · cases hok

/-! ### C50 -/

/-- **C50 fails.** Two generators are created, each generates a class: the second stub replaces the first, and its class is lost. -/
theorem lost_update_fails : ∃ (E : Env) (hist : List Event) (more : List Event),
    registryOf (World.empty.run E hist).disk = some (.ok [py!"A"]) ∧ (∀ e ∈ more, ∃ i c v, e = .call i c v) ∧
    registryOf (World.empty.run E (hist ++ more)).disk = some (.ok [py!"B"]) :=
  ⟨exEnv {}, [.new 0 {} .overwrite, .new 1 {} .overwrite, .call 0 py!"A" undocumented], [.call 1 py!"B" undocumented], by decide +kernel,
    by simp, by decide +kernel⟩

theorem run_append (E : Env) : ∀ (a b : List Event) (w : World), w.run E (a ++ b) = (w.run E a).run E b
  | [], _, _ => rfl
  | e :: a, b, w => run_append E a b (w.step E e)

theorem spec_run_append (E : Env) : ∀ (a b : List Event) (w : LiveState), w.run E (a ++ b) = (w.run E a).run E b
  | [], _, _ => rfl
  | e :: a, b, w => spec_run_append E a b (w.step E e)

theorem upToDate_append {E : Env} : ∀ {a b : List Event} {w : World}, CallsUpToDate E w (a ++ b) → CallsUpToDate E w a
  | [], _, _, _ => trivial
  | _ :: _, _, _, h => ⟨h.1, upToDate_append h.2⟩

theorem spec_grows (E : Env) : ∀ (b : List Event) (st : LiveState), (∀ e ∈ b, e ≠ .reset) → ∀ c ∈ st.classes, c ∈ (st.run E b).classes
  | [], _, _, _, h => h
  | e :: b, st, hb, c, hc => by
    refine spec_grows E b (st.step E e) (fun e he => hb e (by simp [he])) c ?_
    cases e with
    | reset => exact absurd rfl (hb _ List.mem_cons_self)
    | new i S mode => exact hc
    | call i c' v =>
      simp only [LiveState.step]
      split
      · exact hc
      · split
        · exact hc
        · simp only
          split
          · exact hc
          · exact List.mem_append_left _ hc

/-- **C50, partial.** As long as only up-to-date generators are called, no class is lost without a reset, whoever generates. Missing:
generators that do not read the stub again after others wrote it (`lost_update_fails`). -/
theorem lost_update_partial (E : Env) (hist more : List Event) (h : CallsUpToDate E World.empty (hist ++ more)) (hr : ∀ e ∈ more, e ≠ .reset)
    (names : List Str) (hn : registryOf (World.empty.run E hist).disk = some (.ok names)) :
    ∃ names', registryOf (World.empty.run E (hist ++ more)).disk = some (.ok names') ∧ ∀ c ∈ names, c ∈ names' := by
  obtain ⟨g, h1, h2, _⟩ := live_registry E (hist ++ more) h {} .overwrite
  obtain ⟨g0, h3, h4, _⟩ := live_registry E hist (upToDate_append h) {} .overwrite
  refine ⟨_, by rw [registryOf, h1]; exact congrArg some h2, ?_⟩
  rw [registryOf, h3] at hn
  have hn' := (congrArg some h4).symm.trans hn
  cases hn'
  rw [spec_run_append]
  exact spec_grows E more _ hr

/-- In every history the stub is the one of the last writer: after a call for a class that is new to the generator, exactly the classes of
its own copy and the new one are registered. -/
theorem live_last_writer (E : Env) (hist : List Event) (i : Nat) (g : Live) (hg : (World.empty.run E hist).gens i = some g) (c : Str) (v x : Val)
    (names : List Str) (hn : classesAdded g.lines (World.empty.run E hist).disk = .ok names) (hc : c ∉ names)
    (hok : (g.fromData E (World.empty.run E hist).disk c v).result = .ok x) :
    registryOf (g.fromData E (World.empty.run E hist).disk c v).disk = some (.ok (names ++ [c])) := by
  obtain ⟨cs, hcs⟩ := (run_sane hist (sane_empty E)).gens i g hg
  obtain ⟨cs', h1, h2, hf⟩ := classesAdded_files hn
  rw [complete_registered hcs] at h1
  cases h1
  subst h2
  rcases call_cases E g _ c v hcs with ⟨_, _, _, e, h', _⟩ | ⟨_, _, text, _, _, _, ⟨hm, _⟩ | ⟨hm, L', states, hL', _, e2, _⟩⟩
  · rw [h'] at hok; cases hok
  · exact absurd (mem_dedup.mpr hm) hc
  · rw [e2]
    simp only [registryOf, newLive, Disk.writePyi]
    rw [classesAdded_ok (complete_reload hL')]
    · rw [dedup_snoc hm]
    · intro y hy
      rcases List.mem_append.mp hy with hy | hy
      · exact writeClass_files (d := { (World.empty.run E hist).disk with build := true }) (hf y hy)
      · rw [List.mem_singleton.mp hy]
        simp [Disk.writeClass]
where
  dedup_snoc {cs : List Str} {c : Str} (h : c ∉ cs) : dedup (cs ++ [c]) = dedup cs ++ [c] := by
    induction cs with
    | nil => rfl
    | cons a cs ih =>
      simp only [List.mem_cons, not_or] at h
      simp only [List.cons_append, dedup, ih h.2, List.filter_append]
      simp [h.1]

/-! ### Examples -/

/-- Two sessions with a reset in between; every call is by the generator created last. -/
def sampleHistory : List Event :=
  [.new 0 {} .overwrite, .call 0 py!"Old" undocumented, .reset, .new 1 {} .validate, .call 1 py!"A" undocumented, .call 1 py!"1x" undocumented,
    .call 1 py!"A" undocumented, .call 1 py!"B" (documented py!"Doc."), .new 2 {} .overwrite, .call 2 py!"C" (.inst .int none)]

/-- Hypotheses of `live_registry` and its consequences. -/
example : CallsUpToDate (exEnv {}) World.empty sampleHistory := live_registry_one_at_a_time _ _ (by simp [sampleHistory, OneAtATime])

example : (LiveState.empty.run (exEnv {}) sampleHistory).classes = [py!"A", py!"B", py!"C"] ∧
    registryOf (World.empty.run (exEnv {}) sampleHistory).disk = some (.ok [py!"A", py!"B", py!"C"]) ∧
    (World.empty.run (exEnv {}) sampleHistory).disk.files py!"C" = some py!"from typing_extensions import TypeAlias\n\n\nC: TypeAlias = int" := by
  decide +kernel

end Verif.Props
