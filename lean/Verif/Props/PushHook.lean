import Verif.Spec.PushHook
/-
C102: automatic checks before code is pushed.
-/
namespace Verif.Props
open Verif Verif.Spec

/-- What **C102** says for a platform, a way to lower letters, and a hook that may be there before: after a sequence of calls, code is pushed
whatever the tools say if checks are off, and exactly if all linters pass if they are on. Hooks of somebody else stay. -/
def PushGuarded (permissions : Bool) (lower : Str → Str) (hook : Option HookFile) : Prop :=
  ∀ (calls : List (CliArgs × Option (List (Str × Bool)))) (on : Bool), Guarded lower (calls.map (·.1)) on → ∀ tools : List (Str × Bool),
    pushGoesOn permissions lower (some tools) (runScript lower hook calls) = true ↔
      (on = true → LintersPass tools) ∧ pushGoesOn permissions lower (some tools) hook = true

theorem runScript_snoc {lower : Str → Str} {x : CliArgs × Option (List (Str × Bool))} : ∀ {l : List (CliArgs × Option (List (Str × Bool)))} {hook : Option HookFile},
    runScript lower hook (l ++ [x]) = (checkMain lower x.2 x.1 (runScript lower hook l)).1
  | [], _ => rfl
  | (_, _) :: l, _ => runScript_snoc (l := l)

theorem main_switches {lower : Str → Str} {tools : Option (List (Str × Bool))} {a : CliArgs} {on : Bool} {hook : Option HookFile} (hl : ∀ s, lower s ≠ [] → s ≠ [])
    (h : Switches lower a on) : (checkMain lower tools a hook).1 = if on then some (hook.getD { script := .ours, executable := false }) else none := by
  obtain ⟨s, h1, h2, h3⟩ := h
  have hne : s.isEmpty = false := by
    have : s ≠ [] := hl s (by rw [h2]; cases on <;> decide)
    simpa using this
  have hb : (!a.single.isEmpty && !a.onlyRun.isEmpty) = false := by
    rcases h3 with h3 | h3 <;> rw [h3] <;> simp
  unfold checkMain parseCli
  rw [h1]
  simp only [hne, h2, hb]
  cases on with
  | false =>
    have e1 : contains py!"enable" py!"disable" = false := by decide
    have e2 : contains py!"disable" py!"disable" = true := by decide
    simp [e1, e2]
  | true =>
    have e1 : contains py!"enable" py!"enable" = true := by decide
    cases hook <;> simp [e1]

theorem main_runs {lower : Str → Str} {tools : Option (List (Str × Bool))} {a : CliArgs} {hook : Option HookFile} (h : JustRuns a) :
    (checkMain lower tools a hook).1 = hook := by
  unfold checkMain parseCli
  rw [show a.autoLinting = none from h]
  dsimp only
  split
  · rfl
  · rename_i args hp
    have : args.auto = .none := by
      split at hp
      · cases hp
      · injection hp with hp; rw [← hp]
    rw [this]
    dsimp only
    cases tools with
    | none => rfl
    | some tools => dsimp only; split <;> rfl

theorem script_state {lower : Str → Str} (hl : ∀ s, lower s ≠ [] → s ≠ []) {as : List CliArgs} {on : Bool} (h : Guarded lower as on) :
    ∀ calls : List (CliArgs × Option (List (Str × Bool))), calls.map (·.1) = as → runScript lower none calls = if on then some { script := .ours, executable := false } else none := by
  induction h with
  | start =>
    intro calls e
    rw [List.map_eq_nil_iff.mp e]
    rfl
  | @switch l a before on _ hs ih =>
    intro calls e
    obtain ⟨c1, c2, rfl, e1, e2⟩ := List.map_eq_append_iff.mp e
    obtain ⟨x, c3, rfl, e3, e4⟩ := List.map_eq_cons_iff.mp e2
    rw [List.map_eq_nil_iff.mp e4, runScript_snoc, main_switches hl (by rw [e3]; exact hs), ih c1 e1]
    cases before <;> rfl
  | @run l a on _ hs ih =>
    intro calls e
    obtain ⟨c1, c2, rfl, e1, e2⟩ := List.map_eq_append_iff.mp e
    obtain ⟨x, c3, rfl, e3, e4⟩ := List.map_eq_cons_iff.mp e2
    rw [List.map_eq_nil_iff.mp e4, runScript_snoc, main_runs (by rw [e3]; exact hs), ih c1 e1]

theorem our_hook {lower : Str → Str} (ha : lower py!"all linters" = py!"all linters") (tools : List (Str × Bool)) (h : HookFile) (hs : h.script = .ours) :
    hookStatus lower (some tools) h = 0 ↔ LintersPass tools := by
  have e : checkMain lower (some tools) { single := py!"all linters" } (some h) =
      (some h, exitStatus ((tools.filter fun t => t.1 != py!"pytest").map (·.2))) := by
    unfold checkMain parseCli
    simp only [List.isEmpty_cons, List.isEmpty_nil]
    unfold filterTools
    have : contains py!"all linters" (lower py!"all linters") = true := by rw [ha]; decide
    simp [this]
  unfold hookStatus
  rw [hs]
  dsimp only
  rw [e]
  dsimp only
  unfold exitStatus LintersPass
  constructor
  · intro h t ht hn
    cases hb : t.2 with
    | true => rfl
    | false =>
      have : (((tools.filter fun t => t.1 != py!"pytest").map (·.2)).contains false) = true := by
        rw [List.contains_iff_mem]
        exact List.mem_map.mpr ⟨t, List.mem_filter.mpr ⟨ht, by simpa using hn⟩, hb⟩
      rw [this] at h
      cases h
  · intro h
    have : (((tools.filter fun t => t.1 != py!"pytest").map (·.2)).contains false) = false := by
      rw [Bool.eq_false_iff, ne_eq, List.contains_iff_mem]
      intro hm
      obtain ⟨t, ht, hb⟩ := List.mem_map.mp hm
      obtain ⟨ht, hn⟩ := List.mem_filter.mp ht
      rw [h t ht (by simpa using hn)] at hb
      cases hb
    rw [this]
    rfl

/-- **C102** (partial). Where files have no permissions and no hook was there before, pushes are guarded after any sequence of calls. -/
theorem push_guarded_partial (lower : Str → Str) (hl : ∀ s, lower s ≠ [] → s ≠ []) (ha : lower py!"all linters" = py!"all linters") :
    PushGuarded false lower none := by
  intro calls on h tools
  rw [script_state hl h calls rfl]
  cases on with
  | false => simp [pushGoesOn]
  | true =>
    have := our_hook ha tools { script := .ours, executable := false } rfl
    simp [pushGoesOn, this]

/-- Lower case letters of ASCII texts. -/
def lowerAscii (s : Str) : Str := s.map Char.toLower

example : PushGuarded false lowerAscii none := push_guarded_partial _ (fun s h e => by subst e; exact h rfl) (by decide)

/-- Checks switched on, off and on again; mypy fails. -/
def exCalls : List (CliArgs × Option (List (Str × Bool))) :=
  [({ autoLinting := some py!"enable" }, none), ({ autoLinting := some py!"Disable" }, none), ({ single := py!"ruff" }, some [(py!"ruff", false)]),
    ({ autoLinting := some py!"Enable" }, none)]

theorem exCalls_guarded : Guarded lowerAscii (exCalls.map (·.1)) true :=
  .switch (l := [_, _, _]) (.run (l := [_, _]) (.switch (l := [_]) (.switch (l := []) .start (on := true) ⟨_, rfl, by decide, .inl rfl⟩) (on := false) ⟨_, rfl, by decide, .inl rfl⟩) rfl)
    (on := true) ⟨_, rfl, by decide, .inl rfl⟩

example : pushGoesOn false lowerAscii (some [(py!"mypy", false), (py!"pytest", false)]) (runScript lowerAscii none exCalls) = false ∧
    pushGoesOn false lowerAscii (some [(py!"mypy", true), (py!"pytest", false)]) (runScript lowerAscii none exCalls) = true := by decide +kernel

/-- **C102 fails** where files have permissions: the hook is not made executable, so git ignores it. -/
theorem push_guarded_fails : ¬ PushGuarded true lowerAscii none := by
  intro h
  have := (h [({ autoLinting := some py!"enable" }, none)] true (.switch (l := []) .start (on := true) ⟨_, rfl, by decide, .inl rfl⟩) [(py!"mypy", false)]).mp
    (by decide +kernel)
  exact absurd (this.1 rfl (py!"mypy", false) (by simp) (by decide)) (by decide)

/-- In fact for every sequence of calls and every outcome of the tools. -/
theorem never_guarded (lower : Str → Str) (hl : ∀ s, lower s ≠ [] → s ≠ []) (calls : List (CliArgs × Option (List (Str × Bool)))) (on : Bool)
    (h : Guarded lower (calls.map (·.1)) on) (tools : Option (List (Str × Bool))) : pushGoesOn true lower tools (runScript lower none calls) = true := by
  rw [script_state hl h calls rfl]
  cases on <;> rfl

/-- **C102 fails** if there is a hook already: it is taken for the own one, and removed when checks are switched off. -/
theorem push_guarded_other_fails : ¬ PushGuarded false lowerAscii (some { script := .other 0, executable := true }) ∧
    ¬ PushGuarded false lowerAscii (some { script := .other 1, executable := true }) := by
  constructor <;> intro h
  · have := (h [({ autoLinting := some py!"enable" }, none)] true (.switch (l := []) .start (on := true) ⟨_, rfl, by decide, .inl rfl⟩) [(py!"mypy", false)]).mp
      (by decide +kernel)
    exact absurd (this.1 rfl (py!"mypy", false) (by simp) (by decide)) (by decide)
  · have := (h [({ autoLinting := some py!"disable" }, none)] false (.switch (l := []) .start (on := false) ⟨_, rfl, by decide, .inl rfl⟩) []).mp
      (by decide +kernel)
    exact absurd this.2 (by decide +kernel)

/-- An empty text switches the checks off, and any text that contains `enable` switches them on. -/
theorem switch_texts_fails :
    (checkMain lowerAscii none { autoLinting := some [] } (some { script := .ours, executable := true })).1.isNone = true ∧
    (checkMain lowerAscii none { autoLinting := some py!"re-enable later" } none).1.isSome = true := by decide +kernel

/-- **C102**: a call that runs tools chosen by name succeeds exactly if at least one of the configured tools is chosen (unless the choice is
empty) and all chosen ones pass. -/
theorem run_status (lower : Str → Str) (tools : List (Str × Bool)) (l : List Str) (hook : Option HookFile) :
    (checkMain lower (some tools) { onlyRun := l } hook).2 = 0 ↔ ChosenPass tools l := by
  have st : ∀ (ts : List (Str × Bool)), exitStatus (ts.map (·.2)) = 0 ↔ ∀ t ∈ ts, t.2 = true := by
    intro ts
    unfold exitStatus
    split
    · rename_i h
      simp only [List.contains_iff_mem, List.mem_map] at h
      obtain ⟨t, ht, hf⟩ := h
      refine ⟨fun h => (by cases h), fun h => ?_⟩
      rw [h t ht] at hf; cases hf
    · rename_i h
      refine ⟨fun _ t ht => ?_, fun _ => rfl⟩
      cases hb : t.2 with
      | true => rfl
      | false => exact absurd (by simp only [List.contains_iff_mem, List.mem_map]; exact ⟨t, ht, hb⟩) h
  cases l with
  | nil =>
    have e : (checkMain lower (some tools) { onlyRun := [] } hook).2 = exitStatus (tools.map (·.2)) := by
      simp [checkMain, parseCli, filterTools]
    rw [e, st]
    exact ⟨fun h => ⟨fun _ => h, by simp, by simp⟩, fun h => h.1 rfl⟩
  | cons a r =>
    have e : (checkMain lower (some tools) { onlyRun := a :: r } hook).2 =
        match filterTools lower (·.1) tools (.several (a :: r)) with
        | none => 1
        | some l => exitStatus (l.map (·.2)) := by
      simp only [checkMain, parseCli]
      simp
      split <;> rename_i h <;> simp [h]
    rw [e]
    unfold filterTools ChosenPass
    dsimp only
    by_cases ha : py!"all linters" ∈ a :: r
    · rw [if_pos (by rw [List.contains_iff_mem]; exact ha)]
      dsimp only
      rw [st]
      refine ⟨fun h => ⟨by simp, fun _ t ht hne => h t (List.mem_filter.mpr ⟨ht, by simpa using hne⟩), fun _ h' => absurd ha h'⟩, fun h t ht => ?_⟩
      obtain ⟨h1, h2⟩ := List.mem_filter.mp ht
      exact h.2.1 ha t h1 (by simpa using h2)
    · rw [if_neg (by rw [List.contains_iff_mem]; exact ha)]
      split
      · rename_i h
        split at h
        · rename_i hem
          refine ⟨fun h => (by cases h), fun h' => ?_⟩
          obtain ⟨⟨t, ht, hm⟩, _⟩ := h'.2.2 (by simp) ha
          rw [List.isEmpty_iff, List.filter_eq_nil_iff] at hem
          exact absurd (by rw [List.contains_iff_mem]; exact hm) (hem t ht)
        · cases h
      · rename_i ts h
        split at h
        · cases h
        · rename_i hem
          cases h
          rw [st]
          refine ⟨fun h => ⟨by simp, fun h' => absurd h' ha, fun _ _ => ⟨?_, fun t ht hm => h t (List.mem_filter.mpr ⟨ht, by rw [List.contains_iff_mem]; exact hm⟩)⟩⟩,
            fun h t ht => ?_⟩
          · obtain ⟨t, ht⟩ := List.exists_mem_of_ne_nil _ (fun e => hem (List.isEmpty_iff.mpr e))
            obtain ⟨h1, h2⟩ := List.mem_filter.mp ht
            exact ⟨t, h1, by rw [List.contains_iff_mem] at h2; exact h2⟩
          · obtain ⟨h1, h2⟩ := List.mem_filter.mp ht
            exact (h.2.2 (by simp) ha).2 t h1 (by rw [List.contains_iff_mem] at h2; exact h2)

example : ChosenPass [(py!"black", true), (py!"mypy", false)] [py!"black"] ∧ ¬ ChosenPass [(py!"black", true), (py!"mypy", false)] [py!"isort"] :=
  ⟨(run_status id _ _ none).mp (by decide +kernel), fun h => absurd ((run_status id _ _ none).mpr h) (by decide +kernel)⟩

/-- **C102**: a call with both ways to choose tools is refused, whatever else it asks for, and changes nothing. -/
theorem both_choices_refused (lower : Str → Str) (tools : Option (List (Str × Bool))) (a : CliArgs) (hook : Option HookFile) (h1 : a.single ≠ [])
    (h2 : a.onlyRun ≠ []) : checkMain lower tools a hook = (hook, 1) := by
  have hb : (!a.single.isEmpty && !a.onlyRun.isEmpty) = true := by
    cases hs : a.single <;> cases ho : a.onlyRun <;> simp_all
  have : parseCli lower a = none := by
    unfold parseCli
    dsimp only
    split
    · rfl
    · rw [if_pos hb]
  unfold checkMain
  rw [this]

example : ∃ a : CliArgs, a.single ≠ [] ∧ a.onlyRun ≠ [] := ⟨{ single := py!"mypy", onlyRun := [py!"black"] }, by simp, by simp⟩

end Verif.Props
