import Verif.Lemmas.Crash
/-
Properties of live generators: the registry, the class files, crashes and several generators.
-/
namespace Verif.Props
open Verif Verif.Spec

/-! ### C44 -/

theorem splitlines_oneLine : ∀ (s cur : Str), (∀ c ∈ cur, isLineBreak c = false) → ∀ x ∈ splitlinesAux cur s, OneLine x := by
  intro s cur
  fun_induction splitlinesAux cur s with
  | case1 cur h => intro _ x hx; cases hx
  | case2 cur h => intro hc x hx; rw [List.mem_singleton.mp hx]; intro c hm; exact hc c (by simpa using hm)
  | case3 cur r ih =>
    intro hc x hx
    rcases List.mem_cons.mp hx with rfl | hx
    · intro c hm; exact hc c (by simpa using hm)
    · exact ih (by simp) x hx
  | case4 cur c r h hb ih =>
    intro hc x hx
    rcases List.mem_cons.mp hx with rfl | hx
    · intro c hm; exact hc c (by simpa using hm)
    · exact ih (by simp) x hx
  | case5 cur c r h hb ih =>
    intro hc x hx
    refine ih ?_ x hx
    intro d hd
    rcases List.mem_cons.mp hd with rfl | hd
    · simpa using hb
    · exact hc d hd

theorem elems_lines {U : Uni} {m : Method} {S cs : List Str} (h : Elems U m S cs) (h1 : ∀ e ∈ S, OneLine e) : ∀ c ∈ cs, m.overload c ∈ S := by
  induction h with
  | nil => intro c hc; cases hc
  | deco hd _ ih => intro c hc; exact List.mem_cons_of_mem _ (ih (fun e he => h1 e (by simp [he])) c hc)
  | over hd _ _ ih =>
    rename_i ds c' S cs _ _
    intro c hc
    rcases List.mem_cons.mp hc with rfl | hc
    · have := h1 _ List.mem_cons_self
      cases ds with
      | nil => simp [join]
      | cons d ds =>
        rw [join_snoc] at this
        exact absurd (this '\n' (by simp)) (by decide)
    · exact List.mem_cons_of_mem _ (ih (fun e he => h1 e (by simp [he])) c hc)

/-- **C44.** After any history in which only up-to-date generators are called, a new generator finds in its stub exactly the classes
generated since the last reset, each once and in order; the stub consists of the import, both overloads and the registry entry of each
(and nothing else beyond the fixed lines); and the class files hold the texts generated last. -/
theorem live_registry (E : Env) (hist : List Event) (h : CallsUpToDate E World.empty hist) (S : Strategies) (mode : Mode) :
    ∃ g, newLive S mode (World.empty.run E hist).disk = .ok g ∧
      classesAdded g.lines (World.empty.run E hist).disk = .ok (LiveState.empty.run E hist).classes ∧
      (LiveState.empty.run E hist).classes.Nodup ∧
      (∃ is ys ds, is.Perm (LiveState.empty.run E hist).classes ∧ ys.Perm (LiveState.empty.run E hist).classes ∧
        ds.Perm (LiveState.empty.run E hist).classes ∧ IsStub E.U (LiveState.empty.run E hist).classes is ys ds g.lines) ∧
      (∀ c, (World.empty.run E hist).disk.files c = (LiveState.empty.run E hist).text c) ∧
      (∀ c, (∃ text, (World.empty.run E hist).disk.files c = some text) ↔ c ∈ (LiveState.empty.run E hist).classes) := by
  have ha := run_agrees (empty_agrees E) h
  obtain ⟨L, h1, h2, _⟩ := newLive_complete (E := E) (S := S) (mode := mode) ha.stub
  refine ⟨_, h1, ?_, ha.nodup, h2, ha.files, ?_⟩
  · rw [classesAdded_ok h2 (fun c hc => by rw [ha.files]; exact (ha.exist c).mpr hc), dedup_of_nodup ha.nodup]
  · intro c
    rw [← ha.exist c, ha.files, Option.isSome_iff_exists]

/-- The lines that a type checker sees in the stub: an import and both overloads for each class. -/
theorem live_stub_lines (E : Env) (hist : List Event) (h : CallsUpToDate E World.empty hist) (text : Str)
    (ht : (World.empty.run E hist).disk.pyi = some text) : ∀ c ∈ (LiveState.empty.run E hist).classes,
      classImport c ∈ splitlines text ∧ dataMethod.overload c ∈ splitlines text ∧ yamlMethod.overload c ∈ splitlines text := by
  have ha := (run_agrees (empty_agrees E) h).stub
  rw [ht] at ha
  obtain ⟨is, ys, ds, p1, p2, p3, hs⟩ := ha
  have hone : ∀ x ∈ splitlines text, OneLine x := splitlines_oneLine text [] (by simp)
  obtain ⟨_, _, Y, D, tail, hY, hD, _, hL⟩ := hs
  intro c hc
  rw [hL] at hone ⊢
  simp only [List.mem_append] at hone ⊢
  refine ⟨?_, ?_, ?_⟩
  · exact .inl (.inl (.inl (.inl (.inl (.inl (.inl (.inl (List.mem_map_of_mem (p1.symm.subset hc)))))))))
  · exact .inl (.inl (.inr (.inl (elems_lines hD (fun e he => hone e (.inl (.inl (.inr (.inl he))))) c (p3.symm.subset hc)))))
  · exact .inl (.inl (.inl (.inl (.inr (.inl (elems_lines hY (fun e he => hone e (.inl (.inl (.inl (.inl (.inr (.inl he))))))) c (p2.symm.subset hc)))))))

/-- One generator at a time is always up to date: if every call is made by the generator created last, with no reset since, the
registry is right. -/
theorem live_registry_one_at_a_time (E : Env) (hist : List Event) (h : OneAtATime none hist) : CallsUpToDate E World.empty hist :=
  oneAtATime_upToDate (empty_agrees E) (fun _ _ h => by cases h) h

/-- A call by an up-to-date generator succeeds exactly if it is accepted: a class name, data with hints, and no mismatch if the class is
to be validated. -/
theorem live_call_outcome (E : Env) (hist : List Event) (h : CallsUpToDate E World.empty hist) (i : Nat) (g : Live)
    (hg : (World.empty.run E hist).gens i = some g) (hu : UpToDate (World.empty.run E hist).disk g) (c : Str) (v : Val) :
    (g.fromData E (World.empty.run E hist).disk c v).result = .ok v ↔
      ∃ text, (LiveState.empty.run E hist).accepts E g.S g.mode c v = some text := by
  rcases (call_agrees (run_agrees (empty_agrees E) h) hg hu c v).2.2 with ⟨e, h1, h2⟩ | ⟨h1, h2⟩
  · rw [h1, h2]; simp
  · simp only [h1, h2]

/-- In every history, even with outdated generators, a call raises only because of the name, a missing class file, the data, or a failed
validation: the edits of the stub themselves never fail. -/
theorem live_edits_never_fail (E : Env) (hist : List Event) (i : Nat) (g : Live) (hg : (World.empty.run E hist).gens i = some g) (c : Str) (v : Val)
    (e : LiveErr) (he : (g.fromData E (World.empty.run E hist).disk c v).result = .error e) :
    (e = .className ∧ nameOk E.U c = false) ∨ (∃ x, e = .missing x ∧ (World.empty.run E hist).disk.files x = none) ∨
      (∃ e', e = .gen e' ∧ generate { E with S := g.S } c v true = .error e') ∨ (e = .validation ∧ g.mode = .validate) := by
  obtain ⟨cs, hcs⟩ := (run_sane hist (sane_empty E)).gens i g hg
  rcases call_cases E g _ c v hcs with ⟨_, _, _, e', h', hc⟩ | ⟨_, _, text, _, _, h', _⟩
  · rw [h'] at he
    cases he
    rcases hc with hc | ⟨_, x, h1, _, h2⟩ | ⟨_, _, e', h1, h2⟩ | ⟨h1, _, _, _, h2, _⟩
    · exact .inl hc
    · exact .inr (.inl ⟨x, h1, h2⟩)
    · exact .inr (.inr (.inl ⟨e', h1, h2⟩))
    · exact .inr (.inr (.inr ⟨h1, h2⟩))
  · rw [h'] at he; cases he

/-! ### C45 -/

theorem runEdits_files : ∀ (es : List Edit) (L : List Str) (d : Disk), (runEdits es L d).2.1.files = d.files ∧
    ∀ s ∈ (runEdits es L d).2.2.1, s.files = d.files
  | [], _, _ => ⟨rfl, by simp [runEdits]⟩
  | e :: es, L, d => by
    cases he : e L with
    | mk L' o =>
      cases o with
      | some err => simp [runEdits, he]
      | none =>
        rw [runEdits_ok he]
        have ih := runEdits_files es L' (d.writePyi (join py!"\n" L'))
        refine ⟨ih.1, ?_⟩
        intro s hs
        simp only [List.mem_append] at hs
        rcases hs with hs | hs
        · obtain ⟨t, _, rfl⟩ := List.mem_map.mp hs; rfl
        · exact ih.2 s hs

/-- **C45.** A call changes no class file but its own, at no moment, whatever the generator, the disk and the outcome. -/
theorem live_other_classes (E : Env) (g : Live) (d : Disk) (c : Str) (v : Val) (x : Str) (hx : x ≠ c) :
    (g.fromData E d c v).disk.files x = d.files x ∧ ∀ s ∈ (g.fromData E d c v).states, s.files x = d.files x := by
  have hw : ∀ t, (Disk.writeClass { d with build := true } c t).files x = d.files x := by
    intro t; simp [Disk.writeClass, hx]
  have hst : ∀ text, ∀ s ∈ d :: { d with build := true } :: (prefixes text).map (Disk.writeClass { d with build := true } c), s.files x = d.files x := by
    intro text s hs
    simp only [List.mem_cons, List.mem_map] at hs
    rcases hs with rfl | rfl | ⟨t, _, rfl⟩
    · rfl
    · rfl
    · exact hw t
  unfold Live.fromData
  split
  · split
    · simp
    · split
      · simp
      · rename_i text _
        split
        · simp
        · dsimp only
          split
          · exact ⟨hw text, hst text⟩
          · split
            · exact ⟨hw text, hst text⟩
            · have hr := runEdits_files (newClassEdits c) g.lines (Disk.writeClass { d with build := true } c text)
              refine ⟨by simp only [hr.1]; exact hw text, ?_⟩
              intro s hs
              rcases List.mem_append.mp hs with hs | hs
              · exact hst text s hs
              · rw [hr.2 s hs]; exact hw text
  · simp

/-! ### C46 -/

/-- **C46, overwrite.** Unless the name, a missing class file or the data make the call fail before it writes, an overwriting generator
leaves exactly the fresh text in the class file. -/
theorem live_overwrite (E : Env) (g : Live) (d : Disk) (c : Str) (v : Val) (hm : g.mode = .overwrite) (hn : nameOk E.U c = true)
    (names : List Str) (hc : classesAdded g.lines d = .ok names) (text : Str) (ht : generate { E with S := g.S } c v true = .ok text) :
    (g.fromData E d c v).disk.files c = some text := by
  unfold Live.fromData
  simp only [hn, if_true, hc, ht]
  rw [if_neg (by simp [hm])]
  split
  · simp [Disk.writeClass]
  · split
    · simp [Disk.writeClass]
    · rw [(runEdits_files _ _ _).1]
      simp [Disk.writeClass]

theorem runEdits_live (E : Env) (g : Live) (d : Disk) (c : Str) (v : Val) {cs : List Str} (h : Complete E.U cs g.lines) (x : Val) :
    (g.fromData E d c v).result = .ok x → x = v ∧ ∃ text, generate { E with S := g.S } c v true = .ok text ∧
      (g.fromData E d c v).disk.files c = some text := by
  rcases call_cases E g d c v h with ⟨_, _, _, e, h', _⟩ | ⟨_, _, text, h1, _, h', ⟨_, _, h2, _⟩ | ⟨_, L', _, _, _, h2, _⟩⟩
  · rw [h']; intro hx; cases hx
  · rw [h', h2]; intro hx; cases hx
    exact ⟨rfl, text, h1, by simp [Disk.writeClass]⟩
  · rw [h', h2]; intro hx; cases hx
    exact ⟨rfl, text, h1, by simp [Disk.writeClass, Disk.writePyi]⟩

/-- **C46.** Whatever the mode: a call that succeeds leaves exactly the fresh text in the class file. -/
theorem live_success_text (E : Env) (hist : List Event) (i : Nat) (g : Live) (hg : (World.empty.run E hist).gens i = some g) (c : Str) (v x : Val)
    (h : (g.fromData E (World.empty.run E hist).disk c v).result = .ok x) :
    ∃ text, generate { E with S := g.S } c v true = .ok text ∧ (g.fromData E (World.empty.run E hist).disk c v).disk.files c = some text := by
  obtain ⟨cs, hcs⟩ := (run_sane hist (sane_empty E)).gens i g hg
  exact (runEdits_live E g _ c v hcs x h).2

/-- **C46, validate.** The call raises the validation error exactly if the class is registered (with its file), the generator validates,
and the fresh text differs from the stored one up to documentation lines. -/
theorem live_validate (E : Env) (hist : List Event) (i : Nat) (g : Live) (hg : (World.empty.run E hist).gens i = some g) (c : Str) (v : Val) :
    (g.fromData E (World.empty.run E hist).disk c v).result = .error .validation ↔
      nameOk E.U c = true ∧ g.mode = .validate ∧ (∃ names, classesAdded g.lines (World.empty.run E hist).disk = .ok names ∧ c ∈ names) ∧
      ∃ text stored, generate { E with S := g.S } c v true = .ok text ∧ (World.empty.run E hist).disk.files c = some stored ∧
        removeDocstrings text ≠ removeDocstrings stored := by
  obtain ⟨cs, hcs⟩ := (run_sane hist (sane_empty E)).gens i g hg
  constructor
  · intro he
    rcases call_cases E g _ c v hcs with ⟨_, _, _, e', h', hc⟩ | ⟨_, _, text, _, _, h', _⟩
    · rw [h'] at he
      cases he
      rcases hc with ⟨h1, _⟩ | ⟨_, x, h1, _⟩ | ⟨_, _, e', h1, _⟩ | ⟨_, h0, hf, h1, h2, text, h3, h4⟩
      · cases h1
      · cases h1
      · cases h1
      · refine ⟨h0, h2, ⟨_, classesAdded_ok hcs hf, mem_dedup.mpr h1⟩, text, ?_⟩
        obtain ⟨stored, hs⟩ := Option.isSome_iff_exists.mp (hf c h1)
        rw [hs] at h4
        exact ⟨stored, h3, hs, h4⟩
    · rw [h'] at he; cases he
  · rintro ⟨h0, h1, ⟨names, h2, h2'⟩, text, stored, h3, h4, h5⟩
    unfold Live.fromData
    simp only [h0, if_true, h2, h3]
    have : (names.contains c && g.mode == .validate && removeDocstrings text != removeDocstrings (((World.empty.run E hist).disk.files c).getD [])) = true := by
      simp [h1, h2', h4, h5]
    rw [if_pos this]

/-- **C46.** A call that raises changes nothing on disk, at no moment. -/
theorem live_failure_keeps_disk (E : Env) (hist : List Event) (i : Nat) (g : Live) (hg : (World.empty.run E hist).gens i = some g) (c : Str) (v : Val)
    (e : LiveErr) (he : (g.fromData E (World.empty.run E hist).disk c v).result = .error e) :
    (g.fromData E (World.empty.run E hist).disk c v).disk = (World.empty.run E hist).disk ∧
    ∀ s ∈ (g.fromData E (World.empty.run E hist).disk c v).states, s = (World.empty.run E hist).disk := by
  obtain ⟨cs, hcs⟩ := (run_sane hist (sane_empty E)).gens i g hg
  rcases call_cases E g _ c v hcs with ⟨_, h1, h2, _⟩ | ⟨_, _, text, _, _, h', _⟩
  · exact ⟨h1, by rw [h2]; simp⟩
  · rw [h'] at he; cases he

/-! ### C51 (data) -/

/-- **C51, data.** What a call returns is the data it was given. -/
theorem live_returns_data (E : Env) (g : Live) (d : Disk) (c : Str) (v x : Val) (h : (g.fromData E d c v).result = .ok x) : x = v := by
  unfold Live.fromData at h
  split at h
  · split at h
    · cases h
    · split at h
      · cases h
      · split at h
        · cases h
        · dsimp only at h
          split at h
          · cases h
          · split at h
            · cases h; rfl
            · simp only at h
              split at h
              · cases h
              · cases h; rfl
  · cases h

/-! ### C48 -/

/-- **C48.** Stop a call at any moment, after any history (of complete calls, also by outdated generators): a generator created
afterwards never finds a registered class without its source file. -/
theorem live_crash_registry (E : Env) (hist : List Event) (i : Nat) (g : Live) (hg : (World.empty.run E hist).gens i = some g) (c : Str) (v : Val)
    (s : Disk) (hs : s ∈ (g.fromData E (World.empty.run E hist).disk c v).states) (S : Strategies) (mode : Mode) (g' : Live)
    (hg' : newLive S mode s = .ok g') (names : List Str) (hn : registered g'.lines = .ok names) : ∀ x ∈ names, (s.files x).isSome := by
  have hsane := run_sane hist (sane_empty E)
  obtain ⟨cs, hcs⟩ := hsane.gens i g hg
  -- states with the old stub
  have old : s.pyi = (World.empty.run E hist).disk.pyi → (∀ x, ((World.empty.run E hist).disk.files x).isSome → (s.files x).isSome) →
      ∀ x ∈ names, (s.files x).isSome := by
    intro hp hf
    have : newLive S mode (World.empty.run E hist).disk = .ok g' := by unfold newLive at hg' ⊢; rw [← hp]; exact hg'
    obtain ⟨cs', h1, h2⟩ := newLive_sane hsane this
    rw [complete_registered h1] at hn
    cases hn
    exact fun x hx => hf x (h2 x hx)
  have early : ∀ text, s ∈ (World.empty.run E hist).disk :: { (World.empty.run E hist).disk with build := true } ::
      (prefixes text).map (Disk.writeClass { (World.empty.run E hist).disk with build := true } c) → ∀ x ∈ names, (s.files x).isSome := by
    intro text hs
    simp only [List.mem_cons, List.mem_map] at hs
    rcases hs with rfl | rfl | ⟨t, _, rfl⟩
    · exact old rfl (fun _ h => h)
    · exact old rfl (fun _ h => h)
    · exact old rfl (fun _ h => writeClass_files (d := { (World.empty.run E hist).disk with build := true }) h)
  rcases call_cases E g _ c v hcs with ⟨_, _, h2, _⟩ | ⟨_, hf, text, _, _, h', ⟨_, _, _, h2⟩ | ⟨_, L', states, _, _, _, h2, h3⟩⟩
  · rw [h2] at hs
    rw [List.mem_singleton.mp hs] at old ⊢
    exact old rfl (fun _ h => h)
  · rw [h2] at hs
    exact early text hs
  · rw [h2] at hs
    rcases List.mem_append.mp hs with hs | hs
    · exact early text hs
    · obtain ⟨is, ys, ds, L, n, hL, rfl⟩ := h3 s hs
      unfold newLive at hg'
      simp only [Disk.writePyi, Except.ok.injEq] at hg'
      subst hg'
      intro x hx
      have := stub_cut hL (List.take_prefix n _) hn x hx
      rcases List.mem_append.mp this with h | h
      · exact writeClass_files (d := { (World.empty.run E hist).disk with build := true }) (hf x h)
      · rw [List.mem_singleton.mp h]
        simp [Disk.writePyi, Disk.writeClass]

end Verif.Props
