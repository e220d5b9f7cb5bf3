import Verif.Props.Yaml
import Verif.Lemmas.Suffix
/-
Loading YAML files with comments.
-/
namespace Verif.Props
open Verif Verif.Spec

/-! ### C59 -/

/-- C59. With comments, a file is opened exactly when comments are not expected both above and below their keys, its name
is a non-empty stem and `.yaml` or `.yml`, and it can be read; a file that is only a suffix is a hidden file without one. -/
theorem yaml_opened_iff {name : Str} {content : Option Str} {cs : List CommentsAre} {lines : List Str} :
    yamlOpen name content cs = .ok lines ↔
      ¬ (CommentsAre.above ∈ cs ∧ CommentsAre.below ∈ cs) ∧
      (∃ stem, stem ≠ [] ∧ (name = stem ++ py!".yaml" ∨ name = stem ++ py!".yml")) ∧
      ∃ s, content = some s ∧ lines = splitlines s := by
  have e1 := pathSuffix_ends (name := name) (t := py!"yaml") (by decide) (by decide)
  have e2 := pathSuffix_ends (name := name) (t := py!"yml") (by decide) (by decide)
  have e : (∃ stem, stem ≠ [] ∧ (name = stem ++ py!".yaml" ∨ name = stem ++ py!".yml")) ↔
      (endsWith (pathSuffix name) py!".yaml" || endsWith (pathSuffix name) py!".yml") = true := by
    rw [Bool.or_eq_true]
    refine Iff.trans ?_ (or_congr e1.symm e2.symm)
    constructor
    · rintro ⟨s, h, rfl | rfl⟩
      · exact .inl ⟨s, h, rfl⟩
      · exact .inr ⟨s, h, rfl⟩
    · rintro (⟨s, h, rfl⟩ | ⟨s, h, rfl⟩)
      · exact ⟨s, h, .inl rfl⟩
      · exact ⟨s, h, .inr rfl⟩
  rw [e]
  unfold yamlOpen
  by_cases h1 : CommentsAre.above ∈ cs ∧ CommentsAre.below ∈ cs
  · have : (cs.contains CommentsAre.above && cs.contains CommentsAre.below) = true := by simp [h1]
    rw [if_pos this]
    simp [h1]
  · have : ¬ (cs.contains CommentsAre.above && cs.contains CommentsAre.below) = true := by simpa using h1
    rw [if_neg this]
    cases hb : (endsWith (pathSuffix name) py!".yaml" || endsWith (pathSuffix name) py!".yml")
    · simp
    · cases content <;> simp [h1, eq_comm]

example : yamlOpen py!"conf.yml" (some py!"a: 1\nb: 2") [.side, .above] = .ok [py!"a: 1", py!"b: 2"] := rfl
example : yamlOpen py!".yaml" (some py!"a: 1") [.side] = .error .suffix := rfl

/-- Something goes wrong after the file was opened and loaded: the extraction raises, the temporary file cannot be written, the loader
raises on it, or no tree can be made of what it returns. -/
def CommentsFail {ε : Type} (E : Env) (load : Loader ε) (canWrite : Bool) (f : YamlFile) (cs : List CommentsAre) (lines : List Str) (c : Str) : Prop :=
  (∃ e, withHiddenKeys E.U cs lines = .error e) ∨ canWrite = false ∨
  ∃ text, withHiddenKeys E.U cs lines = .ok text ∧
    ((∃ e, load (tempName f.name) (some text) = .error e) ∨ ∃ v' e, load (tempName f.name) (some text) = .ok v' ∧ fromData E c v' = .error e)

theorem commentedData_none {ε : Type} {U : Uni} {load : Loader ε} {canWrite : Bool} {f : YamlFile} {cs : List CommentsAre} {lines : List Str} :
    commentedData U load canWrite f cs lines = none ↔ (∃ e, withHiddenKeys U cs lines = .error e) ∨ canWrite = false ∨
      ∃ text, withHiddenKeys U cs lines = .ok text ∧ ∃ e, load (tempName f.name) (some text) = .error e := by
  unfold commentedData
  cases withHiddenKeys U cs lines with
  | error e => simp
  | ok text =>
    cases canWrite with
    | false => simp
    | true => cases h : load (tempName f.name) (some text) <;> simp [h]

theorem commentedData_some {ε : Type} {U : Uni} {load : Loader ε} {canWrite : Bool} {f : YamlFile} {cs : List CommentsAre} {lines : List Str} {v' : Val} :
    commentedData U load canWrite f cs lines = some v' ↔ canWrite = true ∧
      ∃ text, withHiddenKeys U cs lines = .ok text ∧ load (tempName f.name) (some text) = .ok v' := by
  unfold commentedData
  cases withHiddenKeys U cs lines with
  | error e => simp
  | ok text =>
    cases canWrite with
    | false => simp
    | true => cases h : load (tempName f.name) (some text) <;> simp [h]

/-- **C59.** Whatever goes wrong with the comments of a file that can be opened and loaded, the outcome is that of the plain data. -/
theorem yaml_falls_back {ε : Type} (E : Env) (load : Loader ε) (canWrite : Bool) (f : YamlFile) (cs : List CommentsAre) (c : Str)
    (lines : List Str) (ho : yamlOpen f.name f.content cs = .ok lines) (v : Val) (hl : load f.name f.content = .ok v)
    (h : CommentsFail E load canWrite f cs lines c) :
    fromYaml E load canWrite f (some cs) c = (fromData E c v).mapError .data := by
  unfold fromYaml
  simp only [ho, hl]
  cases hc : commentedData E.U load canWrite f cs lines with
  | none => rfl
  | some v' =>
    obtain ⟨h1, text, h2, h3⟩ := commentedData_some.mp hc
    dsimp only
    rcases h with ⟨e, h⟩ | h | ⟨t, ht, ⟨e, h⟩ | ⟨w, e, hw, he⟩⟩
    · rw [h] at h2; cases h2
    · rw [h] at h1; cases h1
    · rw [ht] at h2; cases h2; rw [h] at h3; cases h3
    · rw [ht] at h2; cases h2; rw [hw] at h3; cases h3; rw [he]

/-- **C59.** If nothing goes wrong, the tree is that of the data with the comments as hidden keys. -/
theorem yaml_with_comments {ε : Type} (E : Env) (load : Loader ε) (f : YamlFile) (cs : List CommentsAre) (c : Str)
    (lines : List Str) (ho : yamlOpen f.name f.content cs = .ok lines) (v v' : Val) (hl : load f.name f.content = .ok v)
    (text : Str) (ht : withHiddenKeys E.U cs lines = .ok text) (hl' : load (tempName f.name) (some text) = .ok v') (n : Node)
    (hn : fromData E c v' = .ok n) : fromYaml E load true f (some cs) c = .ok n := by
  unfold fromYaml
  simp only [ho, hl]
  rw [commentedData_some.mpr ⟨rfl, text, ht, hl'⟩]
  simp only [hn]

/-- **C59.** So `from_yaml_file` only fails because of the file, the loader on the file, or the plain data. -/
theorem yaml_fails_only {ε : Type} (E : Env) (load : Loader ε) (canWrite : Bool) (f : YamlFile) (comments : Option (List CommentsAre)) (c : Str)
    (x : YamlFail ε GenErr) (h : fromYaml E load canWrite f comments c = .error x) :
    (∃ cs e, comments = some cs ∧ yamlOpen f.name f.content cs = .error e ∧ x = .opening e) ∨
    (∃ e, load f.name f.content = .error e ∧ x = .loader e) ∨
    ∃ v e, load f.name f.content = .ok v ∧ fromData E c v = .error e ∧ x = .data e := by
  have plain : ∀ v, load f.name f.content = .ok v → (fromData E c v).mapError .data = .error x →
      ∃ v e, load f.name f.content = .ok v ∧ fromData E c v = .error e ∧ x = .data e := by
    intro v hv h
    cases hd : fromData E c v with
    | ok n => rw [hd] at h; cases h
    | error e => rw [hd] at h; cases h; exact ⟨v, e, hv, hd, rfl⟩
  unfold fromYaml at h
  cases comments with
  | none =>
    dsimp only at h
    cases hl : load f.name f.content with
    | error e => simp only [hl] at h; cases h; exact .inr (.inl ⟨e, rfl, rfl⟩)
    | ok v => simp only [hl] at h; rw [← hl]; exact .inr (.inr (plain v hl h))
  | some cs =>
    dsimp only at h
    cases ho : yamlOpen f.name f.content cs with
    | error e => simp only [ho] at h; cases h; exact .inl ⟨cs, e, rfl, ho, rfl⟩
    | ok lines =>
      simp only [ho] at h
      cases hl : load f.name f.content with
      | error e => simp only [hl] at h; cases h; exact .inr (.inl ⟨e, rfl, rfl⟩)
      | ok v =>
        simp only [hl] at h
        rw [← hl]
        refine .inr (.inr (plain v hl ?_))
        split at h
        · exact h
        · split at h
          · cases h
          · exact h

/-- A loader for one document: with the hidden key of `a` when the text has it. -/
def exLoader : Loader Unit := fun _ content => match content with
  | none => .error ()
  | some text =>
    if contains hiddenPrefix text then .ok (.dict [(.str (hiddenPrefix ++ py!"a"), .inst .str (some py!"Note.\n")), (.str py!"a", .inst .int none)])
    else .ok (.dict [(.str py!"a", .inst .int none)])

def exFile : YamlFile := { name := py!"x.yaml", content := some py!"a: 1 # Note\n" }

example : ∃ lines v, yamlOpen exFile.name exFile.content [.side] = .ok lines ∧ exLoader exFile.name exFile.content = .ok v ∧
    CommentsFail (exEnv {}) exLoader false exFile [.side] lines py!"A" :=
  ⟨_, _, rfl, rfl, .inr (.inl rfl)⟩

example : ∃ lines text v', yamlOpen exFile.name exFile.content [.side] = .ok lines ∧ withHiddenKeys (exEnv {}).U [.side] lines = .ok text ∧
    exLoader (tempName exFile.name) (some text) = .ok v' ∧ text = py!"___docstring_hidden_key_a: |\n Note.\na: 1 # Note" :=
  ⟨_, _, _, rfl, by rfl, rfl, by decide +kernel⟩

/-! ### Live -/

/-- A live call for a YAML file that can be opened and loaded is a call for the plain data or for the data with comments: same
generator, same disk, same outcome, and every state of the disk on the way is one of that call. -/
theorem live_yaml_is_call {ε : Type} (E : Env) (hist : List Event) (i : Nat) (g : Live) (hg : (World.empty.run E hist).gens i = some g)
    (load : Loader ε) (canWrite : Bool) (f : YamlFile) (comments : Option (List CommentsAre)) (c : Str)
    (ho : ∀ cs, comments = some cs → ∃ lines, yamlOpen f.name f.content cs = .ok lines) (v : Val) (hl : load f.name f.content = .ok v) :
    ∃ w, (w = v ∨ ∃ cs lines text, comments = some cs ∧ yamlOpen f.name f.content cs = .ok lines ∧ withHiddenKeys E.U cs lines = .ok text ∧
        load (tempName f.name) (some text) = .ok w ∧ (g.fromData E (World.empty.run E hist).disk c w).result = .ok w) ∧
      let d := (World.empty.run E hist).disk
      let y := g.fromYaml E d load canWrite f comments c
      let r := g.fromData E d c w
      y.1 = r.live ∧ y.2.1 = r.disk ∧ (∀ s ∈ y.2.2.1, s ∈ r.states) ∧ y.2.2.2 = r.result.mapError .data := by
  obtain ⟨names, hcs⟩ := (run_sane hist (sane_empty E)).gens i g hg
  have start : ∀ w, (World.empty.run E hist).disk ∈ (g.fromData E (World.empty.run E hist).disk c w).states := by
    intro w
    rcases call_cases E g (World.empty.run E hist).disk c w hcs with ⟨_, _, h, _⟩ | ⟨_, _, text, _, _, _, ⟨_, _, _, h⟩ | ⟨_, L', states, _, _, _, h, _⟩⟩
    · rw [h]; simp
    · rw [h]; simp
    · rw [h]; simp
  unfold Live.fromYaml
  cases comments with
  | none =>
    refine ⟨v, .inl rfl, ?_⟩
    simp only [hl, Run.mapError]
    exact ⟨trivial, trivial, fun _ h => h, trivial⟩
  | some cs =>
    obtain ⟨lines, ho⟩ := ho cs rfl
    simp only [ho, hl]
    cases hcd : commentedData E.U load canWrite f cs lines with
    | none => exact ⟨v, .inl rfl, rfl, rfl, fun _ h => h, rfl⟩
    | some v' =>
      obtain ⟨_, text, ht, hl'⟩ := commentedData_some.mp hcd
      dsimp only
      rcases call_cases E g (World.empty.run E hist).disk c v' hcs with ⟨h1, h2, h3, e, h4, _⟩ | ⟨_, _, _, _, _, h4, _⟩
      · refine ⟨v, .inl rfl, ?_⟩
        simp only [h4, h1, h2, h3]
        refine ⟨trivial, trivial, ?_, trivial⟩
        intro s hs
        rcases List.mem_append.mp hs with hs | hs
        · rw [List.mem_singleton] at hs
          rw [hs]; exact start v
        · exact hs
      · refine ⟨v', .inr ⟨cs, lines, text, rfl, ho, ht, hl', h4⟩, ?_⟩
        simp only [h4, Run.mapError]
        exact ⟨trivial, trivial, fun _ h => h, trivial⟩

/-- **C59, live.** If comments cannot be used, a live call does what a call for the plain data does. -/
theorem live_yaml_falls_back {ε : Type} (E : Env) (hist : List Event) (i : Nat) (g : Live) (hg : (World.empty.run E hist).gens i = some g)
    (load : Loader ε) (canWrite : Bool) (f : YamlFile) (cs : List CommentsAre) (c : Str)
    (lines : List Str) (ho : yamlOpen f.name f.content cs = .ok lines) (v : Val) (hl : load f.name f.content = .ok v)
    (h : ∀ text w, canWrite = true → withHiddenKeys E.U cs lines = .ok text → load (tempName f.name) (some text) = .ok w →
      ∃ e, (g.fromData E (World.empty.run E hist).disk c w).result = .error e) :
    let d := (World.empty.run E hist).disk
    let y := g.fromYaml E d load canWrite f (some cs) c
    let r := g.fromData E d c v
    y.1 = r.live ∧ y.2.1 = r.disk ∧ y.2.2.2 = r.result.mapError .data := by
  obtain ⟨names, hcs⟩ := (run_sane hist (sane_empty E)).gens i g hg
  unfold Live.fromYaml
  simp only [ho, hl]
  cases hcd : commentedData E.U load canWrite f cs lines with
  | none => exact ⟨rfl, rfl, rfl⟩
  | some v' =>
    obtain ⟨hc, text, ht, hl'⟩ := commentedData_some.mp hcd
    obtain ⟨e, he⟩ := h text v' hc ht hl'
    dsimp only
    rcases call_cases E g (World.empty.run E hist).disk c v' hcs with ⟨h1, h2, h3, e, h4, _⟩ | ⟨_, _, _, _, _, h4, _⟩
    · simp only [h4, h1, h2]
      exact ⟨trivial, trivial, trivial⟩
    · rw [h4] at he; cases he

/-! ### C51, YAML -/

/-- The keys of a dictionary. -/
def dictKeys : Val → List Key
  | .map _ _ keys _ => keys
  | _ => []

/-- What generator 0 returns for the example file after a history. -/
def yamlReturns (E : Env) (hist : List Event) : Option (List Key) := match (World.empty.run E hist).gens 0 with
  | some g => match (g.fromYaml E (World.empty.run E hist).disk exLoader true exFile (some [.side]) py!"A").2.2.2 with
    | .ok w => some (dictKeys w)
    | .error _ => none
  | none => none

theorem yamlReturns_spec {E : Env} {hist : List Event} {ks : List Key} (h : yamlReturns E hist = some ks) :
    ∃ g w, (World.empty.run E hist).gens 0 = some g ∧
      (g.fromYaml E (World.empty.run E hist).disk exLoader true exFile (some [.side]) py!"A").2.2.2 = .ok w ∧ dictKeys w = ks := by
  unfold yamlReturns at h
  split at h
  · rename_i g hg
    split at h
    · rename_i w hw
      cases h
      exact ⟨g, w, hg, hw, rfl⟩
    · cases h
  · cases h

/-- **C51, YAML.** False of the code: a live call for a YAML file returns the data of the temporary file, in which comments have become
entries that the file does not have. -/
theorem live_yaml_returns_fails : ∃ (E : Env) (hist : List Event) (g : Live) (v w : Val), (World.empty.run E hist).gens 0 = some g ∧
    exLoader exFile.name exFile.content = .ok v ∧
    (g.fromYaml E (World.empty.run E hist).disk exLoader true exFile (some [.side]) py!"A").2.2.2 = .ok w ∧
    dictKeys v = [.str py!"a"] ∧ dictKeys w = [.str (hiddenPrefix ++ py!"a"), .str py!"a"] := by
  obtain ⟨g, w, h1, h2, h3⟩ := yamlReturns_spec (E := exEnv {}) (hist := [.new 0 {} .overwrite])
    (ks := [.str (hiddenPrefix ++ py!"a"), .str py!"a"]) (by decide +kernel)
  exact ⟨_, _, g, _, w, h1, rfl, h2, rfl, h3⟩

/-- **C51, YAML, partial.** The call returns what the loader returns for the file if comments are not asked for, and in any case what the
loader returns for the file or for its text with comments as keys. -/
theorem live_yaml_returns_partial {ε : Type} (E : Env) (hist : List Event) (i : Nat) (g : Live) (hg : (World.empty.run E hist).gens i = some g)
    (load : Loader ε) (canWrite : Bool) (f : YamlFile) (comments : Option (List CommentsAre)) (c : Str) (w : Val)
    (h : (g.fromYaml E (World.empty.run E hist).disk load canWrite f comments c).2.2.2 = .ok w) :
    load f.name f.content = .ok w ∨ ∃ cs lines text, comments = some cs ∧ yamlOpen f.name f.content cs = .ok lines ∧
      withHiddenKeys E.U cs lines = .ok text ∧ load (tempName f.name) (some text) = .ok w := by
  have ho : ∀ cs, comments = some cs → ∃ lines, yamlOpen f.name f.content cs = .ok lines := by
    intro cs hcs
    subst hcs
    cases ho : yamlOpen f.name f.content cs with
    | ok lines => exact ⟨_, rfl⟩
    | error e => simp only [Live.fromYaml, ho] at h; cases h
  have hl : ∃ v, load f.name f.content = .ok v := by
    cases hl : load f.name f.content with
    | ok v => exact ⟨_, rfl⟩
    | error e =>
      cases comments with
      | none => simp only [Live.fromYaml, hl] at h; cases h
      | some cs =>
        obtain ⟨lines, ho⟩ := ho cs rfl
        simp only [Live.fromYaml, ho, hl] at h; cases h
  obtain ⟨v, hl⟩ := hl
  obtain ⟨x, hx, _, _, _, hr⟩ := live_yaml_is_call E hist i g hg load canWrite f comments c ho v hl
  rw [h] at hr
  have hxw : x = w := by
    cases hres : (g.fromData E (World.empty.run E hist).disk c x).result with
    | error e => rw [hres] at hr; cases hr
    | ok z =>
      rw [hres] at hr
      have := live_returns_data E g _ c x z hres
      cases hr
      exact this.symm
  subst hxw
  rcases hx with hx | ⟨cs, lines, text, h1, h2, h3, h4, _⟩
  · subst hx; exact .inl hl
  · exact .inr ⟨cs, lines, text, h1, h2, h3, h4⟩

/-! ### Calls that share the temporary file -/

theorem temp_run_append (calls : Nat → Str × Str) : ∀ (a b : List TempStep) (t : Temp), t.run calls (a ++ b) = (t.run calls a).run calls b
  | [], _, _ => rfl
  | _ :: a, b, _ => temp_run_append calls a b _

/-- **C60.** False of the code: two calls for files of the same name in different directories use the same temporary file, and one can
get the data of the other. -/
theorem temp_files_fails : ∃ (calls : Nat → Str × Str) (steps : List TempStep), steps = [.write 0, .write 1, .load 0, .load 1] ∧
    ((Temp.empty.run calls steps).got 0) = some (calls 1).2 ∧ (calls 0).2 ≠ (calls 1).2 :=
  ⟨fun i => if i = 0 then (py!"x.yaml", py!"a: 1") else (py!"x.yaml", py!"b: 1"), _, rfl, by decide, by decide⟩

theorem temp_files_keep {calls : Nat → Str × Str} {i : Nat} (hd : ∀ j, j ≠ i → (calls j).1 ≠ (calls i).1) :
    ∀ (steps : List TempStep) (t : Temp), t.files (tempName (calls i).1) = some (calls i).2 →
      (t.run calls steps).files (tempName (calls i).1) = some (calls i).2 ∧
      (t.got i = some (calls i).2 ∨ .load i ∈ steps → (t.run calls steps).got i = some (calls i).2)
  | [], t, h => ⟨h, fun h => by rcases h with h | h; exact h; cases h⟩
  | s :: r, t, h => by
    have hf : (t.step calls s).files (tempName (calls i).1) = some (calls i).2 := by
      cases s with
      | load j => exact h
      | write j =>
        simp only [Temp.step]
        by_cases hj : j = i
        · subst hj; simp
        · rw [if_neg]
          · exact h
          · intro e
            injection e with _ e
            exact hd j hj e.symm
    obtain ⟨h1, h2⟩ := temp_files_keep hd r _ hf
    refine ⟨h1, fun hg => h2 ?_⟩
    rcases hg with hg | hg
    · left
      cases s with
      | write j => exact hg
      | load j =>
        simp only [Temp.step]
        split
        · subst_vars; exact h
        · exact hg
    · rcases List.mem_cons.mp hg with rfl | hg
      · left
        simp only [Temp.step, if_true]
        exact h
      · exact .inr hg

/-- **C60, partial.** In every interleaving of any number of calls, a call whose file name no other call uses gets its own text, when it
loads after it has written. -/
theorem temp_files_partial (calls : Nat → Str × Str) (i : Nat) (hd : ∀ j, j ≠ i → (calls j).1 ≠ (calls i).1)
    (before after : List TempStep) (h : .load i ∈ after) :
    (Temp.empty.run calls (before ++ .write i :: after)).got i = some (calls i).2 := by
  rw [temp_run_append]
  exact (temp_files_keep hd after _ (by simp [Temp.step])).2 (.inr h)

example : ∀ j, j ≠ 0 → ((fun i : Nat => if i = 0 then (py!"x.yaml", py!"a: 1") else (py!"y.yaml", py!"b: 1")) j).1 ≠ py!"x.yaml" := by
  intro j hj; simp [hj]

end Verif.Props
