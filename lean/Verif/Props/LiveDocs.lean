import Verif.Props.Live
import Verif.Spec.Docs
/-
Validation and documentation.
-/
namespace Verif.Props
open Verif Verif.Spec

theorem blank_same : ∀ {a b : List Str}, SameDocLines a b →
    a.map (fun l => if contains py!"\"\"\"" l then [] else l) = b.map (fun l => if contains py!"\"\"\"" l then [] else l)
  | [], [], _ => rfl
  | [], _ :: _, h => by cases h.1
  | _ :: _, [], h => by cases h.1
  | x :: a, y :: b, h => by
    have h0 := h.2 0 x y rfl rfl
    have ht : SameDocLines a b := ⟨by simpa using h.1, fun i u w hu hw => h.2 (i + 1) u w (by simpa using hu) (by simpa using hw)⟩
    rw [List.map_cons, List.map_cons, blank_same ht]
    rcases h0 with rfl | ⟨h1, h2⟩
    · rfl
    · simp only [h1, h2, if_true]

/-- **C47, partial.** If the stored and the fresh text have docstring delimiters in the same lines and agree in all other lines, then
validation does not fail. Missing: docstrings that are added, removed, or go over several lines (`live_docs_fails`,
`live_docs_fails_multiline`). -/
theorem live_docs_partial (E : Env) (hist : List Event) (i : Nat) (g : Live) (hg : (World.empty.run E hist).gens i = some g) (c : Str) (v : Val)
    (text stored : Str) (ht : generate { E with S := g.S } c v true = .ok text) (hs : (World.empty.run E hist).disk.files c = some stored)
    (h1 : contains py!"\"\"\"" text = true) (h2 : contains py!"\"\"\"" stored = true) (h : SameDocLines (splitlines text) (splitlines stored)) :
    (g.fromData E (World.empty.run E hist).disk c v).result ≠ .error .validation := by
  rw [Ne, live_validate E hist i g hg c v]
  rintro ⟨_, _, _, text', stored', ht', hs', hne⟩
  rw [ht] at ht'
  rw [hs] at hs'
  cases ht'
  cases hs'
  apply hne
  simp only [removeDocstrings, h1, h2, if_true, blank_same h]

theorem filter_join {X : List Str} (h : ∀ x ∈ X, OneLine x) :
    (splitlines (join py!"\n" X)).filter (fun l => !l.isEmpty) = X.filter (fun l => !l.isEmpty) := by
  by_cases hX : X = []
  · subst hX; rfl
  · have e := List.dropLast_concat_getLast hX
    generalize X.dropLast = A, X.getLast hX = x at e
    subst e
    rw [join_snoc, splitlines_unlines (fun y hy => h y (by simp [hy]))]
    by_cases hx : x = []
    · subst hx; simp [splitlines, splitlinesAux]
    · rw [splitlines_last (h x (by simp)) hx]

theorem contains_line {kw s : Str} (h : contains kw s = false) : ∀ (_ : kw ≠ []), ∀ l ∈ splitlines s, contains kw l = false := by
  intro hne l hl
  cases hc : contains kw l with
  | false => rfl
  | true =>
    exfalso
    have key : ∀ (s cur : Str), l ∈ splitlinesAux cur s → contains kw (cur.reverse ++ s) = true := by
      intro s cur
      fun_induction splitlinesAux cur s with
      | case1 cur h => intro hl; cases hl
      | case2 cur h => intro hl; rw [← List.mem_singleton.mp hl, List.append_nil]; exact hc
      | case3 cur r ih =>
        intro hl
        rcases List.mem_cons.mp hl with rfl | hl
        · exact contains_append_left hc _
        · have := ih hl
          rw [show cur.reverse ++ '\r' :: '\n' :: r = (cur.reverse ++ ['\r', '\n']) ++ ([].reverse ++ r) by simp]
          exact contains_right _ this
      | case4 cur c r h hb ih =>
        intro hl
        rcases List.mem_cons.mp hl with rfl | hl
        · exact contains_append_left hc _
        · have := ih hl
          rw [show cur.reverse ++ c :: r = (cur.reverse ++ [c]) ++ ([].reverse ++ r) by simp]
          exact contains_right _ this
      | case5 cur c r h hb ih =>
        intro hl
        have := ih hl
        simpa using this
    have := key s [] hl
    rw [List.reverse_nil, List.nil_append, h] at this
    cases this
where
  contains_right {kw y : Str} : ∀ (x : Str), contains kw y = true → contains kw (x ++ y) = true
    | [], h => h
    | c :: x, h => by simp [contains, contains_right x h]

theorem plainLines_removeDocstrings (s : Str) : (splitlines (removeDocstrings s)).filter (fun l => !l.isEmpty) = plainLines s := by
  unfold removeDocstrings plainLines
  have hone : ∀ x ∈ splitlines s, OneLine x := splitlines_oneLine s [] (by simp)
  cases hc : contains py!"\"\"\"" s with
  | true =>
    simp only [if_true]
    rw [filter_join]
    · generalize splitlines s = X
      induction X with
      | nil => rfl
      | cons x X ih =>
        rw [List.map_cons, List.filter_cons, List.filter_cons, ih]
        by_cases hx : contains py!"\"\"\"" x = true
        · simp [hx]
        · simp [hx]
    · intro x hx
      obtain ⟨l, hl, rfl⟩ := List.mem_map.mp hx
      split
      · intro c hc; cases hc
      · exact hone l hl
  | false =>
    simp only [Bool.false_eq_true, if_false]
    apply List.filter_congr
    intro l hl
    rw [contains_line hc (by decide) l hl]
    simp

/-- A line without its text, if it has a docstring delimiter. -/
def blanked (l : Str) : Str := if contains py!"\"\"\"" l then [] else l

theorem blanked_eq {x y : Str} : blanked x = blanked y ↔
    x = y ∨ ((x = [] ∨ contains py!"\"\"\"" x = true) ∧ (y = [] ∨ contains py!"\"\"\"" y = true)) := by
  unfold blanked
  by_cases hx : contains py!"\"\"\"" x = true <;> by_cases hy : contains py!"\"\"\"" y = true <;>
    simp only [hx, hy, if_true, Bool.false_eq_true, if_false, or_true, or_false, and_true, true_and, true_iff]
  · constructor
    · intro h; exact .inr h.symm
    · rintro (rfl | h)
      · exact absurd hx hy
      · exact h.symm
  · constructor
    · intro h; exact .inr h
    · rintro (rfl | h)
      · exact absurd hy hx
      · exact h
  · constructor
    · intro h; exact .inl h
    · rintro (h | ⟨h1, h2⟩)
      · exact h
      · rw [h1, h2]

theorem map_blanked : ∀ {a b : List Str}, a.map blanked = b.map blanked ↔ SameButDocs a b
  | [], [] => ⟨fun _ => .nil, fun _ => rfl⟩
  | [], _ :: _ => ⟨fun h => (by cases h), fun h => (by cases h)⟩
  | _ :: _, [] => ⟨fun h => (by cases h), fun h => (by cases h)⟩
  | x :: a, y :: b => by
    rw [List.map_cons, List.map_cons, List.cons.injEq, blanked_eq, map_blanked]
    constructor
    · rintro ⟨rfl | ⟨h1, h2⟩, h⟩
      · exact .same h
      · exact .docs h1 h2 h
    · intro h
      cases h with
      | same h => exact ⟨.inl rfl, h⟩
      | docs h1 h2 h => exact ⟨.inr ⟨h1, h2⟩, h⟩

theorem removeDocstrings_eq {a b : Str} (ha : contains py!"\"\"\"" a = true) (hb : contains py!"\"\"\"" b = true) :
    removeDocstrings a = removeDocstrings b ↔ SameButDocs (splitlines a) (splitlines b) := by
  unfold removeDocstrings
  simp only [ha, hb, if_true]
  rw [← map_blanked]
  show join _ ((splitlines a).map blanked) = join _ ((splitlines b).map blanked) ↔ _
  have hone : ∀ (s : Str), ∀ x ∈ (splitlines s).map blanked, '\n' ∉ x := by
    intro s x hx
    obtain ⟨l, hl, rfl⟩ := List.mem_map.mp hx
    unfold blanked
    split
    · simp
    · intro hc
      have := splitlines_oneLine s [] (by simp) l hl '\n' hc
      revert this; decide
  have hne : ∀ {s : Str}, contains py!"\"\"\"" s = true → (splitlines s).map blanked ≠ [] := by
    intro s hs h
    cases s with
    | nil => revert hs; decide
    | cons c r =>
      have : splitlines (c :: r) ≠ [] := splitlines_ne_nil c r
      simp at h
      exact this h
  constructor
  · intro h
    have := congrArg (splitChar '\n') h
    rwa [splitChar_join (hne ha) (hone a), splitChar_join (hne hb) (hone b)] at this
  · intro h; rw [h]
where
  splitlines_ne_nil (c : Char) (r : Str) : splitlines (c :: r) ≠ [] := by
    have key : ∀ (s cur : Str), cur ++ s ≠ [] → splitlinesAux cur s ≠ [] := by
      intro s cur
      fun_induction splitlinesAux cur s with
      | case1 cur h => intro h'; simp_all
      | case2 cur h => simp
      | case3 cur r ih => simp
      | case4 cur c r h hb ih => simp
      | case5 cur c r h hb ih => intro _; exact ih (by simp)
    exact key _ [] (by simp)

/-- **C46, validate,** for documented hints: the call raises the validation error exactly if the stored and the fresh text differ in a
line, where lines with docstring delimiters and empty lines count as equal. -/
theorem live_validate_documented (E : Env) (hist : List Event) (i : Nat) (g : Live) (hg : (World.empty.run E hist).gens i = some g) (c : Str) (v : Val)
    (hm : g.mode = .validate) (hc : nameOk E.U c = true) (names : List Str) (hn : classesAdded g.lines (World.empty.run E hist).disk = .ok names)
    (hin : c ∈ names) (text stored : Str) (ht : generate { E with S := g.S } c v true = .ok text)
    (hs : (World.empty.run E hist).disk.files c = some stored) (h1 : contains py!"\"\"\"" text = true)
    (h2 : contains py!"\"\"\"" stored = true) :
    (g.fromData E (World.empty.run E hist).disk c v).result = .error .validation ↔ ¬ SameButDocs (splitlines text) (splitlines stored) := by
  rw [live_validate E hist i g hg c v, ← removeDocstrings_eq h1 h2]
  constructor
  · rintro ⟨_, _, _, text', stored', ht', hs', hne⟩
    rw [ht] at ht'; rw [hs] at hs'
    cases ht'; cases hs'
    exact hne
  · intro h
    exact ⟨hc, hm, ⟨names, hn, hin⟩, text, stored, ht, hs, h⟩

/-- **C46, validate,** for hints without documentation: the call raises the validation error exactly if the texts differ. -/
theorem live_validate_undocumented (E : Env) (hist : List Event) (i : Nat) (g : Live) (hg : (World.empty.run E hist).gens i = some g) (c : Str) (v : Val)
    (hm : g.mode = .validate) (hc : nameOk E.U c = true) (names : List Str) (hn : classesAdded g.lines (World.empty.run E hist).disk = .ok names)
    (hin : c ∈ names) (text stored : Str) (ht : generate { E with S := g.S } c v true = .ok text)
    (hs : (World.empty.run E hist).disk.files c = some stored) (h1 : contains py!"\"\"\"" text = false)
    (h2 : contains py!"\"\"\"" stored = false) :
    (g.fromData E (World.empty.run E hist).disk c v).result = .error .validation ↔ text ≠ stored := by
  have e : ∀ s : Str, contains py!"\"\"\"" s = false → removeDocstrings s = s := fun s h => by simp [removeDocstrings, h]
  rw [live_validate E hist i g hg c v]
  constructor
  · rintro ⟨_, _, _, text', stored', ht', hs', hne⟩
    rw [ht] at ht'; rw [hs] at hs'
    cases ht'; cases hs'
    rwa [e _ h1, e _ h2] at hne
  · intro h
    exact ⟨hc, hm, ⟨names, hn, hin⟩, text, stored, ht, hs, by rwa [e _ h1, e _ h2]⟩

/-- Validation is sharp: if a registered class passes validation, the stored and the fresh text have the same lines, apart from empty
lines and lines with docstring delimiters. -/
theorem live_validation_sharp (E : Env) (hist : List Event) (i : Nat) (g : Live) (hg : (World.empty.run E hist).gens i = some g) (c : Str) (v x : Val)
    (hm : g.mode = .validate) (names : List Str) (hn : classesAdded g.lines (World.empty.run E hist).disk = .ok names) (hc : c ∈ names)
    (stored : Str) (hs : (World.empty.run E hist).disk.files c = some stored)
    (h : (g.fromData E (World.empty.run E hist).disk c v).result = .ok x) :
    ∃ text, generate { E with S := g.S } c v true = .ok text ∧ plainLines text = plainLines stored := by
  obtain ⟨text, ht, _⟩ := live_success_text E hist i g hg c v x h
  refine ⟨text, ht, ?_⟩
  have hv : ¬ (g.fromData E (World.empty.run E hist).disk c v).result = .error .validation := by rw [h]; intro h'; cases h'
  rw [live_validate E hist i g hg c v] at hv
  have hname : nameOk E.U c = true := by
    cases hk : nameOk E.U c with
    | true => rfl
    | false =>
      unfold Live.fromData at h
      rw [hk] at h
      cases h
  have : removeDocstrings text = removeDocstrings stored := by
    apply Decidable.byContradiction
    intro hne
    exact hv ⟨hname, hm, ⟨names, hn, hc⟩, text, stored, ht, hs, hne⟩
  rw [← plainLines_removeDocstrings, this, plainLines_removeDocstrings]

/-! ### Witnesses -/

/-- `{"a": 1}` with documentation for `a`. -/
def documented (doc : Str) : Val :=
  .dict [(.str (hiddenPrefix ++ py!"a"), .inst .str (some doc)), (.str py!"a", .inst .int none)]

def undocumented : Val := .dict [(.str py!"a", .inst .int none)]

/-- The result of a call after a history, and the texts compared. -/
def validationOf (E : Env) (hist : List Event) (i : Nat) (c : Str) (v : Val) : Option (Bool × Option Str × Option Str) :=
  let w := World.empty.run E hist
  (w.gens i).map (fun g => (decide ((match (g.fromData E w.disk c v).result with
      | .error e => some e
      | .ok _ => none) = some .validation),
    w.disk.files c, match generate { E with S := g.S } c v true with
      | .ok text => some text
      | .error _ => none))

theorem validationOf_spec {E : Env} {hist : List Event} {i : Nat} {c : Str} {v : Val} {a b : Str}
    (h : validationOf E hist i c v = some (true, some a, some b)) : ∃ g, (World.empty.run E hist).gens i = some g ∧
      (World.empty.run E hist).disk.files c = some a ∧ generate { E with S := g.S } c v true = .ok b ∧
      (g.fromData E (World.empty.run E hist).disk c v).result = .error .validation := by
  unfold validationOf at h
  simp only [Option.map_eq_some_iff] at h
  obtain ⟨g, hg, h⟩ := h
  simp only [Prod.mk.injEq, decide_eq_true_eq] at h
  obtain ⟨h1, h2, h3⟩ := h
  refine ⟨g, hg, h2, ?_, ?_⟩
  · split at h3
    · rename_i t ht
      cases h3; exact ht
    · cases h3
  · split at h1
    · rename_i e he
      cases h1; exact he
    · cases h1

/-- **C47 fails.** Documentation that is removed makes validation fail: the line is only blanked. -/
theorem live_docs_fails : ∃ (E : Env) (hist : List Event) (g : Live) (c : Str) (v : Val) (text stored : Str),
    (World.empty.run E hist).gens 0 = some g ∧ (World.empty.run E hist).disk.files c = some stored ∧
    generate { E with S := g.S } c v true = .ok text ∧ SameUpToDocs text stored ∧
    (g.fromData E (World.empty.run E hist).disk c v).result = .error .validation := by
  have h : validationOf (exEnv {}) [.new 0 {} .validate, .call 0 py!"A" (documented py!"Doc.")] 0 py!"A" undocumented =
      some (true, some py!"from typing import TypedDict\n\n\nclass A(TypedDict):\n    a: int\n    \"\"\"Doc.\"\"\"",
        some py!"from typing import TypedDict\n\n\nclass A(TypedDict):\n    a: int") := by decide +kernel
  obtain ⟨g, h1, h2, h3, h4⟩ := validationOf_spec h
  refine ⟨_, _, g, _, _, _, _, h1, h2, h3, ?_, h4⟩
  unfold SameUpToDocs
  decide +kernel

def longDoc (first : Str) : Str := first ++
  py!" two three four five six seven eight nine ten eleven twelve thirteen fourteen fifteen sixteen seventeen eighteen nineteen."

def longText (first : Str) : Str := py!"from typing import TypedDict\n\n\nclass A(TypedDict):\n    a: int\n    \"\"\"\n    " ++ first ++
  py!" two three four five six seven eight nine ten eleven twelve thirteen fourteen fifteen\n    sixteen seventeen eighteen nineteen.\n    \"\"\""

/-- **C47 fails.** Editing a docstring of several lines makes validation fail: only the lines with delimiters are ignored. -/
theorem live_docs_fails_multiline : ∃ (E : Env) (hist : List Event) (g : Live) (c : Str) (v : Val) (text stored : Str),
    (World.empty.run E hist).gens 0 = some g ∧ (World.empty.run E hist).disk.files c = some stored ∧
    generate { E with S := g.S } c v true = .ok text ∧ SameUpToDocs text stored ∧ (splitlines text).length = (splitlines stored).length ∧
    (g.fromData E (World.empty.run E hist).disk c v).result = .error .validation := by
  have h : validationOf (exEnv {}) [.new 0 {} .validate, .call 0 py!"A" (documented (longDoc py!"One"))] 0 py!"A" (documented (longDoc py!"Two")) =
      some (true, some (longText py!"One"), some (longText py!"Two")) := by decide +kernel
  obtain ⟨g, h1, h2, h3, h4⟩ := validationOf_spec h
  refine ⟨_, _, g, _, _, _, _, h1, h2, h3, ?_, ?_, h4⟩
  · unfold SameUpToDocs
    decide +kernel
  · decide +kernel

/-- Hypotheses of `live_docs_partial` and `live_validation_sharp`: the docstring of one line changes, and the call succeeds. -/
example : validationOf (exEnv {}) [.new 0 {} .validate, .call 0 py!"A" (documented py!"Doc.")] 0 py!"A" (documented py!"Other.") =
    some (false, some py!"from typing import TypedDict\n\n\nclass A(TypedDict):\n    a: int\n    \"\"\"Doc.\"\"\"",
      some py!"from typing import TypedDict\n\n\nclass A(TypedDict):\n    a: int\n    \"\"\"Other.\"\"\"") := by decide +kernel

end Verif.Props
