import Verif.Model.HasReturn
import Verif.Model.Generator
import Verif.Lemmas.Quotes
/-
Hints of functions: which calls they accept (C67), what they return (C68).
-/
namespace Verif.Props
open Verif Verif.Spec

/-! ### C67 -/

theorem generate_func (E : Env) (name : Str) (f : FuncInfo) (hn : nameOk E.U name = true)
    (hf : (funcTop (sigImports E.U) name f).fails = none) :
    generate E name (.func f) false = .ok ((funcTop (sigImports E.U) name f).text ++ py!"\n") := by
  have hb : fromData E name (.func f) = .ok (.mk { kind := .func f, name, root := true, ty := (Val.func f).ty, slots := [] } []) := by
    unfold fromData
    rw [if_pos hn]
    simp [buildTree, build, hn]
  unfold generate
  rw [hb]
  simp [toString', nodeStrings, Node.render, Node.out, outList, combine, emitOf, permOf, topOf, firstFailure, hf, declTexts, dedup, formatNodeStrings,
    spaceClasses, join, Except.map]

theorem defined_fails {im : Str → List Str} {name : Str} {ps : List Formal} {ret : Option Str} {body : List Stmt} :
    (funcTop im name (defined ps ret body)).fails = none := by
  simp only [funcTop, defined, Bool.false_eq_true, if_false]
  split
  · rfl
  · cases returnInAny body <;> rfl

/-- The hint of a function is a class whose `__call__` has the signature of the function, with a return type. -/
theorem defined_text (E : Env) (name : Str) (ps : List Formal) (ret : Option Str) (body : List Stmt) (hn : nameOk E.U name = true) :
    ∃ ret', (ret.isSome = true → ret' = ret) ∧
      generate E name (.func (defined ps ret body)) false = .ok (protocolText name (printSignature ps ret') ++ py!"\n") := by
  rw [generate_func E name _ hn defined_fails]
  cases hr : ret with
  | some r =>
    refine ⟨some r, by simp, ?_⟩
    have hc : contains py!"->" (printSignature ps (some r)) = true := by
      rw [contains_iff_infix]
      exact ⟨py!"(" ++ join py!", " (printParams false true ps) ++ py!") ", py!" " ++ r, by simp [printSignature]⟩
    simp only [funcTop, defined, hc]
    simp [protocolText]
  | none =>
    by_cases hc : contains py!"->" (printSignature ps none) = true
    · refine ⟨none, by simp, ?_⟩
      simp only [funcTop, defined, hc]
      simp [protocolText]
    · cases hb : returnInAny body with
      | true =>
        refine ⟨some py!"Any", by simp, ?_⟩
        simp only [funcTop, defined, hc, hb]
        simp [protocolText, printSignature]
      | false =>
        refine ⟨some py!"None", by simp, ?_⟩
        simp only [funcTop, defined, hc, hb]
        simp [protocolText, printSignature]

/-- **C67 fails,** for every function without `*args`: there is a call that the function accepts and its hint does not, since the method
in the hint has no parameter for the object itself. -/
theorem function_calls_fails (E : Env) (name : Str) (ps : List Formal) (ret : Option Str) (body : List Stmt) (hn : nameOk E.U name = true)
    (hv : ¬ HasVarPositional ps) :
    (∃ ret', generate E name (.func (defined ps ret body)) false = .ok (protocolText name (printSignature ps ret') ++ py!"\n")) ∧
    ∃ c, Accepts ps c ∧ ¬ ObjectAccepts ps c := by
  obtain ⟨r, _, h⟩ := defined_text E name ps ret body hn
  refine ⟨⟨r, h⟩, ⟨(positionals ps).length, (ps.filter (fun p => decide (p.kind = .keywordOnly))).map (·.name)⟩, ⟨.inl (Nat.le_refl _), ?_, ?_, ?_⟩, ?_⟩
  · intro k hk
    obtain ⟨p, hp, rfl⟩ := List.mem_map.mp hk
    rw [List.mem_filter, decide_eq_true_iff] at hp
    exact .inr (.inl ⟨p, hp.1, hp.2, rfl⟩)
  · intro p hp
    rw [List.drop_length] at hp
    cases hp
  · intro p hp hk
    exact .inr (List.mem_map.mpr ⟨p, by rw [List.mem_filter, decide_eq_true_iff]; exact ⟨hp, hk⟩, rfl⟩)
  · rintro ⟨h1, _⟩
    rcases h1 with h1 | h1
    · exact absurd h1 (by simp)
    · exact hv h1

/-- `def f(a, b=1): return a` may be called with two arguments; its hint may not. -/
example : generate (exEnv {}) py!"F" (.func (defined [{ name := py!"a" }, { name := py!"b", default := some py!"1" }] none [.ret true])) false =
      .ok py!"class F(Protocol):\n    def __call__(a, b=1) -> Any: ...\n" ∧
    Accepts [{ name := py!"a" }, { name := py!"b", default := some py!"1" }] ⟨2, []⟩ ∧
    ¬ ObjectAccepts [{ name := py!"a" }, { name := py!"b", default := some py!"1" }] ⟨2, []⟩ := by
  refine ⟨by decide +kernel, ⟨.inl (by decide), by simp, ?_, by simp⟩, ?_⟩
  · intro p hp
    cases hp
  · rintro ⟨h | ⟨p, hp, h⟩, _⟩
    · exact absurd h (by decide)
    · simp only [List.mem_cons, List.not_mem_nil, or_false] at hp
      rcases hp with rfl | rfl <;> cases h

/-- **C67, partial.** The hint of a function with `*args` and no other positional parameters accepts the same calls as the function.
Missing: all functions without `*args` (`function_calls_fails`). -/
theorem function_calls_partial (E : Env) (name : Str) (ps : List Formal) (ret : Option Str) (body : List Stmt) (hn : nameOk E.U name = true)
    (hv : HasVarPositional ps) (hp : positionals ps = []) :
    (∃ ret', generate E name (.func (defined ps ret body)) false = .ok (protocolText name (printSignature ps ret') ++ py!"\n")) ∧
    ∀ c, Accepts ps c ↔ ObjectAccepts ps c := by
  obtain ⟨r, _, h⟩ := defined_text E name ps ret body hn
  refine ⟨⟨r, h⟩, fun c => ?_⟩
  unfold ObjectAccepts Accepts
  simp [hp, hv]

/-- `def f(*args, sep, **kw)`. -/
example : HasVarPositional [{ name := py!"args", kind := .varPositional }, { name := py!"sep", kind := .keywordOnly }, { name := py!"kw", kind := .varKeyword }] ∧
    positionals [{ name := py!"args", kind := .varPositional }, { name := py!"sep", kind := .keywordOnly }, { name := py!"kw", kind := .varKeyword }] = [] ∧
    Accepts [{ name := py!"args", kind := .varPositional }, { name := py!"sep", kind := .keywordOnly }, { name := py!"kw", kind := .varKeyword }]
      ⟨3, [py!"sep", py!"other"]⟩ := by
  refine ⟨⟨_, List.mem_cons_self, rfl⟩, rfl, .inr ⟨_, List.mem_cons_self, rfl⟩, ?_, by simp [positionals], by simp⟩
  intro k hk
  simp only [List.mem_cons, List.not_mem_nil, or_false] at hk
  rcases hk with rfl | rfl
  · exact .inr (.inl ⟨⟨py!"sep", .keywordOnly, none, none⟩, by simp, rfl, rfl⟩)
  · exact .inr (.inr ⟨⟨⟨py!"kw", .varKeyword, none, none⟩, by simp, rfl⟩, by simp⟩)

theorem lambda_text (E : Env) (name : Str) (ps : List Formal) (hn : nameOk E.U name = true) :
    generate E name (.func (lambda ps)) false = .ok (callableText name ps.length ++ py!"\n") := by
  rw [generate_func E name _ hn (by simp [funcTop, lambda])]
  simp [funcTop, lambda, callableText, typeAlias]

/-- Parameters in the order the language prescribes: positional ones with defaults come after those without. -/
def DefaultsLast (ps : List Formal) : Prop := (positionals ps).Pairwise (fun p q => p.default.isSome = true → q.default.isSome = true)

theorem drop_last_of_length {α} {l : List α} {a : α} (h : l.getLast? = some a) : l.drop (l.length - 1) = [a] := by
  obtain ⟨r, rfl⟩ := List.getLast?_eq_some_iff.mp h
  simp

/-- **C67 for lambdas,** exactly: the hint of a lambda accepts the same positional calls as the lambda if and only if all its parameters are
positional and have no defaults. -/
theorem lambda_calls_partial (E : Env) (name : Str) (ps : List Formal) (hn : nameOk E.U name = true) (hd : DefaultsLast ps) :
    generate E name (.func (lambda ps)) false = .ok (callableText name ps.length ++ py!"\n") ∧
    ((∀ m, Accepts ps ⟨m, []⟩ ↔ CallableAccepts ps.length ⟨m, []⟩) ↔
      ∀ p ∈ ps, (p.kind = .positionalOnly ∨ p.kind = .positional) ∧ p.default = none) := by
  refine ⟨lambda_text E name ps hn, ?_⟩
  have acc : ∀ m, Accepts ps ⟨m, []⟩ ↔ (m ≤ (positionals ps).length ∨ HasVarPositional ps) ∧
      (∀ p ∈ (positionals ps).drop m, p.default.isSome = true) ∧ (∀ p ∈ ps, p.kind = .keywordOnly → p.default.isSome = true) := by
    intro m
    simp [Accepts]
  constructor
  · intro h
    have hlen := ((acc _).mp ((h ps.length).mpr ⟨rfl, rfl⟩))
    -- no `*args`
    have hv : ¬ HasVarPositional ps := by
      intro hv
      have := (h (ps.length + 1)).mp ((acc _).mpr ⟨.inr hv, ?_, hlen.2.2⟩)
      · exact absurd this.1 (by simp)
      · intro p hp
        rw [List.drop_eq_nil_of_le (by have := List.length_filter_le (fun p : Formal => decide (p.kind = .positionalOnly) || decide (p.kind = .positional)) ps; unfold positionals; omega)] at hp
        cases hp
    have hle : ps.length ≤ (positionals ps).length := hlen.1.resolve_right hv
    have hall : ∀ p ∈ ps, p.kind = .positionalOnly ∨ p.kind = .positional := by
      intro p hp
      have : ∀ q ∈ ps, (decide (q.kind = .positionalOnly) || decide (q.kind = .positional)) = true :=
        List.length_filter_eq_length_iff.mp (Nat.le_antisymm (List.length_filter_le _ _) hle)
      simpa using this p hp
    have hpos : positionals ps = ps := by
      unfold positionals
      rw [List.filter_eq_self]
      intro p hp
      simpa using hall p hp
    intro p hp
    refine ⟨hall p hp, ?_⟩
    cases hdf : p.default with
    | none => rfl
    | some d =>
      exfalso
      obtain ⟨q, hq⟩ : ∃ q, ps.getLast? = some q := by
        cases hl : ps.getLast? with
        | none => rw [List.getLast?_eq_none_iff] at hl; subst hl; cases hp
        | some q => exact ⟨q, rfl⟩
      have hqd : q.default.isSome = true := by
        obtain ⟨r, rfl⟩ := List.getLast?_eq_some_iff.mp hq
        unfold DefaultsLast at hd
        rw [hpos, List.pairwise_append] at hd
        rcases List.mem_append.mp hp with hp | hp
        · exact hd.2.2 p hp q (by simp) (by simp [hdf])
        · simp only [List.mem_cons, List.not_mem_nil, or_false] at hp
          subst hp
          simp [hdf]
      have h1 := (h (ps.length - 1)).mp ((acc _).mpr ⟨.inl (by rw [hpos]; omega), ?_, hlen.2.2⟩)
      · have := List.length_pos_of_mem hp
        have : ps.length - 1 = ps.length := h1.1
        omega
      · rw [hpos, drop_last_of_length hq]
        simpa using hqd
  · intro h m
    have hpos : positionals ps = ps := by
      unfold positionals
      rw [List.filter_eq_self]
      intro p hp
      simpa using (h p hp).1
    have hv : ¬ HasVarPositional ps := by
      rintro ⟨p, hp, hk⟩
      rcases (h p hp).1 with h | h <;> rw [h] at hk <;> cases hk
    rw [acc, hpos]
    unfold CallableAccepts
    constructor
    · rintro ⟨h1, h2, _⟩
      refine ⟨Nat.le_antisymm (h1.resolve_right hv) ?_, rfl⟩
      rcases Nat.lt_or_ge m ps.length with hm | hm
      · have hmem : ps[m] ∈ ps.drop m := by rw [List.drop_eq_getElem_cons hm]; exact List.mem_cons_self
        have := h2 _ hmem
        rw [(h _ (List.getElem_mem hm)).2] at this
        cases this
      · exact hm
    · rintro ⟨rfl, _⟩
      refine ⟨.inl (Nat.le_refl _), ?_, ?_⟩
      · simp
      · intro p hp hk
        rcases (h p hp).1 with h | h <;> rw [h] at hk <;> cases hk

/-- `lambda x, y: ...` and `lambda x, y=1: ...`. -/
example : DefaultsLast [{ name := py!"x" }, { name := py!"y", default := some py!"1" }] ∧
    generate (exEnv {}) py!"F" (.func (lambda [{ name := py!"x" }, { name := py!"y", default := some py!"1" }])) false =
      .ok py!"F: TypeAlias = Callable[[Any, Any], Any]\n" := by
  refine ⟨?_, by decide +kernel⟩
  unfold DefaultsLast
  simp [positionals]

/-! ### C68 -/

mutual
theorem givesValue_return : ∀ {s : Stmt}, givesValue s = true → yields s = false → returnIn s = true
  | .ret _, _, _ => rfl
  | .yield, _, h => by cases h
  | .block b, h, hy => by
    simp only [givesValue] at h
    simp only [yields] at hy
    simp only [returnIn]
    exact givesValueAny_return h hy
  | .define _, h, _ => by cases h
  | .other, h, _ => by cases h
theorem givesValueAny_return : ∀ {b : List Stmt}, givesValueAny b = true → yieldsAny b = false → returnInAny b = true
  | [], h, _ => by cases h
  | s :: r, h, hy => by
    simp only [givesValueAny, Bool.or_eq_true] at h
    simp only [yieldsAny, Bool.or_eq_false_iff] at hy
    simp only [returnInAny, Bool.or_eq_true]
    rcases h with h | h
    · exact .inl (givesValue_return h hy.1)
    · exact .inr (givesValueAny_return h hy.2)
end

/-- **C68, partial.** If the hint of a function without return annotation says that it returns `None`, and the function is not a generator,
then it has no `return` with a value. Missing: generators (`function_return_fails`), functions that share the hint of another one
(`function_return_fails_shared`). -/
theorem function_return_partial (E : Env) (name : Str) (ps : List Formal) (body : List Stmt) (hn : nameOk E.U name = true) (hy : yieldsAny body = false)
    (h : generate E name (.func (defined ps none body)) false = .ok (protocolText name (printSignature ps (some py!"None")) ++ py!"\n")) :
    givesValueAny body = false := by
  cases hg : givesValueAny body with
  | false => rfl
  | true =>
    exfalso
    have hr := givesValueAny_return hg hy
    rw [generate_func E name _ hn defined_fails] at h
    injection h with h
    have h := List.append_cancel_right h
    by_cases hc : contains py!"->" (printSignature ps none) = true
    · simp only [funcTop, defined, hc] at h
      simp [protocolText, printSignature] at h
    · simp only [funcTop, defined, hc, hr] at h
      simp [protocolText, printSignature] at h

/-- `def f(a): g(a)`, with a nested function that returns nothing. -/
example : yieldsAny [.other, .block [.define [.other], .other]] = false ∧
    generate (exEnv {}) py!"F" (.func (defined [{ name := py!"a" }] none [.other, .block [.define [.other], .other]])) false =
      .ok (protocolText py!"F" (printSignature [{ name := py!"a" }] (some py!"None")) ++ py!"\n") := by decide +kernel

/-- **C68:** an annotated return type is kept. -/
theorem function_return_annotated (E : Env) (name : Str) (ps : List Formal) (r : Str) (body : List Stmt) (hn : nameOk E.U name = true) :
    generate E name (.func (defined ps (some r) body)) false = .ok (protocolText name (printSignature ps (some r)) ++ py!"\n") := by
  obtain ⟨ret', h1, h2⟩ := defined_text E name ps (some r) body hn
  rw [h1 rfl] at h2
  exact h2

example : nameOk (exEnv {}).U py!"F" = true := by decide +kernel

/-- **C68 fails** for generators: `def f(): yield 1` is said to return `None`. -/
theorem function_return_fails : givesValueAny [.yield] = true ∧
    generate (exEnv {}) py!"F" (.func (defined [] none [.yield])) false = .ok py!"class F(Protocol):\n    def __call__() -> None: ...\n" := by
  decide +kernel

/-- **C68 fails** for functions in one list: `def f(x): pass` and `def g(x): return x` share the hint of the first one. -/
theorem function_return_fails_shared : givesValueAny [.ret true] = true ∧
    generate (exEnv {}) py!"L" (.seq .list .list [.func (defined [{ name := py!"x" }] none [.other]), .func (defined [{ name := py!"x" }] none [.ret true])]) false =
      .ok py!"class LFunction(Protocol):\n    def __call__(x) -> None: ...\n\n\nL: TypeAlias = List[LFunction]" := by
  decide +kernel

end Verif.Props
