import Verif.Lemmas.SimRender
import Verif.Props.Scalars
/-
Independence of the iteration order of Python sets.
-/
namespace Verif.Props
open Verif Verif.Spec

theorem sim_declTexts {o o' : Out} (h : OutEq True o o') : declTexts o = declTexts o' := by
  unfold declTexts
  obtain ⟨mid, hm, _, e⟩ := h.emitted
  rw [← e trivial, hm.map_eq (fun _ _ h => h.text)]

theorem sim_allKws {q : Prop} {o o' : Out} (h : OutEq q o o') (kw : Str) : kw ∈ allKws o ↔ kw ∈ allKws o' := by
  unfold allKws
  rw [mem_dedup, mem_dedup]
  obtain ⟨mid, hm, hp, _⟩ := h.emitted
  exact (KwEq.flatMap (fun _ _ h => h.kws) hm kw).trans (KwEq.perm hp kw)

theorem generate_tree {E : Env} {name : Str} {v : Val} {b : Bool} {text : Str} (h : generate E name v b = .ok text) :
    ∃ n, build E (v.depth + 1) true name v = .ok n ∧ toString' E n b = .ok text := by
  unfold generate fromData buildTree at h
  split at h
  · cases h
  · rename_i n hn
    split at hn
    · split at hn
      · rename_i m hm
        injection hn with hn
        subst hn
        split at h
        · rename_i s hs
          injection h with h
          subst h
          exact ⟨_, hm, hs⟩
        · cases h
      · cases hn
    · cases hn

theorem toString_ok_fails {E : Env} {n : Node} {b : Bool} {text : Str} (h : toString' E n b = .ok text) :
    firstFailure (n.render E).emitted = none := by
  cases hf : firstFailure (n.render E).emitted with
  | none => rfl
  | some e => simp only [toString', nodeStrings, hf] at h; cases h

/-- The renderings of similar trees. -/
theorem sim_render {q : Prop} {E E' : Env} (hU : E'.U = E.U) (hS : E'.S = E.S) (hB : E'.isBuiltin = E.isBuiltin) (hR : E'.reprStr = E.reprStr)
    {n n' : Node} (h : Sim q E.S n n') : OutEq q (n.render E) (n'.render E') := by
  have e : n'.render E' = n'.render E := by
    cases E; cases E'
    simp only at hU hS hB hR
    subst hU; subst hS; subst hB; subst hR
    exact out_env n'
  rw [e]
  exact sim_out h

/-- Similar trees fail to print alike. -/
theorem sim_failures {q : Prop} {o o' : Out} (h : OutEq q o o') (hf : firstFailure o.emitted = none) : firstFailure o'.emitted = none := by
  rw [firstFailure_none] at hf ⊢
  obtain ⟨mid, h1, h2, _⟩ := h.emitted
  intro d hd
  obtain ⟨d0, hd0, he⟩ := h1.mem_right d (h2.mem_iff.mpr hd)
  rw [← he.fails]
  exact hf d0 hd0

theorem generate_of_tree {E : Env} {name : Str} {v : Val} {b : Bool} {text : Str} {n : Node} (hn : nameOk E.U name = true)
    (h : build E (v.depth + 1) true name v = .ok n) (ht : toString' E n b = .ok text) : generate E name v b = .ok text := by
  simp only [generate, fromData, buildTree, hn, if_true, h, ht]

theorem generate_name {E : Env} {name : Str} {v : Val} {b : Bool} {text : Str} (h : generate E name v b = .ok text) : nameOk E.U name = true := by
  unfold generate fromData at h
  split at h
  · cases h
  · rename_i hn
    split at hn
    · assumption
    · cases hn

theorem deterministic_step {E E' : Env} (hE : E.Fair) (hE' : E'.Fair) (hU : E'.U = E.U) (hS : E'.S = E.S)
    (hB : E'.isBuiltin = E.isBuiltin) (hR : E'.reprStr = E.reprStr) (name : Str) (v : Val) (imports : Bool) (hv : Steady E.S v)
    (text : Str) (h : generate E name v imports = .ok text) : generate E' name v imports = .ok text := by
  obtain ⟨n, hn, ht⟩ := generate_tree h
  obtain ⟨n', hn', hsim⟩ := build_sim hE hE' hU hS _ true name v n hv (by omega) hn
  have ho := sim_render hU hS hB hR hsim
  have h1 := toString_ok_fails ht
  have := toString_congr (b := imports) h1 (sim_failures ho h1) (sim_declTexts ho) (sim_allKws ho)
  exact generate_of_tree (by rw [hU]; exact generate_name h) hn' (by rw [← this]; exact ht)

/-- **C26** for data in which those elements of a sequence that need a declaration are alike: if one iteration order of Python
sets yields a hint, all yield the same hint, imports included. Missing: sequences with different elements that need
declarations, for which the claim is false. -/
theorem deterministic_partial {E E' : Env} (hE : E.Fair) (hE' : E'.Fair) (hU : E'.U = E.U) (hS : E'.S = E.S)
    (hB : E'.isBuiltin = E.isBuiltin) (hR : E'.reprStr = E.reprStr) (name : Str) (v : Val) (imports : Bool) (hv : Steady E.S v)
    (text : Str) : generate E name v imports = .ok text ↔ generate E' name v imports = .ok text :=
  ⟨deterministic_step hE hE' hU hS hB hR name v imports hv text,
    deterministic_step hE' hE hU.symm hS.symm hB.symm hR.symm name v imports (by rw [hS]; exact hv) text⟩

/-- **C26** for ordinary data in which those elements of a sequence that need a declaration are alike. -/
theorem deterministic_ordinary_partial {E E' : Env} (hE : E.Fair) (hE' : E'.Fair) (hU : E'.U = E.U) (hS : E'.S = E.S)
    (hB : E'.isBuiltin = E.isBuiltin) (hR : E'.reprStr = E.reprStr) (hm : 0 < E.S.merge) (name : Str) (v : Val) (imports : Bool)
    (hn : nameOk E.U name = true) (ho : Ordinary E.U v) (hv : Steady E.S v) :
    ∃ text, generate E name v imports = .ok text ∧ generate E' name v imports = .ok text := by
  obtain ⟨text, h⟩ := generation_total_partial E hE hm name v imports hn ho
  exact ⟨text, h, (deterministic_partial hE hE' hU hS hB hR name v imports hv text).mp h⟩

/-- **C26** is also false without dictionaries: so do the aliases of different nested lists. -/
theorem deterministic_fails_nested : ¬ (generate (exEnv {}) py!"X"
      (.seq .list .list [.seq .list .list [.seq .list .list [.inst .int none]], .seq .list .list [.seq .list .list [.inst .str none]]]) false =
    generate (revEnv {}) py!"X"
      (.seq .list .list [.seq .list .list [.seq .list .list [.inst .int none]], .seq .list .list [.seq .list .list [.inst .str none]]]) false) := by
  decide +kernel

/-- `{"a": [...], "b": (1, {"c": 2})}` -/
def steadyRecord (es : List Val) : Val :=
  .map .dict .dict [.str py!"a", .str py!"b"] [.seq .list .list es,
    .seq .tuple .tuple [.inst .int none, .map .dict .dict [.str py!"c"] [.inst .int none]]]

/-- Two dictionaries that are alike, with lists of different length, and sequences that are described in place. -/
def sampleSteady : Val :=
  .seq .list .list [steadyRecord [.inst .int none, .inst .str none], .seq .list .list [.inst .float none, .inst .bool none],
    steadyRecord [.inst .str none, .inst .int none, .inst .int none], .seq .set .set [.inst .int none]]

theorem steadyRecord_like {es es' : List Val}
    (h1 : ∀ e ∈ limit 500 es, ∃ e' ∈ limit 500 es', ∃ t x y, e = .inst t x ∧ e' = .inst t y)
    (h2 : ∀ e' ∈ limit 500 es', ∃ e ∈ limit 500 es, ∃ t x y, e = .inst t x ∧ e' = .inst t y) : Like {} (steadyRecord es) (steadyRecord es') := by
  refine .map rfl ?_
  have hc : Like {} (.map .dict .dict [.str py!"c"] [.inst .int none]) (.map .dict .dict [.str py!"c"] [.inst .int none]) :=
    .map rfl (by simp; exact .inst)
  simp only [List.zip_cons_cons, List.zip_nil_right, List.mem_cons, List.not_mem_nil, or_false, forall_eq_or_imp, forall_eq]
  refine ⟨.seq (fun a b => ∃ t x y, a = .inst t x ∧ b = .inst t y) (by simp) ?_ h1 h2, .tuple rfl rfl ?_⟩
  · rintro a b ⟨t, x, y, rfl, rfl⟩
    exact .inst
  · simp only [List.zip_cons_cons, List.zip_nil_right, List.mem_cons, List.not_mem_nil, or_false, forall_eq_or_imp, forall_eq]
    exact ⟨.inst, hc⟩

theorem steadyRecord_uniform {es : List Val} (h : ∀ e ∈ es, ∃ t x, e = .inst t x) : Uniform {} (steadyRecord es) := by
  refine ⟨trivial, ⟨by simp, everyList_iff.mpr ?_⟩, ⟨?_, ?_⟩, trivial⟩
  · intro e he
    obtain ⟨t, x, rfl⟩ := h e he
    trivial
  · intro _ e he e' he' hr hr'
    simp [limit] at he he'
    rcases he with rfl | rfl
    · cases hr
    · rcases he' with rfl | rfl
      · cases hr'
      · exact .map rfl (by simp; exact .inst)
  · exact ⟨trivial, ⟨trivial, trivial, trivial⟩, trivial⟩

theorem steadyRecord_steady {es : List Val} (h : ∀ e ∈ es, ∃ t x, e = .inst t x) : Steady {} (steadyRecord es) := by
  refine ⟨⟨by decide, rfl⟩, ⟨?_, everyList_iff.mpr ?_⟩, ⟨by simp, ?_⟩, trivial⟩
  · intro _ e he e' _
    obtain ⟨t, x, rfl⟩ := h e (limit_subset he)
    exact .inl (by simp [Inline])
  · intro e he
    obtain ⟨t, x, rfl⟩ := h e he
    trivial
  · exact ⟨trivial, ⟨⟨by decide, rfl⟩, trivial, trivial⟩, trivial⟩

theorem sampleSteady_ok : Steady {} sampleSteady := by
  have i1 : ∀ e ∈ [Val.inst .int none, Val.inst .str none], ∃ t x, e = Val.inst t x := by simp
  have i2 : ∀ e ∈ [Val.inst .str none, Val.inst .int none, Val.inst .int none], ∃ t x, e = Val.inst t x := by simp
  refine ⟨?_, steadyRecord_steady i1, ⟨?_, trivial, trivial, trivial⟩, steadyRecord_steady i2, ⟨?_, trivial, trivial⟩, trivial⟩
  · intro _ e he e' he'
    have u1 := steadyRecord_uniform i1
    have u2 := steadyRecord_uniform i2
    have n1 : Inline {} 1 (.seq .list .list [.inst .float none, .inst .bool none]) := by simp [Inline, InlineAll]
    have n2 : Inline {} 1 (.seq .set .set [.inst .int none]) := by simp [Inline, InlineAll]
    simp [limit] at he he'
    rcases he with rfl | rfl | rfl | rfl
    · rcases he' with rfl | rfl | rfl | rfl
      · exact .inr (.inr ⟨steadyRecord_like (by simp [limit]) (by simp [limit]), u1, u1⟩)
      · exact .inr (.inl n1)
      · exact .inr (.inr ⟨steadyRecord_like (by simp [limit]) (by simp [limit]), u1, u2⟩)
      · exact .inr (.inl n2)
    · exact .inl n1
    · rcases he' with rfl | rfl | rfl | rfl
      · exact .inr (.inr ⟨steadyRecord_like (by simp [limit]) (by simp [limit]), u2, u1⟩)
      · exact .inr (.inl n1)
      · exact .inr (.inr ⟨steadyRecord_like (by simp [limit]) (by simp [limit]), u2, u2⟩)
      · exact .inr (.inl n2)
    · exact .inl n2
  · intro _ e he e' _
    simp [limit] at he
    rcases he with rfl | rfl <;> exact .inl (by simp [Inline])
  · intro _ e he e' _
    simp [limit] at he
    rcases he with rfl
    exact .inl (by simp [Inline])

/-- The hypotheses of the theorems hold for the sample, and what is printed under one of the orders. -/
example : Steady (exEnv {}).S sampleSteady ∧ declsOf (exEnv {}) py!"X" sampleSteady =
    [py!"class XDictBDict(TypedDict):\n    c: int", py!"XDictB: TypeAlias = Tuple[int, XDictBDict]",
      py!"class XDict(TypedDict):\n    a: List[Union[int, str]]\n    b: XDictB",
      py!"X: TypeAlias = List[Union[List[Union[bool, float]], Set[int], XDict]]"] := ⟨sampleSteady_ok, by decide +kernel⟩
example : ∃ text, generate (exEnv {}) py!"X" sampleSteady true = .ok text ∧ generate (revEnv {}) py!"X" sampleSteady true = .ok text :=
  deterministic_ordinary_partial (exEnv_fair _) (revEnv_fair _) rfl rfl rfl rfl (by decide) _ _ _ (by decide)
    (plain_regular (by decide +kernel)).1 sampleSteady_ok

end Verif.Props
