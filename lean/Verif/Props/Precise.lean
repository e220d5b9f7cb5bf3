import Verif.Props.Coherent
import Verif.Lemmas.Matches
import Verif.Lemmas.MeansAdmits
/-
C90: hints admit only values that have the shape of the value they were generated from.
-/
namespace Verif.Props
open Verif Verif.Spec

/-- What **C90** says of data with the property `P`: whatever the hint of a value admits has the shape of this value. -/
def HintPrecise (E : Env) (P : Str → Val → Prop) : Prop :=
  ∀ name v Γ w, P name v → Hint E name v Γ → Admits Γ (.name name) w → Matches E.S v w

/-- **C90** (partial). The generated text of coherent data can be read, and if it declares no name twice, the type of the
requested name admits only values that have the shape of the value it was generated from. Missing: data that is not coherent. -/
theorem hint_precise_partial {E : Env} (hE : E.Fair) (hA : E.isBuiltin py!"Any" = false) (hm : 0 < E.S.merge) {name : Str} {v : Val}
    (hc : CamelName name) (ht : Coherent E.S v) (hn : Neat v) (hf : Fresh name v) {n : Node} (hb : fromData E name v = .ok n) :
    ∃ strs Γ, nodeStrings E n false = .ok strs ∧ readText strs = some Γ ∧
      ((Γ.map (·.name)).Nodup → ∀ w, Admits Γ (.name name) w → Matches E.S v w) := by
  obtain ⟨g, h1, h2, h3, h4⟩ := coherent_tree hE hm hc ht hn hf hb
  exact ⟨_, _, h4, (root_texts hE g.trim h1 h2).1, fun hnd w hw =>
    g.exact (coherent_at ht) (root_means hE hA g.trim h1 h2 h3 hf.1 hnd hw)⟩

theorem hint_unique {E : Env} {name : Str} {v : Val} {Γ Γ' : List TDecl} (h : Hint E name v Γ) (h' : Hint E name v Γ') : Γ = Γ' := by
  obtain ⟨n, s, a, b, c⟩ := h
  obtain ⟨n', s', a', b', c'⟩ := h'
  rw [a] at a'; cases a'
  rw [b] at b'; cases b'
  rw [c] at c'; cases c'
  rfl

/-- **C90** (partial). Well-behaved data gets a hint, which admits the value it was generated from and every value that it
covers, and nothing that has another shape. -/
theorem hint_precise_clear_partial {E : Env} (hE : E.Fair) (hA : E.isBuiltin py!"Any" = false) (hm : 0 < E.S.merge) {name : Str} {v : Val}
    (h : WellBehaved E.S name v) :
    ∃ Γ, Hint E name v Γ ∧ (∀ w, Covers E.S v w → Admits Γ (.name name) w) ∧ ∀ w, Admits Γ (.name name) w → Matches E.S v w := by
  obtain ⟨Γ, h1, h2, _, h4⟩ := hint_sound_clear_partial hE hm h
  obtain ⟨n, strs, a, b, c⟩ := h1
  obtain ⟨strs', Γ', b', c', h5⟩ := hint_precise_partial hE hA hm h.camel h.coherent h.neat h.fresh a
  rw [b] at b'; cases b'
  rw [c] at c'; cases c'
  exact ⟨Γ, ⟨n, strs, a, b, c⟩, h4, h5 h2⟩

theorem well_behaved_precise_partial {E : Env} (hE : E.Fair) (hA : E.isBuiltin py!"Any" = false) (hm : 0 < E.S.merge) :
    HintPrecise E (WellBehaved E.S) := by
  intro name v Γ w h hΓ hw
  obtain ⟨Γ', h1, _, h3⟩ := hint_precise_clear_partial hE hA hm h
  cases hint_unique hΓ h1
  exact h3 w hw

/-! ### What this rules out -/

/-- **C90** (partial). The hint of a well-behaved sequence admits only sequences of the same kind, except that `Sequence` admits
tuples, and for a tuple with a fixed number of elements only tuples of this length. -/
theorem only_like_sequences_partial {E : Env} (hE : E.Fair) (hA : E.isBuiltin py!"Any" = false) (hm : 0 < E.S.merge) {name : Str}
    {k : SeqKind} {t : Ty} {es : List Val} (h : WellBehaved E.S name (.seq k t es)) {Γ : List TDecl}
    (hΓ : Hint E name (.seq k t es) Γ) {w : Val} (hw : Admits Γ (.name name) w) :
    ∃ k' t' es', w = .seq k' t' es' ∧ SeqLike E.S k k' ∧ (Placed E.S k → es ≠ [] → es.length = es'.length) :=
  matches_seq (well_behaved_precise_partial hE hA hm _ _ _ _ h hΓ hw) rfl

/-- **C90** (partial). The hint of a well-behaved sequence of values that are no collections admits only sequences of values that belong
to the types of some of its elements: for a tuple with a fixed number of elements, to the types of the elements at the same places. -/
theorem only_like_elements_partial {E : Env} (hE : E.Fair) (hA : E.isBuiltin py!"Any" = false) (hm : 0 < E.S.merge) {name : Str}
    {k : SeqKind} {t : Ty} {es : List Val} (h : WellBehaved E.S name (.seq k t es)) (hl : ∀ e ∈ es, ∃ ty, leafType e = some ty)
    (hne : es ≠ []) {Γ : List TDecl} (hΓ : Hint E name (.seq k t es) Γ) {w : Val} (hw : Admits Γ (.name name) w) :
    ∃ k' t' es', w = .seq k' t' es' ∧ (∀ e' ∈ es', ∃ e ∈ es, ∃ ty, leafType e = some ty ∧ Admits [] ty e') ∧
      (Placed E.S k → ∀ p ∈ es.zip es', ∃ ty, leafType p.1 = some ty ∧ Admits [] ty p.2) :=
  matches_elements (well_behaved_precise_partial hE hA hm _ _ _ _ h hΓ hw) rfl hl hne

/-- **C90** (partial). If two of the dictionaries in a well-behaved sequence of dictionaries differ too much to be merged, the hint
admits only sequences of dictionaries that have exactly the keys of one of them. -/
theorem only_like_rows_partial {E : Env} (hE : E.Fair) (hA : E.isBuiltin py!"Any" = false) (hm : 0 < E.S.merge) {name : Str}
    {k : SeqKind} {t : Ty} {es : List Val} (h : WellBehaved E.S name (.seq k t es)) (hk : ¬ Placed E.S k) (hl : ∀ e ∈ es, Filled E.S e)
    (hd : ∃ a ∈ es, ∃ b ∈ es, Dissimilar E.S a b) {Γ : List TDecl} (hΓ : Hint E name (.seq k t es) Γ) {w : Val}
    (hw : Admits Γ (.name name) w) :
    ∃ k' t' es', w = .seq k' t' es' ∧
      ∀ e' ∈ es', ∃ e ∈ es, ∃ t ks vs, e' = .map .dict t ks vs ∧ ∀ x, x ∈ e.items.map (·.1) ↔ x ∈ ks := by
  have hrow : ∀ e ∈ es, Row E.S e ∧ mapKeys e = e.items.map (·.1) := by
    intro e he
    have hc := (everyList_iff.mp h.coherent.2 e he)
    have hf := hl e he
    obtain ⟨t, ks, vs, rfl, _, _⟩ := record_dict hf.1
    have hlen := (coherent_at hc).2.2.2.1
    refine ⟨⟨_, _, _, rfl, hf.1, ?_, hlen⟩, ?_⟩
    · rintro rfl
      exact hf.2 rfl
    · exact (List.map_fst_zip (show ks.length ≤ vs.length by omega)).symm
  obtain ⟨k', t', es', e, hx⟩ := matches_rows (well_behaved_precise_partial hE hA hm _ _ _ _ h hΓ hw) rfl hk (fun e he => (hrow e he).1) hd
  refine ⟨k', t', es', e, fun e' he' => ?_⟩
  obtain ⟨e, he, t, ks, vs, e1, e2⟩ := hx e' he'
  exact ⟨e, he, t, ks, vs, e1, (hrow e he).2 ▸ e2⟩

/-- **C90** (partial). The hint of a well-behaved dictionary that gets a TypedDict admits only dictionaries with the same keys. -/
theorem only_like_records_partial {E : Env} (hE : E.Fair) (hA : E.isBuiltin py!"Any" = false) (hm : 0 < E.S.merge) {name : Str}
    {t : Ty} {ks : List Key} {vs : List Val} (h : WellBehaved E.S name (.map .dict t ks vs)) (hr : IsRecord E.S (.map .dict t ks vs))
    {Γ : List TDecl} (hΓ : Hint E name (.map .dict t ks vs) Γ) {w : Val} (hw : Admits Γ (.name name) w) :
    ∃ t' ks' vs', w = .map .dict t' ks' vs' ∧ ∀ x, x ∈ ks ↔ x ∈ ks' := by
  obtain ⟨t', ks', vs', e, hk, _⟩ := matches_record (well_behaved_precise_partial hE hA hm _ _ _ _ h hΓ hw) rfl hr
  exact ⟨t', ks', vs', e, hk⟩

/-- **C90** (partial). The hint of any other well-behaved mapping admits only mappings: of the same kind, except that
`Mapping` admits mapping proxies. -/
theorem only_like_mappings_partial {E : Env} (hE : E.Fair) (hA : E.isBuiltin py!"Any" = false) (hm : 0 < E.S.merge) {name : Str}
    {k : MapKind} {t : Ty} {ks : List Key} {vs : List Val} (h : WellBehaved E.S name (.map k t ks vs)) (hk : Lookup k)
    {Γ : List TDecl} (hΓ : Hint E name (.map k t ks vs) Γ) {w : Val} (hw : Admits Γ (.name name) w) :
    ∃ k' t' ks' vs', w = .map k' t' ks' vs' ∧ MapLike E.S k k' :=
  matches_map (well_behaved_precise_partial hE hA hm _ _ _ _ h hΓ hw) rfl hk

/-- **C90** (partial). The hint of a well-behaved data frame with columns admits only data frames with the same columns. -/
theorem only_like_frames_partial {E : Env} (hE : E.Fair) (hA : E.isBuiltin py!"Any" = false) (hm : 0 < E.S.merge) {name : Str}
    {i : FrameInfo} {t : Ty} {ks : List Key} {vs : List Val} (h : WellBehaved E.S name (.map (.frame i) t ks vs)) (hne : ks ≠ [])
    {Γ : List TDecl} (hΓ : Hint E name (.map (.frame i) t ks vs) Γ) {w : Val} (hw : Admits Γ (.name name) w) :
    ∃ i' t' ks' vs', w = .map (.frame i') t' ks' vs' ∧ ∀ x, x ∈ ks ↔ x ∈ ks' :=
  matches_frame (well_behaved_precise_partial hE hA hm _ _ _ _ h hΓ hw) rfl hne

/-- **C90** (partial). The hint of a well-behaved value that is no collection admits only values of its type. -/
theorem only_like_leaves_partial {E : Env} (hE : E.Fair) (hA : E.isBuiltin py!"Any" = false) (hm : 0 < E.S.merge) {name : Str}
    {v : Val} (h : WellBehaved E.S name v) {t : TExpr} (ht : leafType v = some t)
    {Γ : List TDecl} (hΓ : Hint E name v Γ) {w : Val} (hw : Admits Γ (.name name) w) : Admits [] t w :=
  matches_leaf (well_behaved_precise_partial hE hA hm _ _ _ _ h hΓ hw) ht

/-! ### Data for which the claim is false -/

/-- The hint of `v` can be read and admits `w`. -/
def accepts (E : Env) (name : Str) (v w : Val) : Bool :=
  match fromData E name v with
  | .ok n => match nodeStrings E n false with
    | .ok strs => match readText strs with
      | some Γ => check false Γ 20 (.name name) w
      | none => false
    | .error _ => false
  | .error _ => false

theorem accepts_spec {E : Env} {name : Str} {v w : Val} (h : accepts E name v w = true) :
    ∃ Γ, Hint E name v Γ ∧ Admits Γ (.name name) w := by
  unfold accepts at h
  split at h
  · rename_i n hn
    split at h
    · rename_i strs hs
      split at h
      · rename_i Γ hΓ
        exact ⟨Γ, ⟨n, strs, hn, hs, hΓ⟩, check_sound h⟩
      · cases h
    · cases h
  · cases h

/-- `{"a": {1}, "b": frozenset({1})}`: sets and frozen sets are described alike when they stand in one dictionary. -/
def setAndFrozen : Val := dictOf [(py!"a", .seq .set .set [.inst .int none]), (py!"b", .seq .frozenset .frozenset [.inst .int none])]

/-- `{"a": {1}, "b": {1}}`. -/
def twoSets : Val := dictOf [(py!"a", .seq .set .set [.inst .int none]), (py!"b", .seq .set .set [.inst .int none])]

example : declsOf (exEnv {}) py!"X" setAndFrozen =
    [recordText py!"X" false none [⟨py!"a", py!"Set[int]", none⟩, ⟨py!"b", py!"Set[int]", none⟩]] := by decide +kernel

/-- **C90** is false as stated: the hint of `setAndFrozen` admits a set where the value has a frozen set. -/
theorem hint_precise_fails : ¬ HintPrecise (exEnv {}) (fun _ _ => True) := by
  intro h
  obtain ⟨Γ, h1, h2⟩ := accepts_spec (E := exEnv {}) (name := py!"X") (v := setAndFrozen) (w := twoSets) (by decide +kernel)
  obtain ⟨_, _, _, e, _, hz⟩ := matches_record (h _ _ _ _ trivial h1 h2) rfl (by decide +kernel)
  cases e
  obtain ⟨x, hx, hs⟩ := hz (.str py!"b", .seq .set .set [.inst .int none]) (by simp)
  have hx : x = .seq .frozenset .frozenset [.inst .int none] := by simpa using hx
  obtain ⟨_, _, _, e, hl⟩ := hs _ _ _ hx
  cases e
  rcases hl with hl | ⟨hl, _⟩ <;> cases hl

/-! ### Values that meet the hypotheses -/

example : ∃ Γ, Hint (exEnv {}) py!"Config" sampleMixed Γ ∧ ∀ w, Admits Γ (.name py!"Config") w → Matches {} sampleMixed w := by
  obtain ⟨Γ, h, _, h'⟩ := hint_precise_clear_partial (exEnv_fair {}) (by decide +kernel) (by decide) sampleMixed_ok
  exact ⟨Γ, h, h'⟩

example : ∃ Γ, Hint (exEnv {}) py!"Config" sampleTables Γ ∧ ∀ w, Admits Γ (.name py!"Config") w → Matches {} sampleTables w := by
  obtain ⟨Γ, h, _, h'⟩ := hint_precise_clear_partial (exEnv_fair {}) (by decide +kernel) (by decide) sampleTables_ok
  exact ⟨Γ, h, h'⟩

example : ∃ n, fromData (exEnv {}) py!"Config" sampleObjects = .ok n ∧ ∃ strs Γ, nodeStrings (exEnv {}) n false = .ok strs ∧
    readText strs = some Γ ∧ ((Γ.map (·.name)).Nodup → ∀ w, Admits Γ (.name py!"Config") w → Matches {} sampleObjects w) := by
  have h := sampleObjects_ok
  obtain ⟨_, ⟨n, _, hb, _⟩, _⟩ := hint_sound_clear_partial (exEnv_fair {}) (by decide) h
  exact ⟨n, hb, hint_precise_partial (exEnv_fair {}) (by decide +kernel) (by decide) h.camel h.coherent h.neat h.fresh hb⟩

/-- `({"a": 1}, [True])`. -/
def samplePair : Val := .seq .tuple .tuple [dictOf [(py!"a", .inst .int none)], .seq .list .list [.inst .bool none]]

theorem samplePair_ok : WellBehaved {} py!"Config" samplePair := wellBehavedB_sound (f := 10) (by decide +kernel)

/-- No list and no triple. -/
example : ∃ Γ, Hint (exEnv {}) py!"Config" samplePair Γ ∧ (∀ t es, ¬ Admits Γ (.name py!"Config") (.seq .list t es)) ∧
    ∀ t a b c, ¬ Admits Γ (.name py!"Config") (.seq .tuple t [a, b, c]) := by
  obtain ⟨Γ, h, _⟩ := hint_precise_clear_partial (exEnv_fair {}) (by decide +kernel) (by decide) samplePair_ok
  have key := fun w => only_like_sequences_partial (exEnv_fair {}) (by decide +kernel) (by decide) samplePair_ok h (w := w)
  refine ⟨Γ, h, fun t es hw => ?_, fun t a b c hw => ?_⟩
  · obtain ⟨_, _, _, e, hl, _⟩ := key _ hw
    cases e
    rcases hl with hl | ⟨hl, _⟩ <;> cases hl
  · obtain ⟨_, _, _, e, _, hl⟩ := key _ hw
    cases e
    exact absurd (hl ⟨rfl, rfl⟩ (by simp)) (by simp)

/-- `[1, "x"]`: no floats, no lists, no dictionaries, not even empty ones, among the elements. -/
example : ∃ Γ, Hint (exEnv {}) py!"Config" (.seq .list .list [.inst .int none, .inst .str none]) Γ ∧ ∀ t es e,
    e ∈ [Val.inst .float none, .seq .list .list [], dictOf []] → e ∈ es → ¬ Admits Γ (.name py!"Config") (.seq .list t es) := by
  have ok : WellBehaved {} py!"Config" (.seq .list .list [.inst .int none, .inst .str none]) := wellBehavedB_sound (f := 10) (by decide +kernel)
  obtain ⟨Γ, h, _⟩ := hint_precise_clear_partial (exEnv_fair {}) (by decide +kernel) (by decide) ok
  refine ⟨Γ, h, fun t es e he hes hw => ?_⟩
  obtain ⟨_, _, _, e', hx, _⟩ := only_like_elements_partial (exEnv_fair {}) (by decide +kernel) (by decide) ok (by simp [leafType]) (by simp) h hw
  cases e'
  obtain ⟨x, hx, ty, e1, e2⟩ := hx e hes
  simp only [List.mem_cons, List.not_mem_nil, or_false] at he hx
  rcases hx with rfl | rfl <;> cases e1 <;> rcases he with rfl | rfl | rfl <;> exact not_admits 5 (by decide +kernel) e2

/-- `[{"a": 1}, {"b": "x", "c": 1}]`: no dictionary with the keys `a` and `b`. -/
example : ∃ Γ, Hint (exEnv {}) py!"Config" (.seq .list .list [dictOf [(py!"a", .inst .int none)], dictOf [(py!"b", .inst .str none), (py!"c", .inst .int none)]]) Γ ∧
    ∀ t x y, ¬ Admits Γ (.name py!"Config") (.seq .list t [dictOf [(py!"a", x), (py!"b", y)]]) := by
  have ok : WellBehaved {} py!"Config" (.seq .list .list [dictOf [(py!"a", .inst .int none)], dictOf [(py!"b", .inst .str none), (py!"c", .inst .int none)]]) :=
    wellBehavedB_sound (f := 10) (by decide +kernel)
  obtain ⟨Γ, h, _⟩ := hint_precise_clear_partial (exEnv_fair {}) (by decide +kernel) (by decide) ok
  refine ⟨Γ, h, fun t x y hw => ?_⟩
  obtain ⟨_, _, _, e', hx⟩ := only_like_rows_partial (exEnv_fair {}) (by decide +kernel) (by decide) ok (by simp [Placed])
    (by intro e he; simp only [List.mem_cons, List.not_mem_nil, or_false] at he; rcases he with rfl | rfl <;> exact ⟨by decide +kernel, by simp [dictOf, Val.items]⟩)
    ⟨_, .head _, _, .tail _ (.head _), by unfold Dissimilar; decide +kernel⟩ h hw
  cases e'
  obtain ⟨e, he, _, _, _, e1, e2⟩ := hx _ (.head _)
  cases e1
  simp only [List.mem_cons, List.not_mem_nil, or_false] at he
  rcases he with rfl | rfl
  · exact absurd ((e2 (.str py!"b")).mpr (by simp)) (by simp [dictOf, Val.items])
  · exact absurd ((e2 (.str py!"a")).mpr (by simp)) (by simp [dictOf, Val.items])

/-- `Sequence` admits a tuple, `List` does not. -/
example : accepts (exEnv { list := .sequence }) py!"X" (.seq .list .list [.inst .int none]) (.seq .tuple .tuple [.inst .int none]) = true ∧
    accepts (exEnv {}) py!"X" (.seq .list .list [.inst .int none]) (.seq .tuple .tuple [.inst .int none]) = false := by decide +kernel

/-- No dictionary that lacks a key or has another one. -/
example : ∃ Γ, Hint (exEnv {}) py!"Config" sampleMixed Γ ∧ ∀ d, Admits Γ (.name py!"Config") (dictOf d) →
    ∀ k, k ∈ d.map (·.1) ↔ k ∈ [py!"name", py!"sizes", py!"tags", py!"limits", py!"users"] := by
  obtain ⟨Γ, h, _⟩ := hint_precise_clear_partial (exEnv_fair {}) (by decide +kernel) (by decide) sampleMixed_ok
  refine ⟨Γ, h, fun d hw k => ?_⟩
  obtain ⟨_, _, _, e, hk⟩ := only_like_records_partial (exEnv_fair {}) (by decide +kernel) (by decide) sampleMixed_ok
    (by decide +kernel) h hw
  cases e
  have := hk (.str k)
  simpa [sampleMixed, dictOf] using this.symm

/-- `MappingProxyType({"a": 1})`. -/
def sampleProxy : Val := .map .proxy .mappingproxy [.str py!"a"] [.inst .int none]

theorem sampleProxy_ok : WellBehaved {} py!"Config" sampleProxy := wellBehavedB_sound (f := 10) (by decide +kernel)

/-- No dictionary. -/
example : ∃ Γ, Hint (exEnv {}) py!"Config" sampleProxy Γ ∧ ∀ d, ¬ Admits Γ (.name py!"Config") (dictOf d) := by
  obtain ⟨Γ, h, _⟩ := hint_precise_clear_partial (exEnv_fair {}) (by decide +kernel) (by decide) sampleProxy_ok
  refine ⟨Γ, h, fun d hw => ?_⟩
  obtain ⟨_, _, _, _, e, hl⟩ := only_like_mappings_partial (exEnv_fair {}) (by decide +kernel) (by decide) sampleProxy_ok (.inr rfl) h hw
  cases e
  rcases hl with hl | ⟨hl, _⟩ <;> cases hl

/-- A data frame with two columns. -/
def wideFrame : Val := tableOf py!"a" [(py!"size", columnOf [.int, .int]), (py!"unit", columnOf [.str])]

theorem wideFrame_ok : WellBehaved {} py!"Config" wideFrame := wellBehavedB_sound (f := 10) (by decide +kernel)

/-- No data frame with one column. -/
example : ∃ Γ, Hint (exEnv {}) py!"Config" wideFrame Γ ∧ ∀ s c, ¬ Admits Γ (.name py!"Config") (tableOf s [(py!"size", c)]) := by
  obtain ⟨Γ, h, _⟩ := hint_precise_clear_partial (exEnv_fair {}) (by decide +kernel) (by decide) wideFrame_ok
  refine ⟨Γ, h, fun s c hw => ?_⟩
  obtain ⟨_, _, _, _, e, hk⟩ := only_like_frames_partial (exEnv_fair {}) (by decide +kernel) (by decide) wideFrame_ok (by simp) h hw
  cases e
  exact absurd ((hk (.str py!"unit")).mp (by simp)) (by simp)

/-- The hint of a number admits no text. -/
example : ∃ Γ, Hint (exEnv {}) py!"Config" (.inst .int none) Γ ∧ ¬ Admits Γ (.name py!"Config") (.inst .str none) := by
  have ok : WellBehaved {} py!"Config" (.inst .int none) := wellBehavedB_sound (f := 10) (by decide +kernel)
  obtain ⟨Γ, h, _⟩ := hint_precise_clear_partial (exEnv_fair {}) (by decide +kernel) (by decide) ok
  refine ⟨Γ, h, fun hw => ?_⟩
  have := only_like_leaves_partial (exEnv_fair {}) (by decide +kernel) (by decide) ok rfl h hw
  exact not_admits 5 (by decide +kernel) this

end Verif.Props
