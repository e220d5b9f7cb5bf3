import Verif.Lemmas.Settings
import Verif.Props.ClassName
/-
C95: what the settings change about a hint.
-/
namespace Verif.Props
open Verif Verif.Spec

/-- **C95**: settings that agree on the structure accept and refuse the same data, for every class name and for data of every form,
and build the same tree. -/
theorem settings_same_trees {E : Env} {T : Strategies} (h : SameStructure E.S T) (name : Str) (v : Val) :
    fromData { E with S := T } name v = fromData E name v := fromData_same h name v

/-- More general containers give hints that admit at least as much, and no other setting that leaves the structure alone changes which
values are admitted, for data with the property `P`. -/
def SettingsMean (E : Env) (P : Strategies → Str → Val → Prop) : Prop :=
  ∀ T name v Γ Δ w, SameStructure E.S T → AsGeneral E.S T → P E.S name v → P T name v → Hint E name v Γ → Hint { E with S := T } name v Δ →
    Admits Γ (.name name) w → Admits Δ (.name name) w

/-- **C95** (partial). With `Sequence` instead of `List` and `Mapping` instead of `Dict` the hint of well-behaved data admits at least
what it admitted. Missing: other data. -/
theorem settings_general_partial {E : Env} (hE : E.Fair) (hA : E.isBuiltin py!"Any" = false) (hm : 0 < E.S.merge) :
    SettingsMean E WellBehaved := by
  intro T name v Γ Δ w hs hg h h' hΓ hΔ hw
  obtain ⟨n, a, hn⟩ := hint_means hE hA hm h hΓ
  obtain ⟨n', a', hn'⟩ := hint_means (E := { E with S := T }) ⟨hE.order, hE.repr⟩ hA (hs.merge ▸ hm) h' hΔ
  rw [settings_same_trees hs, a] at a'
  cases a'
  exact (hn' w).mpr (means_wider hs hg ((hn w).mp hw))

/-- **C95** (partial). The height from which on names are declared, read-only fields, the key for documentation and the way in which
columns are described do not change which values the hint of well-behaved data admits. Missing: other data. -/
theorem settings_equal_partial {E : Env} (hE : E.Fair) (hA : E.isBuiltin py!"Any" = false) (hm : 0 < E.S.merge) {T : Strategies}
    (hs : SameStructure E.S T) (hl : E.S.list = T.list) (hd : E.S.dict = T.dict) {name : Str} {v : Val} (h : WellBehaved E.S name v)
    (h' : WellBehaved T name v) {Γ Δ : List TDecl} (hΓ : Hint E name v Γ) (hΔ : Hint { E with S := T } name v Δ) (w : Val) :
    Admits Γ (.name name) w ↔ Admits Δ (.name name) w := by
  constructor
  · exact settings_general_partial hE hA hm T name v Γ Δ w hs ⟨fun e => hl ▸ e, fun e => hd ▸ e⟩ h h' hΓ hΔ
  · exact settings_general_partial (E := { E with S := T }) ⟨hE.order, hE.repr⟩ hA (hs.merge ▸ hm) E.S name v Δ Γ w
      ⟨hs.typed.symm, hs.tuple.symm, hs.columns.symm, hs.merge.symm, hs.checkMax.symm⟩ ⟨fun e => hl ▸ e, fun e => hd ▸ e⟩ h' h hΔ hΓ

/-- **C95** (partial). The hint of a tuple of values that are no collections admits at least as much if tuples are not described place
by place. Missing: tuples of collections, and tuples inside other data. -/
theorem tuples_general_partial {E : Env} (hE : E.Fair) (hA : E.isBuiltin py!"Any" = false) (hm : 0 < E.S.merge) (hS : E.S.tuple = .fixed)
    {name : Str} {t : Ty} {es : List Val} (hl : ∀ e ∈ es, ∃ ty, leafType e = some ty) (hne : es ≠ [])
    (h : WellBehaved E.S name (.seq .tuple t es)) (h' : WellBehaved { E.S with tuple := .anySize } name (.seq .tuple t es))
    {Γ Δ : List TDecl} (hΓ : Hint E name (.seq .tuple t es) Γ) (hΔ : Hint { E with S := { E.S with tuple := .anySize } } name (.seq .tuple t es) Δ)
    {w : Val} (hw : Admits Γ (.name name) w) : Admits Δ (.name name) w := by
  obtain ⟨k', t', es', rfl, hk, _⟩ := only_like_sequences_partial hE hA hm h hΓ hw
  obtain rfl : k' = .tuple := by
    rcases hk with hk | ⟨hk, _⟩
    · exact hk
    · cases hk
  obtain ⟨_, _, _, e, hx, _⟩ := only_like_elements_partial hE hA hm h hl hne hΓ hw
  cases e
  have hE' : Env.Fair { E with S := { E.S with tuple := .anySize } } := ⟨hE.order, hE.repr⟩
  obtain ⟨n, a, hn⟩ := hint_means (E := { E with S := { E.S with tuple := .anySize } }) hE' hA hm h' hΔ
  obtain ⟨g, _⟩ := coherent_tree hE' hm h'.camel h'.coherent h'.neat h'.fresh a
  rw [hn]
  have hh := g.holds _ (covers_refl _ h'.coherent)
  cases hh with
  | leaf h => exact h.elim
  | tuple _ e => cases e
  | seq R hk hp hR hc =>
    refine .seq (Means { E.S with tuple := .anySize }) hk hp (.inl rfl) (fun _ _ h => h) ?_
    intro e' he'
    obtain ⟨e, he, ty, e1, e2⟩ := hx e' he'
    obtain ⟨m, hm, hr⟩ := hc e he
    exact ⟨m, hm, holds_leaf_means (hR _ _ hr) e1 e2⟩

/-- `(1, "x")`. -/
def intStr : Val := .seq .tuple .tuple [.inst .int none, .inst .str none]

theorem intStr_fixed : WellBehaved {} py!"X" intStr := wellBehavedB_sound (f := 10) (by decide +kernel)
theorem intStr_any : WellBehaved { tuple := .anySize } py!"X" intStr := wellBehavedB_sound (f := 10) (by decide +kernel)

/-- The hint that describes it place by place admits `(2, "y")`, and so does the other one, which admits `("x", 1)` as well. -/
example : ∃ Γ Δ, Hint (exEnv {}) py!"X" intStr Γ ∧ Hint (exEnv { tuple := .anySize }) py!"X" intStr Δ ∧
    (∀ w, Admits Γ (.name py!"X") w → Admits Δ (.name py!"X") w) ∧
    ∃ w, Admits Δ (.name py!"X") w ∧ ¬ Admits Γ (.name py!"X") w := by
  obtain ⟨Γ, h1, h2⟩ := rejects_spec (E := exEnv {}) (name := py!"X") (v := intStr)
    (w := .seq .tuple .tuple [.inst .str none, .inst .int none]) (by decide +kernel)
  obtain ⟨Δ, h3, h4⟩ := accepts_spec (E := exEnv { tuple := .anySize }) (name := py!"X") (v := intStr)
    (w := .seq .tuple .tuple [.inst .str none, .inst .int none]) (by decide +kernel)
  exact ⟨Γ, Δ, h1, h3, fun w => tuples_general_partial (E := exEnv {}) (exEnv_fair {}) (by decide +kernel) (by decide) rfl
    (by simp [leafType]) (by simp) intStr_fixed intStr_any h1 h3, _, h4, h2⟩

/-! ### Data for which the claim is false -/

/-- `{"a_b": [1], "aB": ["x"]}`: the lists get the same name. -/
def twiceNamed : Val := dictOf [(py!"a_b", .seq .list .list [.inst .int none]), (py!"aB", .seq .list .list [.inst .str none])]

example : declsOf (exEnv { minHeight := 0 }) py!"X" twiceNamed =
      [py!"XAB: TypeAlias = List[int]", py!"XAB: TypeAlias = List[str]",
        recordText py!"X" false none [⟨py!"a_b", py!"XAB", none⟩, ⟨py!"aB", py!"XAB", none⟩]] ∧
    declsOf (exEnv {}) py!"X" twiceNamed = [recordText py!"X" false none [⟨py!"a_b", py!"List[int]", none⟩, ⟨py!"aB", py!"List[str]", none⟩]] := by
  decide +kernel

/-- **C95** is false as stated for data whose parts get the same name: the height from which on names are declared then decides whether
a hint admits the data. -/
theorem settings_mean_fails : ¬ SettingsMean (exEnv {}) (fun _ _ _ => True) := by
  intro h
  obtain ⟨Γ, h1, h2⟩ := accepts_spec (E := exEnv {}) (name := py!"X") (v := twiceNamed) (w := twiceNamed) (by decide +kernel)
  obtain ⟨Δ, h3, h4⟩ := rejects_spec (E := exEnv { minHeight := 0 }) (name := py!"X") (v := twiceNamed) (w := twiceNamed) (by decide +kernel)
  exact h4 (h { minHeight := 0 } _ _ _ _ _ ⟨.rfl, rfl, .rfl, rfl, rfl⟩ ⟨id, id⟩ trivial trivial h1 h3 h2)

/-! ### A setting that is not more general -/

/-- `[{"a": 1, "b": "x"}, {"a": 1, "c": 1.5}]`. -/
def twoRecords : Val := .seq .list .list [dictOf [(py!"a", .inst .int none), (py!"b", .inst .str none)],
  dictOf [(py!"a", .inst .int none), (py!"c", .inst .float none)]]

/-- `[{"a": 1, "b": "x", "c": 1.5}]`. -/
def oneRecord : Val := .seq .list .list [dictOf [(py!"a", .inst .int none), (py!"b", .inst .str none), (py!"c", .inst .float none)]]

/-- `Dict` is not more general than TypedDict: a merged TypedDict admits a dictionary that no alternative of the other hint admits. -/
theorem typed_dict_general_fails : ∃ (T : Strategies) (v w : Val) (Γ Δ : List TDecl), T.dict = .dict ∧
    Hint (exEnv { merge := 30 }) py!"X" v Γ ∧ Admits Γ (.name py!"X") w ∧ Hint (exEnv T) py!"X" v Δ ∧ ¬ Admits Δ (.name py!"X") w := by
  obtain ⟨Γ, h1, h2⟩ := accepts_spec (E := exEnv { merge := 30 }) (name := py!"X") (v := twoRecords) (w := oneRecord) (by decide +kernel)
  obtain ⟨Δ, h3, h4⟩ := rejects_spec (E := exEnv { merge := 30, dict := .dict }) (name := py!"X") (v := twoRecords) (w := oneRecord)
    (by decide +kernel)
  exact ⟨{ merge := 30, dict := .dict }, twoRecords, oneRecord, Γ, Δ, rfl, h1, h2, h3, h4⟩

/-! ### Data that meets the hypotheses -/

/-- Settings that differ in everything that leaves the structure alone. -/
def otherSettings : Strategies := { list := .sequence, minHeight := 0, keyDoc := py!"about", readOnly := true, pandas := .autocomplete }

theorem otherSettings_same : SameStructure {} otherSettings := ⟨.rfl, rfl, by decide, rfl, rfl⟩

theorem sampleMixed_settings : WellBehaved otherSettings py!"Config" sampleMixed := wellBehavedB_sound (f := 10) (by decide +kernel)

example : ∃ Γ Δ, Hint (exEnv {}) py!"Config" sampleMixed Γ ∧ Hint (exEnv otherSettings) py!"Config" sampleMixed Δ ∧
    ∀ w, Admits Γ (.name py!"Config") w → Admits Δ (.name py!"Config") w := by
  obtain ⟨Γ, h, _⟩ := hint_sound_clear_partial (exEnv_fair {}) (by decide) sampleMixed_ok
  obtain ⟨Δ, h', _⟩ := hint_sound_clear_partial (exEnv_fair otherSettings) (by decide) sampleMixed_settings
  exact ⟨Γ, Δ, h, h', fun w => settings_general_partial (exEnv_fair {}) (by decide +kernel) (by decide) _ _ _ _ _ w otherSettings_same
    ⟨by decide, by decide⟩ sampleMixed_ok sampleMixed_settings h h'⟩

theorem sampleMixed_flat : WellBehaved { minHeight := 5, readOnly := true } py!"Config" sampleMixed :=
  wellBehavedB_sound (f := 10) (by decide +kernel)

example : ∃ Γ Δ, Hint (exEnv {}) py!"Config" sampleMixed Γ ∧ Hint (exEnv { minHeight := 5, readOnly := true }) py!"Config" sampleMixed Δ ∧
    ∀ w, Admits Γ (.name py!"Config") w ↔ Admits Δ (.name py!"Config") w := by
  obtain ⟨Γ, h, _⟩ := hint_sound_clear_partial (exEnv_fair {}) (by decide) sampleMixed_ok
  obtain ⟨Δ, h', _⟩ := hint_sound_clear_partial (exEnv_fair { minHeight := 5, readOnly := true }) (by decide) sampleMixed_flat
  exact ⟨Γ, Δ, h, h', settings_equal_partial (exEnv_fair {}) (by decide +kernel) (by decide) (T := { minHeight := 5, readOnly := true }) ⟨.rfl, rfl, .rfl, rfl, rfl⟩
    rfl rfl sampleMixed_ok sampleMixed_flat h h'⟩

/-- Texts under the two settings. -/
example : declsOf (exEnv {}) py!"X" (dictOf [(py!"a", .seq .list .list [.inst .int none])]) =
      [recordText py!"X" false none [⟨py!"a", py!"List[int]", none⟩]] ∧
    declsOf (exEnv otherSettings) py!"X" (dictOf [(py!"a", .seq .list .list [.inst .int none])]) =
      [py!"XA: TypeAlias = Sequence[int]", recordText py!"X" false none [⟨py!"a", py!"ReadOnly[XA]", none⟩]] := by decide +kernel

end Verif.Props
