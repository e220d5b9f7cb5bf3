import Verif.Lemmas.Merged
import Verif.Lemmas.Check
import Verif.Props.Merge
import Verif.Props.Scalars
import Verif.Spec.Reader
/-
C21, C31 and C33: the generated text, read back, admits the data it was generated from; which data are told apart.
-/
namespace Verif.Props
open Verif Verif.Spec

/-- The text generated for `v` under the name `name` can be read and declares `Γ`. -/
def Hint (E : Env) (name : Str) (v : Val) (Γ : List TDecl) : Prop :=
  ∃ n strs, fromData E name v = .ok n ∧ nodeStrings E n false = .ok strs ∧ readText strs = some Γ

/-- What **C21** says of values with the property `P`: the declarations in the generated text admit the value. -/
def HintSound (E : Env) (P : Str → Val → Prop) : Prop :=
  ∀ name v Γ, P name v → Hint E name v Γ → Admits Γ (.name name) v

/-- The trees of tame and neat data, and their text. -/
theorem hint_tree {E : Env} (hE : E.Fair) (hm : 0 < E.S.merge) {κ : SeqKind} {name : Str} {v : Val} (hc : CamelName name)
    (ht : Tame E.S κ v) (hn : Neat v) (hf : Fresh name v) {n : Node} (hb : fromData E name v = .ok n) :
    GoodN E.S κ v n ∧ NodeAll (NeatHdr name) n ∧ n.hdr.root = true ∧ n.name = name ∧
    nodeStrings E n false = .ok ((dedupDecls (n.abs E).emitted).map TDecl.print) := by
  obtain ⟨_, h2, _, h4, h5, _⟩ := regular_build hE hm (neat_regular ht hn) hb
  exact ⟨build_good hE _ _ _ _ _ ht h2, neat_build hE hc hn hf h2 (by omega), h4, h5,
    regular_strings hE hm (neat_regular ht hn) hb⟩

/-- **C21** (partial). The generated text can be read, and if it declares no name twice, the type of the requested name
admits the value it was generated from and every value of the same shape. Missing: data in which collections of several
kinds are mixed, dictionaries that share a sequence and have different shapes, hidden or `None` keys, elements beyond the
inspected ones, and the other kinds of values (functions, classes, modules, files, arrays, frames). -/
theorem hint_sound_partial {E : Env} (hE : E.Fair) (hm : 0 < E.S.merge) {κ : SeqKind} {name : Str} {v : Val}
    (hc : CamelName name) (ht : Tame E.S κ v) (hn : Neat v) (hf : Fresh name v) {n : Node} (hb : fromData E name v = .ok n) :
    ∃ strs Γ, nodeStrings E n false = .ok strs ∧ readText strs = some Γ ∧
      ((Γ.map (·.name)).Nodup → Admits Γ (.name name) v ∧ ∀ w, SameShape v w → Admits Γ (.name name) w) := by
  obtain ⟨g, h1, h2, h3, h4⟩ := hint_tree hE hm hc ht hn hf hb
  refine ⟨_, _, h4, (root_texts hE (tidy_trim _ g.tidy) h1 h2).1, fun hnd => ?_⟩
  have key : ∀ w, SameShape v w → Admits (dedupDecls (n.abs E).emitted) (.name name) w := fun w hw =>
    root_admits hE g.tidy h1 h2 h3 hf.1 (g.stands w hw) hnd
  exact ⟨key v (tame_refl v ht), key⟩

/-- The same for `HintSound`. -/
theorem hint_sound_tame_partial {E : Env} (hE : E.Fair) (hm : 0 < E.S.merge) (κ : SeqKind) :
    ∀ name v Γ, CamelName name → Tame E.S κ v → Neat v → Fresh name v → Hint E name v Γ → (Γ.map (·.name)).Nodup →
      Admits Γ (.name name) v := by
  rintro name v Γ hc ht hn hf ⟨n, strs, hb, hs, hr⟩ hnd
  obtain ⟨strs', Γ', h1, h2, h3⟩ := hint_sound_partial hE hm hc ht hn hf hb
  rw [hs] at h1
  cases h1
  rw [hr] at h2
  cases h2
  exact (h3 hnd).1

/-! ### A value that meets the hypotheses -/

/-- `{"host": "a", "ports": [1, None], "users": [{"id": 1}, {"id": 2}]}` -/
def sampleConfig : Val :=
  .map .dict .dict [.str py!"host", .str py!"ports", .str py!"users"]
    [.inst .str none, .seq .list .list [.inst .int none, .inst .noneType none],
     .seq .list .list [.map .dict .dict [.str py!"id"] [.inst .int none], .map .dict .dict [.str py!"id"] [.inst .int none]]]

theorem tame_dict_of {S : Strategies} {κ : SeqKind} {t : Ty} {ks : List Key} {vs : List Val}
    (h : ks ≠ [] ∧ ks.Nodup ∧ ks.length = vs.length ∧ Key.none ∉ ks ∧ (∀ k ∈ ks, k.hidden = false) ∧
      (S.dict = .typedDict ∨ Inspected S ks.length) ∧ (S.keyDoc = [] ∨ Key.str S.keyDoc ∉ ks) ∧ t.name ≠ py!"mappingproxy")
    (hv : ∀ v ∈ vs, Tame S κ v) : Tame S κ (.map .dict t ks vs) := ⟨h, everyList_iff.mpr hv⟩

theorem tame_scalars {S : Strategies} {κ : SeqKind} {t : Ty} {es : List Val} (h : Inspected S es.length) (he : ∀ e ∈ es, Scalar e) :
    Tame S κ (.seq κ t es) := by
  refine ⟨⟨.inl rfl, h, ?_⟩, everyList_iff.mpr ?_⟩
  · intro d hd _ _ hr
    have := he d hd
    cases d <;> simp_all [Scalar, IsRecord]
  · intro e hm
    have := he e hm
    cases e <;> simp_all [Scalar, Every]

theorem sampleUser_tame : Tame {} .list (.map .dict .dict [.str py!"id"] [.inst .int none]) :=
  tame_dict_of (by simp [Strategies.dict]; decide) (by simp [Tame, Every])

theorem sampleConfig_tame : Tame {} .list sampleConfig := by
  refine tame_dict_of ⟨by decide, by decide, by decide, by decide, by decide, .inl rfl, by decide, by decide⟩ ?_
  simp only [List.mem_cons, List.not_mem_nil, or_false, forall_eq_or_imp, forall_eq]
  refine ⟨trivial, tame_scalars (.inr (by decide)) (by simp [Scalar]), ⟨.inl rfl, .inr (by decide), ?_⟩, sampleUser_tame, sampleUser_tame, trivial⟩
  intro d hd e he _ _
  simp only [List.mem_cons, List.not_mem_nil, or_false, or_self] at hd he
  subst hd he
  exact tame_refl _ sampleUser_tame

instance (t : Ty) : Decidable (NeatTy t) := inferInstanceAs (Decidable (_ ∧ _))
instance (k : Key) : Decidable (NeatKey k) :=
  match k with
  | .str s => inferInstanceAs (Decidable (∀ c ∈ s, _))
  | .none => inferInstanceAs (Decidable True)
  | .other _ r => inferInstanceAs (Decidable (_ ∧ ∀ c ∈ r, _))

theorem sampleConfig_neat : Neat sampleConfig ∧ Fresh py!"Config" sampleConfig ∧ CamelName py!"Config" := by
  refine ⟨?_, ⟨by decide, ?_, ?_⟩, 'C', py!"onfig", rfl, by decide, by decide⟩
  · simp only [Neat, sampleConfig, ValAll, ValAllList]
    decide
  · simp only [sampleConfig, ValAll, ValAllList]
    decide
  · simp [sampleConfig, Every, EveryList, FreshClass]

example : declsOf (exEnv {}) py!"Config" sampleConfig =
    [recordText py!"ConfigUsersDict" false none [⟨py!"id", py!"int", none⟩],
     py!"ConfigUsers: TypeAlias = List[ConfigUsersDict]",
     recordText py!"Config" false none [⟨py!"host", py!"str", none⟩, ⟨py!"ports", py!"List[Union[Optional[object], int]]", none⟩,
      ⟨py!"users", py!"ConfigUsers", none⟩]] := by decide +kernel

example : ∃ n strs Γ, fromData (exEnv {}) py!"Config" sampleConfig = .ok n ∧ nodeStrings (exEnv {}) n false = .ok strs ∧
    readText strs = some Γ ∧ (Γ.map (·.name)).Nodup ∧ Admits Γ (.name py!"Config") sampleConfig := by
  have h : (match fromData (exEnv {}) py!"Config" sampleConfig with
      | .ok n => (match nodeStrings (exEnv {}) n false with
        | .ok strs => (match readText strs with
          | some Γ => decide ((Γ.map (·.name)).Nodup)
          | none => false)
        | .error _ => false)
      | .error _ => false) = true := by decide +kernel
  split at h
  · rename_i n hn
    split at h
    · rename_i strs hs
      split at h
      · rename_i Γ hΓ
        obtain ⟨h1, h2, h3⟩ := sampleConfig_neat
        exact ⟨n, strs, Γ, hn, hs, hΓ, of_decide_eq_true h,
          hint_sound_tame_partial (exEnv_fair {}) (by decide) .list _ _ _ h3 sampleConfig_tame h1 h2 ⟨n, strs, hn, hs, hΓ⟩ (of_decide_eq_true h)⟩
      · cases h
    · cases h
  · cases h

/-! ### Unsound hints -/

/-- The hint of `v` can be read and fails to admit `w`. -/
def rejects (E : Env) (name : Str) (v w : Val) : Bool :=
  match fromData E name v with
  | .ok n => match nodeStrings E n false with
    | .ok strs => match readText strs with
      | some Γ => !check true Γ 20 (.name name) w
      | none => false
    | .error _ => false
  | .error _ => false

theorem rejects_spec {E : Env} {name : Str} {v w : Val} (h : rejects E name v w = true) :
    ∃ Γ, Hint E name v Γ ∧ ¬ Admits Γ (.name name) w := by
  unfold rejects at h
  split at h
  · rename_i n hn
    split at h
    · rename_i strs hs
      split at h
      · rename_i Γ hΓ
        exact ⟨Γ, ⟨n, strs, hn, hs, hΓ⟩, not_admits 20 (by simpa using h)⟩
      · cases h
    · cases h
  · cases h

/-- `[{"a": [1]}, {"a": ["x"]}]`: the two dictionaries are merged, and the hint only allows integers. -/
def listsOfTwo : List Dct := [[(py!"a", .seq .list .list [.inst .int none])], [(py!"a", .seq .list .list [.inst .str none])]]

example : declsOf (exEnv {}) py!"X" (.seq .list .list (listsOfTwo.map dictOf)) =
    [recordText py!"XDict" false none [⟨py!"a", py!"List[str]", none⟩], py!"X: TypeAlias = List[XDict]"] := by decide +kernel

/-- **C21** is false as stated. -/
theorem hint_sound_fails : ¬ HintSound (exEnv {}) (fun _ _ => True) := by
  intro h
  obtain ⟨Γ, h1, h2⟩ := rejects_spec (E := exEnv {}) (name := py!"X") (v := .seq .list .list (listsOfTwo.map dictOf))
    (w := .seq .list .list (listsOfTwo.map dictOf)) (by decide +kernel)
  exact h2 (h _ _ _ trivial h1)

/-! ### Merged dictionaries -/

/-- What **C31** says of dictionaries with the property `P`: whether or not the dictionaries of a list are merged, the hint
admits each of them. -/
def MergeSound (E : Env) (P : Str → List Dct → Prop) : Prop :=
  ∀ name ds Γ, (∀ d ∈ ds, IsDict d) → P name ds → Hint E name (.seq .list .list (ds.map dictOf)) Γ →
    Admits Γ (.name name) (.seq .list .list (ds.map dictOf))

/-- **C31** is false as stated. -/
theorem merge_sound_fails : ¬ MergeSound (exEnv {}) (fun _ _ => True) := by
  intro h
  obtain ⟨Γ, h1, h2⟩ := rejects_spec (E := exEnv {}) (name := py!"X") (v := .seq .list .list (listsOfTwo.map dictOf))
    (w := .seq .list .list (listsOfTwo.map dictOf)) (by decide +kernel)
  exact h2 (h _ listsOfTwo _ (by decide) trivial h1)

/-- **C31** (partial). If values under shared keys have the same shape, the hint of a list of dictionaries admits all of
them, merged or not. Missing: shared keys with values of different shapes, where it fails, and merged dictionaries below the
top level. -/
theorem merge_sound_partial {E : Env} (hE : E.Fair) (hm : 0 < E.S.merge) (hS : E.S.dict = .typedDict) {κ : SeqKind} (hκ : κ ≠ .tuple)
    {name : Str} {t : Ty} {ds : List Dct} (hc : CamelName name) (hd : ∀ d ∈ ds, IsDict d) (ht : ∀ d ∈ ds, Tame E.S κ (dictOf d))
    (hs : SharedShapes ds) (hi : Inspected E.S ds.length) (hn : Neat (.seq κ t (ds.map dictOf)))
    (hf : Fresh name (.seq κ t (ds.map dictOf))) {n : Node} (hb : fromData E name (.seq κ t (ds.map dictOf)) = .ok n) :
    ∃ strs Γ, nodeStrings E n false = .ok strs ∧ readText strs = some Γ ∧
      ((Γ.map (·.name)).Nodup → Admits Γ (.name name) (.seq κ t (ds.map dictOf))) := by
  have hr : Regular E.U (.seq κ t (ds.map dictOf)) := by
    refine ⟨⟨neatTy_ok hn.1, ?_⟩, trivial, ?_⟩
    · rw [valAllList_iff]
      intro v hv
      obtain ⟨d, hdm, rfl⟩ := List.mem_map.mp hv
      exact (neat_regular (ht d hdm) (valAllList_iff.mp hn.2 _ hv)).1
    · rw [everyList_iff]
      intro v hv
      obtain ⟨d, hdm, rfl⟩ := List.mem_map.mp hv
      exact plain_printable (tame_plainAt (ht d hdm))
  obtain ⟨_, h2, _, h4, h5, _⟩ := regular_build hE hm hr hb
  have hnn := neat_build hE hc hn hf h2 (by omega)
  obtain ⟨g1, g2⟩ := mergeable_admits hE hS hκ hd ht hs (by
    rcases hi with h | h
    · simp [limit, h]
    · unfold limit
      split
      · rfl
      · exact List.take_of_length_le (by simpa using h)) hf.1 h2 hnn
  exact ⟨_, _, regular_strings hE hm hr hb, (root_texts hE (tidy_trim _ g1) hnn h4).1, g2⟩

/-- `[{"a": [1], "b": "x"}, {"a": [2, 3]}]` -/
def sampleMerged : List Dct :=
  [[(py!"a", .seq .list .list [.inst .int none]), (py!"b", .inst .str none)],
   [(py!"a", .seq .list .list [.inst .int none, .inst .int none])]]

example : declsOf (exEnv {}) py!"Data" (.seq .list .list (sampleMerged.map dictOf)) =
    [recordText py!"DataDict" false none [⟨py!"a", py!"List[int]", none⟩, ⟨py!"b", py!"NotRequired[str]", none⟩],
     py!"Data: TypeAlias = List[DataDict]"] := by decide +kernel

theorem sampleMerged_ok : (∀ d ∈ sampleMerged, IsDict d) ∧ (∀ d ∈ sampleMerged, Tame {} .list (dictOf d)) ∧ SharedShapes sampleMerged ∧
    Neat (.seq .list .list (sampleMerged.map dictOf)) ∧ Fresh py!"Data" (.seq .list .list (sampleMerged.map dictOf)) := by
  refine ⟨by decide, ?_, ?_, ?_, by decide, ?_, ?_⟩
  · simp only [sampleMerged, List.mem_cons, List.not_mem_nil, or_false, forall_eq_or_imp, forall_eq]
    refine ⟨tame_dict_of ⟨by decide, by decide, by decide, by decide, by decide, .inl rfl, by decide, by decide⟩ ?_,
      tame_dict_of ⟨by decide, by decide, by decide, by decide, by decide, .inl rfl, by decide, by decide⟩ ?_⟩
    · simp only [List.map, List.mem_cons, List.not_mem_nil, or_false, forall_eq_or_imp, forall_eq]
      exact ⟨tame_scalars (.inr (by decide)) (by simp [Scalar]), trivial⟩
    · simp only [List.map, List.mem_cons, List.not_mem_nil, or_false, forall_eq]
      exact tame_scalars (.inr (by decide)) (by simp [Scalar])
  · have h : ∀ es es' : List Val, (∀ e ∈ es, e = .inst .int none) → (∀ e ∈ es', e = .inst .int none) → es ≠ [] → es' ≠ [] →
        SameShape (.seq .list .list es) (.seq .list .list es') := by
      intro es es' h h' hne hne'
      refine .seq SameShape (by decide) (fun _ _ h => h) ?_ ?_
      · intro e he
        obtain ⟨e', he'⟩ := List.exists_mem_of_ne_nil _ hne'
        exact ⟨e', he', by rw [h e he, h' e' he']; exact .inst⟩
      · intro e he
        obtain ⟨e', he'⟩ := List.exists_mem_of_ne_nil _ hne
        exact ⟨e', he', by rw [h' e he, h e' he']; exact .inst⟩
    intro d hd e he x hx y hy hk
    simp only [sampleMerged, List.mem_cons, List.not_mem_nil, or_false] at hd he
    rcases hd with rfl | rfl <;> rcases he with rfl | rfl <;>
      simp only [List.mem_cons, List.not_mem_nil, or_false] at hx hy <;>
      (try rcases hx with rfl | rfl) <;> (try rcases hy with rfl | rfl) <;> (try subst hx) <;> (try subst hy) <;>
      first
        | exact absurd hk (by decide)
        | exact .inst
        | exact h _ _ (by simp) (by simp) (by simp) (by simp)
  · simp only [Neat, sampleMerged, List.map, dictOf, ValAll, ValAllList]
    decide
  · simp only [sampleMerged, List.map, dictOf, ValAll, ValAllList]
    decide
  · simp [sampleMerged, dictOf, Every, EveryList, FreshClass]

/-! ### Equal trees -/

/-- What **C33** says: if two trees are considered equal, the hint of one value admits the other. -/
def EqualSound (E : Env) : Prop :=
  ∀ name v w n m Γ, fromData E name v = .ok n → fromData E name w = .ok m → nodeEq E.S n m = true → Hint E name v Γ →
    Admits Γ (.name name) w

/-- **C33** is false as stated: the trees of `{1}` and `frozenset({1})` are considered equal. -/
theorem equal_sound_fails : ¬ EqualSound (exEnv {}) := by
  intro h
  have hr := rejects_spec (E := exEnv {}) (name := py!"X") (v := .seq .set .set [.inst .int none])
    (w := .seq .frozenset .frozenset [.inst .int none]) (by decide +kernel)
  obtain ⟨Γ, h1, h2⟩ := hr
  exact h2 (h _ _ _ _ _ _ rfl rfl (by decide +kernel) h1)

/-- **C33** (partial). If tame data have trees that are considered equal, the hint of one value admits the other. -/
theorem equal_sound_partial {E : Env} (hE : E.Fair) (hm : 0 < E.S.merge) {κ : SeqKind} {name name' : Str} {v w : Val}
    (hc : CamelName name) (ht : Tame E.S κ v) (hn : Neat v) (hf : Fresh name v) (hc' : CamelName name') (ht' : Tame E.S κ w)
    (hn' : Neat w) (hf' : Fresh name' w) {n m : Node} (hb : fromData E name v = .ok n) (hb' : fromData E name' w = .ok m)
    (he : nodeEq E.S m n = true) {strs : List Str} {Γ : List TDecl} (hs : nodeStrings E n false = .ok strs)
    (hr : readText strs = some Γ) (hnd : (Γ.map (·.name)).Nodup) : Admits Γ (.name name) w := by
  obtain ⟨g, h1, h2, h3, h4⟩ := hint_tree hE hm hc ht hn hf hb
  obtain ⟨g', _⟩ := hint_tree hE hm hc' ht' hn' hf' hb'
  rw [hs] at h4
  cases h4
  rw [(root_texts hE (tidy_trim _ g.tidy) h1 h2).1] at hr
  cases hr
  exact root_admits hE g.tidy h1 h2 h3 hf.1 (nodeEq_fits he (g'.stands w (tame_refl w ht'))) hnd

end Verif.Props
