import Verif.Lemmas.Levels
import Verif.Props.Depth
import Verif.Props.Order
/-
C35 and C36 in terms of the generated text: which collections have a name of their own.
-/
namespace Verif.Props
open Verif Verif.Spec

/-- What **C36** says of the declarations of a text: a collection has a declaration of its own only if it has more than
`least` levels (the requested name is declared in any case), and what is written out inside a declaration has at most
`least` levels. -/
def NamedByLevel (least : Nat) (name : Str) (Γ : List TDecl) : Prop :=
  (∀ d ∈ Γ, d.name ≠ name → ∀ t, d.body = .alias t → t.isCollection = true → least < levelTable Γ d.name) ∧
  (∀ d ∈ Γ, ∀ x ∈ d.body.inline, x.levels (levelTable Γ) ≤ least)

/-- The declarations of a tree for data with clear names, and their levels. -/
theorem levels_tree {E : Env} (hE : E.Fair) (hm : 0 < E.S.merge) (hstr : E.isBuiltin py!"str" = true) {name : Str} {v : Val}
    (hc : CamelName name) (hv : Regular E.U v) (hn : Neat v) (hs : ClearNames E.S v)
    (hl : ValAll LetterFirst (fun _ => True) (fun _ => True) v) (hp : PlainlyNamed v) (hq : NoFrames v)
    (hf : ∀ x ∈ py!"int" :: libraryNames, ¬ name <+: x) (hb : ∀ x, E.isBuiltin x = true → ¬ name <+: x)
    {n : Node} (h : fromData E name v = .ok n) :
    ∃ Γ, nodeStrings E n false = .ok (Γ.map TDecl.print) ∧ (Γ.map (·.name)).Nodup ∧
      (∀ d ∈ Γ, levelTable Γ d.name = d.body.levels (levelTable Γ)) ∧ (∃ d ∈ Γ, d.name = name) ∧
      levelTable Γ name = (n.render E).height ∧ NamedByLevel E.S.minHeight name Γ := by
  obtain ⟨h1, h2, h3, h4, h5, _⟩ := regular_build hE hm hv h
  have hu := nameTree_unique (E := E) n (clear_build hE hm _ hs hl (by omega) h2).1
  have hd := clear_data (fun w (hw : WellKeyed E.S w ∧ _) => hw.1) v hs hp hq hn
  have hlh := level_hdrs hE hc hd h2 (by omega)
  have hsc := scope_hdrs hE hstr hc (valAll_imp (fun _ h => h) (fun k h => by
    obtain ⟨⟨x, rfl⟩, hk⟩ := h
    exact ⟨hk, by simp, hstr⟩) (fun _ h => h) hd.1) h2 (by omega)
  have hS : Scoped E (n.abs E) := scoped_abs n (nodeAll_and n hsc (nodeAll_imp (fun _ h => h.2.2) h3))
  have hcam : ∀ d ∈ (n.abs E).emitted, CamelName d.name ∧ name <+: d.name := by
    intro d hd
    obtain ⟨h, hh, e⟩ := decls_names n hlh d (List.mem_append_left _ hd)
    rw [e]; exact hh.1
  have hnm : ∀ {d : TDecl}, d ∈ (n.abs E).emitted → declName d.print = d.name := fun hd =>
    declName_print (fun x hx => alnum_ident (camelName_alnum (hcam _ hd).1 x hx)) (camelName_class (hcam _ hd).1)
  have hone : ∀ d ∈ (n.abs E).emitted, ∀ e ∈ (n.abs E).emitted, d.name = e.name → d = e := fun d hd e he =>
    hu.one d (List.mem_append_left _ hd) e (List.mem_append_left _ he)
  -- nothing is lost by dropping repeated declarations
  have hall : ∀ d ∈ (n.abs E).emitted, d ∈ dedupDecls (n.abs E).emitted := by
    intro d hd
    have : d.print ∈ (dedupDecls (n.abs E).emitted).map TDecl.print := by
      rw [dedupDecls_print]
      exact mem_dedup.mpr (List.mem_map_of_mem hd)
    obtain ⟨e, he, hpe⟩ := List.mem_map.mp this
    have := hone e (dedupDecls_mem he) d hd (by rw [← hnm (dedupDecls_mem he), hpe, hnm hd])
    rw [← this]; exact he
  have hnd : ((dedupDecls (n.abs E).emitted).map (·.name)).Nodup := by
    have : (dedupDecls (n.abs E).emitted).map (·.name) = ((dedupDecls (n.abs E).emitted).map TDecl.print).map declName := by
      rw [List.map_map]
      exact List.map_congr_left (fun d hd => (hnm (dedupDecls_mem hd)).symm)
    rw [this, dedupDecls_print]
    refine nodup_map_of_inj ?_ (nodup_dedup _)
    intro s hs t ht h
    obtain ⟨d, hd, rfl⟩ := List.mem_map.mp (mem_dedup.mp hs)
    obtain ⟨e, he, rfl⟩ := List.mem_map.mp (mem_dedup.mp ht)
    rw [hnm hd, hnm he] at h
    rw [hone d hd e he h]
  have hscope : ∀ d ∈ dedupDecls (n.abs E).emitted, ¬ InScope E d.name := by
    intro d hd hi
    have hpre := (hcam d (dedupDecls_mem hd)).2
    rcases hi with hi | hi
    · exact hf _ (List.mem_cons_of_mem _ hi) hpre
    · exact hb _ hi hpre
  have hfix : ∀ d ∈ dedupDecls (n.abs E).emitted, levelTable (dedupDecls (n.abs E).emitted) d.name =
      d.body.levels (levelTable (dedupDecls (n.abs E).emitted)) := fun d hd =>
    levelTable_fix hnd (ordered_dedup (fun d hd => (hcam d hd).1) hS.emitted) hscope hd
  have g : Ground E (levelTable (dedupDecls (n.abs E).emitted)) := by
    have zero : ∀ x, ¬ name <+: x → levelTable (dedupDecls (n.abs E).emitted) x = 0 := fun x hx =>
      levelTable_other (fun d hd e => hx (e ▸ (hcam d (dedupDecls_mem hd)).2))
    exact ⟨fun x hx => zero x (hf x (List.mem_cons_of_mem _ hx)), fun x hx => zero x (hb x hx), zero _ (hf _ (by simp))⟩
  have hun : Under true n := by
    have := build_formed hE (v.depth + 1) true name v
    rw [h2] at this
    exact this
  obtain ⟨l, hemit, _⟩ := root_emitted (E := E) h4
  have hroot : (n.abs E).decl ∈ (n.abs E).emitted := by rw [hemit]; simp
  have hname : (n.abs E).decl.name = name := by rw [← h5]; exact abs_name
  obtain ⟨L, hL⟩ := lev_root g hlh hun (fun d hd => by
    rcases List.mem_append.mp hd with hd | hd
    · exact hfix d (hall d hd)
    · split at hd
      · rw [List.mem_singleton.mp hd]; exact hfix _ (hall _ hroot)
      · cases hd)
  refine ⟨_, regular_strings hE hm hv h, hnd, hfix, ⟨_, hall _ hroot, hname⟩, ?_, ?_, ?_⟩
  · have := hfix _ (hall _ hroot)
    rw [hname] at this
    rw [this]
    exact L.body.trans (out_corr (nodeAll_imp (fun _ h => h.2.2) h3)).height.symm
  · intro d hd hne
    rcases (hL d (dedupDecls_mem hd)).2 with rfl | h
    · exact absurd hname hne
    · exact h
  · exact fun d hd => (hL d (dedupDecls_mem hd)).1

/-- **C36** (partial). In the generated text, collections that are named have more than `min_height` levels and those that
are written out have at most `min_height`. Missing: the data excluded from C18 and C20, and frames, where it fails
(`alias_threshold_fails`). -/
theorem alias_levels_partial {E : Env} (hE : E.Fair) (hm : 0 < E.S.merge) (hstr : E.isBuiltin py!"str" = true) {name : Str} {v : Val}
    (hc : CamelName name) (hv : Regular E.U v) (hn : Neat v) (hs : ClearNames E.S v)
    (hl : ValAll LetterFirst (fun _ => True) (fun _ => True) v) (hp : PlainlyNamed v) (hq : NoFrames v)
    (hf : ∀ x ∈ py!"int" :: libraryNames, ¬ name <+: x) (hb : ∀ x, E.isBuiltin x = true → ¬ name <+: x)
    {n : Node} (h : fromData E name v = .ok n) :
    ∃ Γ, nodeStrings E n false = .ok (Γ.map TDecl.print) ∧ (Γ.map (·.name)).Nodup ∧
      (∀ d ∈ Γ, levelTable Γ d.name = d.body.levels (levelTable Γ)) ∧ NamedByLevel E.S.minHeight name Γ := by
  obtain ⟨Γ, h1, h2, h3, _, _, h6⟩ := levels_tree hE hm hstr hc hv hn hs hl hp hq hf hb h
  exact ⟨Γ, h1, h2, h3, h6⟩

/-- **C35** (partial). The levels that a reader of the generated text counts for the requested name are the nesting depth of
the inspected part of the data. Missing: the data excluded by `Level`, where it fails, and the data excluded from C18 and
C20. -/
theorem levels_are_nesting_partial {E : Env} (hE : E.Fair) (hm : 0 < E.S.merge) (hstr : E.isBuiltin py!"str" = true) {name : Str}
    {v : Val} (hc : CamelName name) (hv : Regular E.U v) (hn : Neat v) (hs : ClearNames E.S v)
    (hl : ValAll LetterFirst (fun _ => True) (fun _ => True) v) (hp : PlainlyNamed v) (hlv : Level E.S v)
    (hf : ∀ x ∈ py!"int" :: libraryNames, ¬ name <+: x) (hb : ∀ x, E.isBuiltin x = true → ¬ name <+: x)
    {n : Node} (h : fromData E name v = .ok n) :
    ∃ Γ, nodeStrings E n false = .ok (Γ.map TDecl.print) ∧ (∃ d ∈ Γ, d.name = name) ∧ levelTable Γ name = nesting E.S v := by
  have hq : NoFrames v := every_imp (fun w hw => by
    cases w with
    | map k _ _ _ => cases k <;> simp_all
    | _ => trivial) v hlv
  obtain ⟨Γ, h1, _, _, h4, h5, _⟩ := levels_tree hE hm hstr hc hv hn hs hl hp hq hf hb h
  exact ⟨Γ, h1, h4, h5.trans (height_is_nesting_partial hE hlv h)⟩

/-- `{"rows": [[[1]]], "cols": ([2],), "info": {"name": "x"}}` -/
def sampleThreeDeep : Val :=
  let l : List Val → Val := fun es => .seq .list .list es
  dictOf [(py!"rows", l [l [l [.inst .int none]]]), (py!"cols", .seq .tuple .tuple [l [.inst .int none]]),
    (py!"info", dictOf [(py!"name", .inst .str none)])]

example : declsOf (exEnv { minHeight := 1 }) py!"Config" sampleThreeDeep =
    [py!"ConfigRowsList: TypeAlias = List[List[int]]", py!"ConfigRows: TypeAlias = List[ConfigRowsList]",
     py!"ConfigCols: TypeAlias = Tuple[List[int]]",
     recordText py!"ConfigInfo" false none [⟨py!"name", py!"str", none⟩],
     recordText py!"Config" false none [⟨py!"rows", py!"ConfigRows", none⟩, ⟨py!"cols", py!"ConfigCols", none⟩,
       ⟨py!"info", py!"ConfigInfo", none⟩]] := by decide +kernel

/-- `sampleThreeDeep` meets the hypotheses of both theorems. -/
example : CamelName py!"Config" ∧ Regular (exEnv { minHeight := 1 }).U sampleThreeDeep ∧ Neat sampleThreeDeep ∧
    ClearNames (exEnv { minHeight := 1 }).S sampleThreeDeep ∧ ValAll LetterFirst (fun _ => True) (fun _ => True) sampleThreeDeep ∧
    PlainlyNamed sampleThreeDeep ∧ NoFrames sampleThreeDeep ∧ Level (exEnv { minHeight := 1 }).S sampleThreeDeep ∧
    (∀ x ∈ py!"int" :: libraryNames, ¬ py!"Config" <+: x) ∧ (exEnv { minHeight := 1 }).isBuiltin py!"str" = true ∧
    (∀ x, (exEnv { minHeight := 1 }).isBuiltin x = true → ¬ py!"Config" <+: x) := by
  have hl : ∀ t ∈ [Ty.list, Ty.dict, Ty.int, Ty.str, Ty.tuple], LetterFirst t := by
    intro t ht
    simp only [List.mem_cons, List.not_mem_nil, or_false] at ht
    rcases ht with rfl | rfl | rfl | rfl | rfl <;> exact ⟨_, _, rfl, by decide, by decide⟩
  refine ⟨⟨'C', py!"onfig", rfl, by decide, by decide⟩, plain_regular (by decide +kernel), ?_, clearB_spec (by decide +kernel), ?_, ?_, ?_, ?_,
    by decide, by decide, ?_⟩
  · simp only [Neat, sampleThreeDeep, dictOf, ValAll, ValAllList, List.map_cons, List.map_nil]
    simp only [List.mem_cons, List.not_mem_nil, or_false, forall_eq_or_imp, forall_eq, and_true]
    unfold NeatTy NeatKey
    decide
  · simp [sampleThreeDeep, dictOf, ValAll, ValAllList, hl _ (by simp : Ty.list ∈ _), hl _ (by simp : Ty.dict ∈ _),
      hl _ (by simp : Ty.int ∈ _), hl _ (by simp : Ty.str ∈ _), hl _ (by simp : Ty.tuple ∈ _)]
  · simp [PlainlyNamed, sampleThreeDeep, dictOf, Every, EveryList]
  · simp [NoFrames, sampleThreeDeep, dictOf, Every, EveryList]
  · simp [Level, sampleThreeDeep, dictOf, Every, EveryList, IsRecord]
  · intro x hx
    have : ∀ x ∈ [py!"int", py!"float", py!"str", py!"bool", py!"bytes", py!"complex", py!"range", py!"slice",
        py!"object", py!"list", py!"dict", py!"set", py!"tuple", py!"frozenset", py!"type"], ¬ py!"Config" <+: x := by decide
    exact this x (List.contains_iff_mem.mp hx)

end Verif.Props
