import Verif.Lemmas.Symbols
import Verif.Lemmas.SigWords
/-
The symbols that are requested for import occur in the declarations.
-/
namespace Verif
open Verif.Spec

/-- The symbol that a keyword imports. -/
def symOf (kw : Str) : Str := (bindingOf kw).2

/-- Symbols for which the claim is not made: `TypeAlias`, the feature `annotations`, and (unless `lit`) the two symbols of
the overloads of frames. -/
def Skip (lit : Bool) (x : Str) : Prop :=
  x = py!"TypeAlias" ∨ x = py!"annotations" ∨ (lit = false ∧ (x = py!"overload" ∨ x = py!"Literal"))

/-- The symbol of the keyword is among the words. -/
def Seen (lit : Bool) (ws : List Str) (kw : Str) : Prop := Skip lit (symOf kw) ∨ symOf kw ∈ ws

theorem Seen.mono {lit : Bool} {ws ws' : List Str} {kw : Str} (h : Seen lit ws kw) (hs : ∀ x ∈ ws, x ∈ ws') : Seen lit ws' kw :=
  h.imp id (hs _)

theorem seen {lit : Bool} {ws : List Str} {kw : Str} (x : Str) (h : x ∈ ws) (e : symOf kw = x := by decide) : Seen lit ws kw :=
  .inr (e ▸ h)

theorem seen_alias {lit : Bool} {ws : List Str} : Seen lit ws py!"TypeAlias" := .inl (.inl (by decide))

theorem symOf_ne_int (kw : Str) : symOf kw ≠ py!"int" := by
  unfold symOf bindingOf
  cases h : symbolTable.find? (fun e => e.1 == kw) with
  | none => simp
  | some e =>
    have hm := List.mem_of_find?_eq_some h
    have : ∀ e ∈ symbolTable, e.2.2 ≠ py!"int" := by decide
    exact this e hm

section
variable {E : Env} {lit : Bool}

/-- What a rendered child mentions. -/
structure Shows (lit : Bool) (o : Out) (a : AOut) : Prop where
  corr : Corr o a
  ref : ∀ kw ∈ refKws o, Seen lit (lexemes (childRef o)) kw
  top : o.perm = true → ∀ kw ∈ o.top.kws, Seen lit (lexemes o.top.text) kw
  emitted : ∀ d ∈ o.emitted, ∀ kw ∈ d.kws, Seen lit (lexemes d.text) kw

theorem Shows.corrs {kids : List Out} {kids' : List AOut} (h : All₂ (Shows lit) kids kids') : All₂ Corr kids kids' := h.imp (fun _ _ h => h.corr)

/-- The keywords of the children's types are mentioned by one of these types. -/
theorem childTypes_seen {kids : List Out} {kids' : List AOut} (h : All₂ (Shows lit) kids kids') (b : Bool) {kw : Str}
    (hkw : kw ∈ (childTypes kids b).2) : ∃ s ∈ (childTypes kids b).1, Seen lit (lexemes s) kw := by
  unfold childTypes at hkw ⊢
  dsimp only at hkw ⊢
  cases hk : (kids.map childRef).isEmpty with
  | true =>
    have hnil : kids = [] := by simpa using hk
    subst hnil
    simp only [List.map_nil, List.flatMap_nil, List.nil_append, List.isEmpty_nil, if_true, List.mem_singleton] at hkw ⊢
    subst hkw
    refine ⟨py!"Any", ?_, seen py!"Any" (by decide)⟩
    cases b
    · simp
    · rw [if_pos rfl, uniqueTypes_any]; simp
  | false =>
    simp only [hk, Bool.false_eq_true, if_false] at hkw ⊢
    obtain ⟨o, ho, hkw⟩ := List.mem_flatMap.mp hkw
    obtain ⟨a, _, ha⟩ := h.mem_left o ho
    have hs := ha.ref kw hkw
    cases b with
    | false => exact ⟨childRef o, by simpa using ⟨o, ho, rfl⟩, hs⟩
    | true =>
      simp only [if_true]
      by_cases hint : childRef o = py!"int"
      · rcases hs with hs | hs
        · have hne : uniqueTypes (kids.map childRef) ≠ [] := by
            intro he
            have : ∀ x, x ∉ uniqueTypes (kids.map childRef) := by rw [he]; simp
            by_cases hf : py!"float" ∈ kids.map childRef
            · exact this py!"float" (mem_uniqueTypes.mpr ⟨hf, fun h => by have := h.1; revert this; decide⟩)
            · refine this (childRef o) (mem_uniqueTypes.mpr ⟨List.mem_map_of_mem ho, fun h => ?_⟩)
              exact hf h.2
          obtain ⟨s, r, hr⟩ := List.exists_cons_of_ne_nil hne
          exact ⟨s, by rw [hr]; simp, .inl hs⟩
        · rw [hint, show lexemes py!"int" = [py!"int"] by decide, List.mem_singleton] at hs
          exact absurd hs (symOf_ne_int kw)
      · exact ⟨childRef o, mem_uniqueTypes.mpr ⟨List.mem_map_of_mem ho, fun h => hint h.1⟩, hs⟩

theorem formatTypes_mem {ts : List Str} {s x : Str} (hs : s ∈ ts) (hx : x ∈ lexemes s) : x ∈ lexemes (formatTypes ts).1 := by
  unfold formatTypes
  split
  · simp only [List.mem_singleton] at hs
    subst hs
    exact hx
  · exact mem_lexemes_union.mpr (.inr ⟨s, hs, hx⟩)

theorem formatTypes_seen {ts : List Str} {kw : Str} (h : kw ∈ (formatTypes ts).2) : Seen lit (lexemes (formatTypes ts).1) kw := by
  unfold formatTypes at h ⊢
  split at h
  · simp at h
  · simp only [List.mem_singleton] at h
    subst h
    exact seen py!"Union" (mem_lexemes_union.mpr (.inl rfl))

theorem aliasChildren_seen {kids : List Out} {kids' : List AOut} (h : All₂ (Shows lit) kids kids') {kw : Str} (hkw : kw ∈ (aliasChildren kids).2) :
    Seen lit (lexemes (aAlias kids').print) kw := by
  rw [← aliasChildren_abs (Shows.corrs h)]
  unfold aliasChildren at hkw ⊢
  dsimp only at hkw ⊢
  rcases List.mem_append.mp hkw with hkw | hkw
  · obtain ⟨s, hs, hx⟩ := childTypes_seen h true hkw
    exact hx.mono fun x hx => formatTypes_mem hs hx
  · exact formatTypes_seen hkw

theorem tuple_seen {kids : List Out} {kids' : List AOut} (h : All₂ (Shows lit) kids kids') {kw : Str} (hkw : kw ∈ (tupleAliasChildren E.S kids).2) :
    Seen lit (lexemes (aTuple E.S kids').print) kw := by
  rw [← tupleAlias_abs (Shows.corrs h)]
  have hpre : ∀ t, lexemes (py!"Tuple[" ++ t ++ py!"]") = py!"Tuple" :: lexemes t := fun t => by
    rw [show py!"Tuple[" ++ t ++ py!"]" = py!"Tuple" ++ py!"[" ++ t ++ py!"]" by simp, lexemes_bracket]; rfl
  rw [hpre]
  refine Seen.mono ?_ (fun x hx => List.mem_cons_of_mem _ hx)
  unfold tupleAliasChildren at hkw ⊢
  have hdots : ∀ t : Str, lexemes (t ++ py!", ...") = lexemes t := fun t => by
    rw [show t ++ py!", ..." = t ++ ',' :: py!" ..." from rfl, lexemes_sep (by decide), show lexemes py!" ..." = [] by decide, List.append_nil]
  cases hS : E.S.tuple with
  | fixed =>
    simp only [hS] at hkw ⊢
    split at hkw
    · rename_i he
      rw [if_pos he]
      rcases List.mem_append.mp hkw with hkw | hkw
      · obtain ⟨s, hs, hx⟩ := childTypes_seen h false hkw
        rw [he, List.mem_singleton] at hs
        subst hs
        exact hx
      · simp only [List.mem_singleton] at hkw
        subst hkw
        exact seen py!"Any" (show py!"Any" ∈ lexemes py!"Any, ..." by decide)
    · rename_i he
      rw [if_neg he]
      obtain ⟨s, hs, hx⟩ := childTypes_seen h false hkw
      exact hx.mono fun x hx => mem_lexemes_commas.mpr ⟨s, hs, hx⟩
  | anySize =>
    simp only [hS] at hkw ⊢
    split at hkw
    · rename_i he
      rw [if_pos he]
      rcases List.mem_append.mp hkw with hkw | hkw
      · obtain ⟨s, hs, hx⟩ := childTypes_seen h true hkw
        rw [he, List.mem_singleton] at hs
        subst hs
        exact hx
      · simp only [List.mem_singleton] at hkw
        subst hkw
        exact seen py!"Any" (show py!"Any" ∈ lexemes py!"Any, ..." by decide)
    · rename_i he
      rw [if_neg he]
      split at hkw
      · rename_i t ht
        simp only [ht]
        obtain ⟨s, hs, hx⟩ := childTypes_seen h true hkw
        have : s ∈ dedup (childTypes kids true).1 := mem_dedup.mpr hs
        rw [ht, List.mem_singleton] at this
        subst this
        rw [hdots]
        exact hx
      · dsimp only at hkw ⊢
        have e : ∀ l : List Str, py!"Union[" ++ join py!", " l ++ py!"], ..." = (py!"Union[" ++ join py!", " l ++ py!"]") ++ py!", ..." := fun l => by simp
        rw [e, hdots]
        rcases List.mem_append.mp hkw with hkw | hkw
        · obtain ⟨s, hs, hx⟩ := childTypes_seen h true hkw
          refine hx.mono fun x hx => mem_lexemes_union.mpr (.inr ⟨s, ?_, hx⟩)
          rw [sortStr, mem_sortBy]
          exact mem_dedup.mpr hs
        · simp only [List.mem_singleton] at hkw
          subst hkw
          exact seen py!"Union" (mem_lexemes_union.mpr (.inl rfl))

theorem mapExpr_seen {h : Hdr} {kids : List Out} {kids' : List AOut} (hk : All₂ (Shows lit) kids kids')
    (hempty : h.slots = [] → kids = []) {kw : Str} (hkw : kw ∈ (mapTop E h (h.slots.map (·.key)) kids).2) :
    Seen lit (lexemes (mapExpr E h kids').print) kw := by
  unfold mapExpr
  simp only [TExpr.print]
  rw [lexemes_mapping]
  unfold mapTop at hkw
  dsimp only at hkw
  have hkey : ∀ kw, kw ∈ (if (h.slots.map (·.key)).isEmpty then childTypes kids true
        else (uniqueTypes ((h.slots.map (·.key)).map (fun k => k.ty.name)), [])).2 ∨
      kw ∈ (formatTypes (if (h.slots.map (·.key)).isEmpty then childTypes kids true
        else (uniqueTypes ((h.slots.map (·.key)).map (fun k => k.ty.name)), [])).1).2 → Seen lit (lexemes (keyExpr (h.slots.map (·.key))).print) kw := by
    intro kw hkw
    unfold keyExpr
    split at hkw
    · rename_i he
      rw [if_pos he]
      have : kids = [] := hempty (by simpa using he)
      subst this
      have : kw = py!"Any" := by
        rcases hkw with hkw | hkw
        · simpa [childTypes] using hkw
        · rw [show (childTypes [] true).1 = [py!"Any"] by decide] at hkw
          simp [formatTypes] at hkw
      subst this
      exact seen py!"Any" (by decide)
    · rename_i he
      rw [if_neg he, ← formatTypes_print]
      have e : ∀ l : List Str, (l.map TExpr.name).map TExpr.print = l := fun l => by
        rw [List.map_map]
        conv => rhs; rw [← List.map_id l]
        rfl
      rw [e]
      rcases hkw with hkw | hkw
      · simp at hkw
      · exact formatTypes_seen hkw
  simp only [List.mem_append, List.mem_singleton] at hkw
  rcases hkw with (((hkw | hkw) | hkw) | hkw) | hkw
  · refine Seen.mono (ws := lexemes (mapCon E.S h.ty)) ?_ (fun x hx => List.mem_append_left _ hx)
    subst hkw
    unfold mapCon
    split
    · exact seen py!"MappingProxyType" (by decide)
    · cases E.S.dict with
      | typedDict => exact seen py!"Dict" (by decide)
      | dict => exact seen py!"Dict" (by decide)
      | mapping => exact seen py!"Mapping" (by decide)
  · exact (hkey kw (.inl hkw)).mono fun x hx => List.mem_append_right _ (List.mem_append_left _ hx)
  · exact (hkey kw (.inr hkw)).mono fun x hx => List.mem_append_right _ (List.mem_append_left _ hx)
  · exact (aliasChildren_seen hk hkw).mono fun x hx => List.mem_append_right _ (List.mem_append_right _ hx)
  · subst hkw; exact seen_alias

theorem record_seen {h : Hdr} {data : List (Key × Val)} {m : DMeta} {kids : List Out} {kids' : List AOut} (hk : All₂ (Shows lit) kids kids')
    {keys : List Key} {kw : Str} (hkw : kw ∈ (typedTop E h data m (keys.zip kids)).2) :
    Seen lit (lexemes (TDecl.mk h.name (recordBody E data m (keys.zip kids'))).print) kw := by
  unfold typedTop at hkw
  dsimp only at hkw
  simp only [TDecl.print, recordBody]
  rcases List.mem_cons.mp hkw with rfl | hkw
  · exact seen py!"TypedDict" (mem_recordText (.inl rfl))
  · obtain ⟨⟨s, t, kws⟩, he, hkw⟩ := List.mem_flatMap.mp hkw
    obtain ⟨⟨key, o⟩, hmo, he⟩ := List.mem_filterMap.mp he
    obtain ⟨⟨key', a⟩, hma, hkey, ha⟩ := (hk.zip keys).mem_left _ hmo
    have hkey : key = key' := hkey
    subst hkey
    have ha : Shows lit o a := ha
    cases key with
    | none => simp at he
    | other _ _ => simp at he
    | str s' =>
      simp only [Option.some.injEq, Prod.mk.injEq] at he
      obtain ⟨hss, het⟩ := he
      subst hss
      have hmem : aEntry E m s' a ∈ aEntries E m (keys.zip kids') := List.mem_filterMap.mpr ⟨_, hma, rfl⟩
      have htext : ∀ x, x ∈ lexemes (aEntry E m s' a).typeText →
          x ∈ lexemes (recordText h.name (isFunctional E.U m) ((classDoc E data).map (fun t => formatDoc t docWidth (if isFunctional E.U m then [] else TAB)))
            ((aEntries E m (keys.zip kids')).map Entry.raw)) := fun x hx =>
        mem_recordText (.inr ⟨(aEntry E m s' a).raw, List.mem_map_of_mem hmem, hx⟩)
      refine Seen.mono ?_ htext
      have hkw : kw ∈ (entryType E m s' o).2 := by rw [het]; exact hkw
      have href : kw ∈ refKws o → Seen lit (lexemes (aEntry E m s' a).type.print) kw := by
        intro hr
        have hs := ha.ref kw hr
        rw [ha.corr.ref] at hs
        have hp : a.perm = false := by
          rw [← ha.corr.perm]
          cases hp : o.perm with
          | true => simp [refKws, hp] at hr
          | false => rfl
        simpa [aEntry, hp] using hs
      have h0 : (if o.perm then (toCamel E.U o.name, []) else (withoutLvalue o.top.text, o.top.kws)).2 = refKws o := by
        unfold refKws; split <;> rfl
      unfold entryType at hkw
      dsimp only at hkw
      cases hl : lookupKey (.str s') m.req with
      | none =>
        rw [hl] at hkw
        dsimp only at hkw
        rw [h0] at hkw
        exact (href hkw).mono fun x hx => mem_typeText (.inr (.inr hx))
      | some r =>
        rw [hl] at hkw
        dsimp only at hkw
        have hreq : (aEntry E m s' a).required = r := by simp [aEntry, hl]
        have hro : (aEntry E m s' a).readOnly = E.S.readOnly := by simp [aEntry, hl]
        have main : kw ∈ refKws o ∨ (r = false ∧ kw = py!"NotRequired") ∨ (E.S.readOnly = true ∧ kw = py!"ReadOnly") := by
          rw [← h0]
          cases r <;> cases hr : E.S.readOnly <;>
            simp only [hr, Bool.false_eq_true, if_false, if_true, List.mem_append, List.mem_singleton] at hkw
          · rcases hkw with h | h
            · exact .inl h
            · exact .inr (.inl ⟨rfl, h⟩)
          · rcases hkw with (h | h) | h
            · exact .inl h
            · exact .inr (.inl ⟨rfl, h⟩)
            · exact .inr (.inr ⟨rfl, h⟩)
          · exact .inl hkw
          · rcases hkw with h | h
            · exact .inl h
            · exact .inr (.inr ⟨rfl, h⟩)
        rcases main with hkw | ⟨hr, rfl⟩ | ⟨hr, rfl⟩
        · exact (href hkw).mono fun x hx => mem_typeText (.inr (.inr hx))
        · exact seen py!"NotRequired" (mem_typeText (.inr (.inl ⟨hreq.trans hr, rfl⟩)))
        · exact seen py!"ReadOnly" (mem_typeText (.inl ⟨hro.trans hr, rfl⟩))

/-- The end of the method for the other keys. -/
def getItemTail : Str :=
  py!"            npt.NDArray[np.bool_],\n            npt.NDArray[np.str_],\n" ++
  py!"            List[Union[Scalar, Tuple[Hashable, ...]]],\n        ],\n    ) -> Union[pd.Series, pd.DataFrame]:\n"

theorem getItem_eq (allowed : Str) (b : Bool) : frameGetItem allowed b = py!"    def __getitem__(\n        self,\n        key: Union[\n" ++
    (if b then py!"            \"pd.Series[bool]\",\n" else []) ++ py!"            " ++ allowed ++ (py!",\n" ++
    (if b then py!"            pd.DataFrame,\n            pd.Index,\n" else []) ++ getItemTail) := by
  unfold frameGetItem getItemTail
  simp only [List.append_assoc]

theorem tail_head : ∀ c, getItemTail.head? = some c → ofWord c = false := by decide +kernel
theorem tail_last : ∀ c, getItemTail.getLast? = some c → ofWord c = false := by decide +kernel

theorem getItem_words (allowed : Str) (b : Bool) (pre post : Str) {x : Str}
    (hx : x ∈ [py!"Union", py!"npt", py!"np", py!"List", py!"Scalar", py!"Tuple", py!"Hashable", py!"pd"]) :
    x ∈ lexemes (pre ++ (frameGetItem allowed b ++ post)) := by
  have key : ∀ a : Str, x ∈ lexemes (a ++ (getItemTail ++ post)) := by
    intro a
    rw [← List.append_assoc, lexemes_pre (a := a ++ getItemTail)]
    · rw [lexemes_post a tail_head]
      refine List.mem_append_left _ (List.mem_append_right _ ?_)
      revert x
      decide +kernel
    · exact last_lit a (by decide +kernel)
  rw [getItem_eq]
  simpa only [List.append_assoc] using key (pre ++ (py!"    def __getitem__(\n        self,\n        key: Union[\n" ++
    ((if b then py!"            \"pd.Series[bool]\",\n" else []) ++ (py!"            " ++ (allowed ++ (py!",\n" ++
    (if b then py!"            pd.DataFrame,\n            pd.Index,\n" else [])))))))

theorem frame_overload_words {name rest : Str} {ovs : List (Str × TExpr)} {o : Str × TExpr} (ho : o ∈ ovs) {x : Str}
    (hx : x ∈ [py!"overload", py!"Literal"] ∨ x ∈ lexemes o.2.print) : x ∈ lexemes (TDecl.mk name (.frame ovs rest)).print := by
  simp only [TDecl.print]
  rw [List.append_assoc _ py!"\n" rest, lexemes_post _ (b := py!"\n" ++ rest) (by
    intro c hc
    simp only [List.cons_append, List.head?_cons, Option.some.injEq] at hc
    subst hc; decide)]
  refine List.mem_append_left _ ?_
  rw [lexemes_pre (last_lit _ (by decide))]
  refine List.mem_append_right _ (mem_lexemes_lines.mpr ⟨_, List.mem_map_of_mem ho, ?_⟩)
  have hpost : ∀ c, (py!":\n        ...\n").head? = some c → ofWord c = false := by decide
  rw [lexemes_post _ hpost]
  refine List.mem_append_left _ ?_
  rcases hx with hx | hx
  · simp only [List.append_assoc]
    rw [lexemes_pre (by decide +kernel)]
    refine List.mem_append_left _ ?_
    revert x
    decide +kernel
  · rw [lexemes_pre (last_lit _ (by decide))]
    exact List.mem_append_right _ hx

theorem frame_rest_words {name rest : Str} {ovs : List (Str × TExpr)} {x : Str} (hx : x ∈ lexemes rest) :
    x ∈ lexemes (TDecl.mk name (.frame ovs rest)).print := by
  simp only [TDecl.print]
  rw [lexemes_pre (last_lit _ (by decide))]
  exact List.mem_append_right _ hx

theorem frame_seen {h : Hdr} {kids : List Out} {kids' : List AOut} (hk : All₂ (Shows lit) kids kids') {keys : List Key}
    (hlit : lit = true → ∀ k ∈ keys, literalKey k = true) {kw : Str}
    (hkw : kw ∈ (frameTop E h (keys.zip kids)).2) : Seen lit (lexemes (TDecl.mk h.name (frameBody E (keys.zip kids'))).print) kw := by
  have hz := hk.zip keys
  have he : (keys.zip kids).isEmpty = (keys.zip kids').isEmpty := hz.isEmpty
  unfold frameBody
  unfold frameTop at hkw
  rw [he] at hkw
  split at hkw
  · rename_i hke
    rw [if_pos hke]
    simp only [List.mem_cons, List.not_mem_nil, or_false] at hkw
    rcases hkw with rfl | rfl
    · simp only [TDecl.print]
      rw [lexemes_alias]
      exact seen py!"pd" (List.mem_append_right _ (List.mem_cons_of_mem _ (by simp only [TExpr.print]; decide)))
    · exact seen_alias
  · rename_i hke
    rw [if_neg hke]
    dsimp only at hkw ⊢
    have hkw' : kw ∈ [py!"pandas", py!"overload", py!"Union", py!"Literal", py!"npt", py!"tuple", py!"list", py!"Hashable",
      py!"numpy", py!"pd.Scalar"] ++ ((keys.zip kids).filter (fun kk => literalKey kk.1)).flatMap (fun kk => refKws kk.2) := by
      revert hkw
      cases E.S.pandas <;> exact id
    clear hkw
    rcases List.mem_append.mp hkw' with hkw | hkw
    · by_cases hov : kw ∈ [py!"overload", py!"Literal"]
      · cases hl : lit with
        | false =>
          refine .inl (.inr (.inr ⟨rfl, ?_⟩))
          clear hkw hkw'
          revert kw
          decide
        | true =>
          have hne : keys.zip kids' ≠ [] := by simpa using hke
          obtain ⟨kk, r, hr⟩ := List.exists_cons_of_ne_nil hne
          have hkk : kk ∈ keys.zip kids' := by rw [hr]; simp
          have hkey : kk.1 ∈ keys := (List.of_mem_zip (a := kk.1) (b := kk.2) hkk).1
          have hmem : kk ∈ (keys.zip kids').filter (fun kk => literalKey kk.1) := List.mem_filter.mpr ⟨hkk, hlit hl _ hkey⟩
          refine .inr (frame_overload_words (List.mem_map_of_mem hmem) (.inl ?_))
          clear hkw hkw'
          revert kw
          decide
      · have hsym : symOf kw ∈ [py!"Union", py!"npt", py!"np", py!"List", py!"Scalar", py!"Tuple", py!"Hashable", py!"pd"] := by
          clear hkw'
          revert kw
          decide
        refine .inr (frame_rest_words ?_)
        cases E.S.pandas with
        | full => exact getItem_words _ _ [] _ hsym
        | _ =>
          simp only [List.append_assoc]
          exact getItem_words _ _ _ _ hsym
    · obtain ⟨⟨k, o⟩, hko, hkw⟩ := List.mem_flatMap.mp hkw
      obtain ⟨hko, hlk⟩ := List.mem_filter.mp hko
      obtain ⟨⟨k', a⟩, hka, e, ha⟩ := hz.mem_left _ hko
      have e : k = k' := e
      subst e
      have ha : Shows lit o a := ha
      have := ha.ref kw hkw
      rw [ha.corr.ref] at this
      exact this.mono fun x hx => frame_overload_words (o := (reprKey E k, aref a))
        (List.mem_map.mpr ⟨(k, a), List.mem_filter.mpr ⟨hka, hlk⟩, rfl⟩) (.inr hx)

/-- What the header of a node has to satisfy: labels of frames that can be written as literals (if `lit`), and signatures
whose annotations request only what they mention. -/
def QuietHdr (lit : Bool) (im : Str → List Str) (h : Hdr) : Prop :=
  match h.kind with
  | .frame _ => lit = true → ∀ s ∈ h.slots, literalKey s.key = true
  | .func f => f.isLambda = false → ∀ args n, f.sig = .ok args n → args.head? = some '(' ∧ ∀ kw ∈ im args, symOf kw ∈ lexemes args
  | _ => True

/-- What the text of a node mentions. -/
theorem top_seen {im : Str → List Str} {h : Hdr} {kids : List Out} {kids' : List AOut} (hq : QuietHdr lit im h) (hc : CleanHdr E h)
    (hk : All₂ (Shows lit) kids kids') {height : Nat} :
    (∀ t, aBody E h kids' = .alias t → ∀ kw ∈ (topOf E im h kids).kws, Seen lit (lexemes t.print) kw) ∧
    (permOf E.S h height = true → ∀ kw ∈ (topOf E im h kids).kws, Seen lit (lexemes (TDecl.mk h.name (aBody E h kids')).print) kw) := by
  obtain ⟨-, -, -, hkc⟩ := hc
  have hit := hk.iterate h.slots
  have hempty : h.slots = [] → iterate h.slots kids = [] := fun h' => by rw [h', iterate_nil]
  have alias : ∀ (t : TExpr), aBody E h kids' = .alias t →
      (∀ kw ∈ (topOf E im h kids).kws, Seen lit (lexemes t.print) kw) →
      (∀ t, aBody E h kids' = .alias t → ∀ kw ∈ (topOf E im h kids).kws, Seen lit (lexemes t.print) kw) ∧
      (permOf E.S h height = true → ∀ kw ∈ (topOf E im h kids).kws, Seen lit (lexemes (TDecl.mk h.name (aBody E h kids')).print) kw) := by
    intro t ht hx
    refine ⟨?_, ?_⟩
    · intro t' ht'
      rw [ht] at ht'
      injection ht' with ht'
      subst ht'
      exact hx
    · intro _ kw hkw
      rw [ht]
      simp only [TDecl.print]
      rw [lexemes_alias]
      exact (hx kw hkw).mono fun x hx => List.mem_append_right _ (List.mem_cons_of_mem _ hx)
  have seqs : ∀ (con kw0 x : Str), x ∈ lexemes con → symOf kw0 = x →
      ∀ kw ∈ [kw0, py!"TypeAlias"] ++ (aliasChildren (iterate h.slots kids)).2, Seen lit (lexemes (TExpr.app con (aAlias (iterate h.slots kids'))).print) kw := by
    intro con kw0 x hx he kw hkw
    simp only [TExpr.print]
    rw [lexemes_bracket]
    rcases List.mem_append.mp hkw with hkw | hkw
    · simp only [List.mem_cons, List.not_mem_nil, or_false] at hkw
      rcases hkw with rfl | rfl
      · exact seen x (List.mem_append_left _ hx) he
      · exact seen_alias
    · exact (aliasChildren_seen hit hkw).mono fun x hx => List.mem_append_right _ hx
  cases hkd : h.kind with
  | inst =>
    have hbody : aBody E h kids' = .alias (atom E h.ty) := by simp [aBody, hkd]
    have htop : (topOf E im h kids).kws = (instTop E h).2 := by simp [topOf, hkd]
    apply alias _ hbody
    rw [htop]
    intro kw hkw
    unfold instTop at hkw
    unfold atom
    dsimp only at hkw
    split at hkw
    · rename_i hn
      rw [if_pos hn]
      have : kw = py!"Optional" ∨ kw = py!"TypeAlias" := by
        revert hkw
        cases h.root <;> simp <;> exact Or.symm
      rcases this with rfl | rfl
      · exact seen py!"Optional" (by simp only [TExpr.print]; decide)
      · exact seen_alias
    · have : kw = py!"TypeAlias" := by
        revert hkw
        cases h.root <;> simp
      subst this
      exact seen_alias
  | func f =>
    have htop : topOf E im h kids = funcTop im h.name f := by simp [topOf, hkd]
    have hbody : aBody E h kids' = funcBody f := by simp [aBody, hkd]
    rw [hkd] at hkc
    have hkc : FuncOk f := hkc
    have hq : f.isLambda = false → ∀ args n, f.sig = .ok args n → args.head? = some '(' ∧ ∀ kw ∈ im args, symOf kw ∈ lexemes args := by
      unfold QuietHdr at hq; rw [hkd] at hq; exact hq
    cases hs : f.sig with
    | typeError => exact absurd hs hkc.1
    | valueError =>
      apply alias (.name py!"Callable") (by rw [hbody, funcBody, hs])
      rw [htop, funcTop, hs]
      intro kw hkw
      simp only [List.mem_cons, List.not_mem_nil, or_false] at hkw
      rcases hkw with rfl | rfl
      · exact seen py!"Callable" (by simp only [TExpr.print]; decide)
      · exact seen_alias
    | ok args n =>
      cases hl : f.isLambda with
      | true =>
        apply alias (.callable n) (by simp [hbody, funcBody, hs, hl])
        rw [htop]
        intro kw hkw
        simp only [funcTop, hs, hl, if_true, List.mem_cons, List.not_mem_nil, or_false] at hkw
        simp only [TExpr.print]
        have hw : ∀ x ∈ [py!"Callable", py!"Any"], x ∈ lexemes (py!"Callable[[" ++ join py!", " (List.replicate n py!"Any") ++ py!"], Any]") := by
          intro x hx
          rw [lexemes_post _ (b := py!"], Any]") (by decide), lexemes_pre (a := py!"Callable[[") (by decide)]
          simp only [List.mem_cons, List.not_mem_nil, or_false] at hx
          rcases hx with rfl | rfl
          · exact List.mem_append_left _ (List.mem_append_left _ (by decide))
          · exact List.mem_append_right _ (by decide)
        rcases hkw with rfl | rfl | rfl
        · exact seen py!"Callable" (hw _ (by simp))
        · exact seen py!"Any" (hw _ (by simp))
        · exact seen_alias
      | false =>
        refine ⟨fun t ht => by simp [hbody, funcBody, hs, hl] at ht, fun _ kw hkw => ?_⟩
        rw [hbody]
        rw [htop] at hkw
        obtain ⟨hopen, hargs⟩ := hq hl _ _ hs
        simp only [funcTop, funcBody, hs, hl, Bool.false_eq_true, if_false, TDecl.print] at hkw ⊢
        have hp : ∀ (n a : Str), py!"Protocol" ∈ lexemes (py!"class " ++ n ++ py!"(Protocol):\n    def __call__" ++ a) := by
          intro n a
          rw [show py!"class " ++ n ++ py!"(Protocol):\n    def __call__" ++ a = (py!"class " ++ n) ++ '(' :: (py!"Protocol" ++ ')' :: (py!":\n    def __call__" ++ a)) by simp,
            lexemes_sep (by decide), lexemes_sep (by decide)]
          exact List.mem_append_right _ (List.mem_append_left _ (by decide))
        have ha : ∀ (post : Str), (∀ c, post.head? = some c → ofWord c = false) → ∀ kw, kw ∈ py!"Protocol" :: im args →
            Seen lit (lexemes (py!"class " ++ h.name ++ py!"(Protocol):\n    def __call__" ++ (args ++ post))) kw := by
          intro post hpost kw hkw
          rcases List.mem_cons.mp hkw with rfl | hkw
          · exact seen py!"Protocol" (hp _ _)
          · right
            rw [lexemes_post _ (b := args ++ post) (by
              intro c hc
              rw [List.head?_append, hopen] at hc
              simp only [Option.some_or, Option.some.injEq] at hc
              subst hc; decide), lexemes_post _ hpost]
            exact List.mem_append_right _ (List.mem_append_left _ (hargs kw hkw))
        split at hkw
        · rename_i hcon
          rw [if_pos hcon]
          exact ha _ (by decide) kw hkw
        · rename_i hcon
          rw [if_neg hcon]
          split at hkw
          · rename_i hsrc
            simp only [hsrc]
            exact ha _ (by decide) kw hkw
          · rename_i hsrc
            simp only [hsrc]
            exact ha _ (by decide) kw hkw
          · rename_i b hb
            simp only [hb]
            cases b with
            | false =>
              simp only [Bool.false_eq_true, if_false] at hkw ⊢
              exact ha _ (by decide) kw hkw
            | true =>
              simp only [if_true] at hkw ⊢
              rcases List.mem_append.mp hkw with hkw | hkw
              · exact ha _ (by decide) kw hkw
              · simp only [List.mem_singleton] at hkw
                subst hkw
                refine seen py!"Any" ?_
                rw [← List.append_assoc, lexemes_post _ (b := py!" -> Any: ...") (by decide)]
                exact List.mem_append_right _ (by decide)
  | cls n =>
    have hbody : aBody E h kids' = .alias (.app py!"Type" (if E.isBuiltin n then .name n else .quoted n)) := by simp [aBody, hkd]
    have htop : (topOf E im h kids).kws = [py!"type", py!"TypeAlias"] := by simp [topOf, hkd]
    apply alias _ hbody
    rw [htop]
    intro kw hkw
    simp only [List.mem_cons, List.not_mem_nil, or_false] at hkw
    rcases hkw with rfl | rfl
    · simp only [TExpr.print]
      rw [lexemes_bracket]
      exact seen py!"Type" (List.mem_append_left _ (by decide))
    · exact seen_alias
  | module =>
    have hbody : aBody E h kids' = .alias (.name py!"ModuleType") := by simp [aBody, hkd]
    have htop : (topOf E im h kids).kws = [py!"ModuleType", py!"TypeAlias"] := by simp [topOf, hkd]
    apply alias _ hbody
    rw [htop]
    intro kw hkw
    simp only [List.mem_cons, List.not_mem_nil, or_false] at hkw
    rcases hkw with rfl | rfl
    · exact seen py!"ModuleType" (by simp only [TExpr.print]; decide)
    · exact seen_alias
  | io =>
    have hbody : aBody E h kids' = .alias (.name py!"TextIO") := by simp [aBody, hkd]
    have htop : (topOf E im h kids).kws = [py!"TextIO", py!"TypeAlias"] := by simp [topOf, hkd]
    apply alias _ hbody
    rw [htop]
    intro kw hkw
    simp only [List.mem_cons, List.not_mem_nil, or_false] at hkw
    rcases hkw with rfl | rfl
    · exact seen py!"TextIO" (by simp only [TExpr.print]; decide)
    · exact seen_alias
  | ndarray d =>
    have hbody : aBody E h kids' = .alias (.quoted (py!"NDArray[np." ++ d ++ py!"]")) := by simp [aBody, hkd]
    have htop : (topOf E im h kids).kws = [py!"NDArray", py!"numpy", py!"TypeAlias"] := by simp [topOf, hkd]
    apply alias _ hbody
    rw [htop]
    intro kw hkw
    simp only [TExpr.print]
    rw [lexemes_quotes, List.append_assoc, lexemes_pre (by decide)]
    simp only [List.mem_cons, List.not_mem_nil, or_false] at hkw
    rcases hkw with rfl | rfl | rfl
    · exact seen py!"NDArray" (List.mem_append_left _ (by decide))
    · exact seen py!"np" (List.mem_append_left _ (by decide))
    · exact seen_alias
  | seq k =>
    cases k with
    | tuple =>
      have hbody : aBody E h kids' = .alias (aTuple E.S (iterate h.slots kids')) := by simp [aBody, hkd]
      have htop : (topOf E im h kids).kws = [py!"tuple", py!"TypeAlias"] ++ (tupleAliasChildren E.S (iterate h.slots kids)).2 := by simp [topOf, hkd]
      apply alias _ hbody
      rw [htop]
      intro kw hkw
      rcases List.mem_append.mp hkw with hkw | hkw
      · simp only [List.mem_cons, List.not_mem_nil, or_false] at hkw
        rcases hkw with rfl | rfl
        · refine seen py!"Tuple" ?_
          rw [← tupleAlias_abs (Shows.corrs hit), List.append_assoc, lexemes_pre (by decide)]
          exact List.mem_append_left _ (by decide)
        · exact seen_alias
      · exact tuple_seen hit hkw
    | list =>
      have hbody : aBody E h kids' = .alias (.app (seqCon E.S .list) (aAlias (iterate h.slots kids'))) := by simp [aBody, hkd]
      cases hl : E.S.list with
      | list =>
        have htop : (topOf E im h kids).kws = [py!"list", py!"TypeAlias"] ++ (aliasChildren (iterate h.slots kids)).2 := by simp [topOf, hkd, hl]
        simp only [seqCon, hl] at hbody
        apply alias _ hbody
        rw [htop]
        exact seqs _ py!"list" py!"List" (by decide) (by decide)
      | sequence =>
        have htop : (topOf E im h kids).kws = [py!"Sequence", py!"TypeAlias"] ++ (aliasChildren (iterate h.slots kids)).2 := by simp [topOf, hkd, hl]
        simp only [seqCon, hl] at hbody
        apply alias _ hbody
        rw [htop]
        exact seqs _ py!"Sequence" py!"Sequence" (by decide) (by decide)
    | set =>
      have hbody : aBody E h kids' = .alias (.app (seqCon E.S .set) (aAlias (iterate h.slots kids'))) := by simp [aBody, hkd]
      have htop : (topOf E im h kids).kws = [py!"set", py!"TypeAlias"] ++ (aliasChildren (iterate h.slots kids)).2 := by simp [topOf, hkd]
      apply alias _ hbody
      rw [htop]
      exact seqs _ py!"set" py!"Set" (by simp only [seqCon]; decide) (by decide)
    | frozenset =>
      have hbody : aBody E h kids' = .alias (.app (seqCon E.S .frozenset) (aAlias (iterate h.slots kids'))) := by simp [aBody, hkd]
      have htop : (topOf E im h kids).kws = [py!"FrozenSet", py!"TypeAlias"] ++ (aliasChildren (iterate h.slots kids)).2 := by simp [topOf, hkd]
      apply alias _ hbody
      rw [htop]
      exact seqs _ py!"FrozenSet" py!"FrozenSet" (by simp only [seqCon]; decide) (by decide)
    | iterator =>
      have hbody : aBody E h kids' = .alias (.app (seqCon E.S .iterator) (aAlias (iterate h.slots kids'))) := by simp [aBody, hkd]
      have htop : (topOf E im h kids).kws = [py!"Iterator", py!"TypeAlias"] ++ (aliasChildren (iterate h.slots kids)).2 := by simp [topOf, hkd]
      apply alias _ hbody
      rw [htop]
      exact seqs _ py!"Iterator" py!"Iterator" (by simp only [seqCon]; decide) (by decide)
    | series =>
      have hbody : aBody E h kids' = .alias (.app (seqCon E.S .series) (aAlias (iterate h.slots kids'))) := by simp [aBody, hkd]
      have htop : (topOf E im h kids).kws = [py!"annotations", py!"TypeAlias", py!"pandas"] ++ (aliasChildren (iterate h.slots kids)).2 := by simp [topOf, hkd]
      apply alias _ hbody
      rw [htop]
      intro kw hkw
      rw [List.mem_append] at hkw
      rcases hkw with hkw | hkw
      · simp only [List.mem_cons, List.not_mem_nil, or_false] at hkw
        rcases hkw with rfl | rfl | rfl
        · exact .inl (.inr (.inl (by decide)))
        · exact seen_alias
        · exact seqs _ py!"pandas" py!"pd" (by simp only [seqCon]; decide) (by decide) _ (by simp)
      · exact seqs _ py!"pandas" py!"pd" (by simp only [seqCon]; decide) (by decide) _ (List.mem_append_right _ hkw)
  | dict data m =>
    cases ht : m.isTyped E.S with
    | true =>
      have hbody : aBody E h kids' = recordBody E data m ((h.slots.map (·.key)).zip kids') := by simp [aBody, hkd, ht]
      have htop : (topOf E im h kids).kws = (typedTop E h data m ((h.slots.map (·.key)).zip kids)).2 := by simp [topOf, hkd, ht]
      rw [htop, hbody]
      refine ⟨fun t h' => by simp [recordBody] at h', fun _ kw hkw => record_seen hk hkw⟩
    | false =>
      have hbody : aBody E h kids' = .alias (mapExpr E h (iterate h.slots kids')) := by simp [aBody, hkd, ht]
      have htop : (topOf E im h kids).kws = (mapTop E h (h.slots.map (·.key)) (iterate h.slots kids)).2 := by simp [topOf, hkd, ht]
      apply alias _ hbody
      rw [htop]
      exact fun kw hkw => mapExpr_seen hit hempty hkw
  | proxy =>
    have hbody : aBody E h kids' = .alias (mapExpr E h (iterate h.slots kids')) := by simp [aBody, hkd]
    have htop : (topOf E im h kids).kws = (mapTop E h (h.slots.map (·.key)) (iterate h.slots kids)).2 := by simp [topOf, hkd]
    apply alias _ hbody
    rw [htop]
    exact fun kw hkw => mapExpr_seen hit hempty hkw
  | frame i =>
    have hbody : aBody E h kids' = frameBody E ((h.slots.map (·.key)).zip kids') := by simp [aBody, hkd]
    have htop : (topOf E im h kids).kws = (frameTop E h ((h.slots.map (·.key)).zip kids)).2 := by simp [topOf, hkd]
    have hq : lit = true → ∀ k ∈ h.slots.map (·.key), literalKey k = true := by
      unfold QuietHdr at hq; rw [hkd] at hq
      intro hl k hk
      obtain ⟨s, hs, rfl⟩ := List.mem_map.mp hk
      exact hq hl s hs
    rw [htop, hbody]
    refine ⟨fun t ht kw hkw => ?_, fun _ kw hkw => frame_seen hk hq hkw⟩
    have := (hk.zip (h.slots.map (·.key))).isEmpty
    unfold frameBody at ht
    unfold frameTop at hkw
    rw [this] at hkw
    split at ht
    · rename_i he
      rw [if_pos he] at hkw
      simp only [Body.alias.injEq] at ht
      subst ht
      simp only [List.mem_cons, List.not_mem_nil, or_false] at hkw
      rcases hkw with rfl | rfl
      · exact seen py!"pd" (by simp only [TExpr.print]; decide)
      · exact seen_alias
    · simp at ht

theorem combine_shows {im : Str → List Str} {h : Hdr} {kids : List Out} {kids' : List AOut} (hq : QuietHdr lit im h) (hc : CleanHdr E h)
    (hk : All₂ (Shows lit) kids kids') : Shows lit (combine E im h kids) (aCombine E h kids') := by
  have hcorr : Corr (combine E im h kids) (aCombine E h kids') := combine_corr hc (Shows.corrs hk)
  obtain ⟨htop1, htop2⟩ := top_seen (im := im) hq hc hk (height := heightOf h (iterate h.slots kids))
  have hdecl : (combine E im h kids).perm = true → ∀ kw ∈ (combine E im h kids).top.kws, Seen lit (lexemes (combine E im h kids).top.text) kw := by
    intro hp kw hkw
    rw [hcorr.top hp]
    exact htop2 hp kw hkw
  refine ⟨hcorr, ?_, hdecl, ?_⟩
  · intro kw hkw
    rw [hcorr.ref]
    unfold refKws at hkw
    unfold aref
    split at hkw
    · simp at hkw
    · rename_i hp
      rw [← hcorr.perm, if_neg hp]
      have hp' : permOf E.S h (heightOf h (iterate h.slots kids)) = false := by
        have : (combine E im h kids).perm = false := by simpa using hp
        exact this
      obtain ⟨t, _, hb, _⟩ := (top_corr (im := im) hc (Shows.corrs hk) (heightOf h (iterate h.slots kids))).2 hp'
      have hb : (aCombine E h kids').body = .alias t := hb
      rw [hb]
      exact htop1 t hb kw hkw
  · intro d hd kw hkw
    have hd : d ∈ emitOf h (combine E im h kids).perm (combine E im h kids).top kids := hd
    have hlast : ∀ d ∈ (if (combine E im h kids).perm then [(combine E im h kids).top] else []), ∀ kw ∈ d.kws, Seen lit (lexemes d.text) kw := by
      intro d hd
      split at hd
      · rename_i hp
        simp only [List.mem_singleton] at hd
        subst hd
        exact hdecl hp
      · simp at hd
    unfold emitOf at hd
    split at hd
    · split at hd
      · rename_i hp
        simp only [Bool.and_eq_true] at hp
        simp only [List.mem_singleton] at hd
        subst hd
        exact hdecl hp.2 kw hkw
      · simp at hd
    · rcases List.mem_append.mp hd with hd | hd
      · obtain ⟨o, ho, hd⟩ := List.mem_flatMap.mp hd
        obtain ⟨a, _, ha⟩ := (hk.iterate h.slots).mem_left o ho
        rcases List.mem_append.mp hd with hd | hd
        · exact ha.emitted d hd kw hkw
        · split at hd
          · rename_i hp
            simp only [List.mem_singleton] at hd
            subst hd
            exact ha.top hp kw hkw
          · simp at hd
      · exact hlast d hd kw hkw

mutual
theorem out_shows {im : Str → List Str} : ∀ {n : Node}, NodeAll (fun h => QuietHdr lit im h ∧ CleanHdr E h) n → Shows lit (n.out E im) (n.abs E)
  | .mk h kids => by
    intro hn
    simp only [NodeAll] at hn
    rw [Node.out, Node.abs]
    exact combine_shows hn.1.1 hn.1.2 (outList_shows hn.2)
theorem outList_shows {im : Str → List Str} : ∀ {l : List Node}, NodeAllList (fun h => QuietHdr lit im h ∧ CleanHdr E h) l →
    All₂ (Shows lit) (outList E im l) (absList E l)
  | [] => fun _ => by rw [outList, absList]; exact .nil
  | n :: r => by
    intro hn
    simp only [NodeAllList] at hn
    rw [outList, absList]
    exact .cons (out_shows hn.1) (outList_shows hn.2)
end

end
end Verif
