import Verif.Lemmas.Scope
import Verif.Spec.Symbols
/-
The symbols that declarations use are requested for import.
-/
namespace Verif
open Verif.Spec

/-- A symbol that is requested or needs no import. -/
def Req (kws : List Str) (x : Str) : Prop := (∃ kw ∈ kws, (bindingOf kw).2 = x) ∨ x ∉ librarySymbols

theorem Req.mono {kws kws' : List Str} {x : Str} (h : Req kws x) (hs : ∀ k ∈ kws, k ∈ kws') : Req kws' x := by
  rcases h with ⟨kw, h1, h2⟩ | h
  · exact .inl ⟨kw, hs kw h1, h2⟩
  · exact .inr h

theorem req {kws : List Str} (kw : Str) {x : Str} (h : kw ∈ kws) (e : (bindingOf kw).2 = x := by decide) : Req kws x :=
  .inl ⟨kw, h, e⟩

/-- The class and key names of a header are no library symbols. -/
def ForeignHdr (E : Env) (h : Hdr) : Prop :=
  (Foreign h.name ∧ Foreign (toCamel E.U h.name)) ∧ (E.isBuiltin h.ty.name = true → Foreign h.ty.name) ∧
  (∀ s ∈ h.slots, Foreign s.key.ty.name) ∧
  match h.kind with
  | .cls n => (E.isBuiltin n = true → Foreign n) ∧ '[' ∉ n
  | _ => True

/-- What a rendered child requests. -/
structure Asks (E : Env) (o : Out) (a : AOut) : Prop where
  corr : Corr o a
  name : Foreign a.name ∧ Foreign (toCamel E.U a.name)
  ref : ∀ x ∈ exprSymbols (aref a), Req (refKws o) x
  top : o.perm = true → ∀ x ∈ declSymbols a.decl, Req o.top.kws x
  emitted : All₂ (fun (d : Decl) (t : TDecl) => ∀ x ∈ declSymbols t, Req d.kws x) o.emitted a.emitted

theorem mem_exprsSymbols {x : Str} : ∀ {ts : List TExpr}, x ∈ exprsSymbols ts ↔ ∃ t ∈ ts, x ∈ exprSymbols t
  | [] => by simp [exprsSymbols]
  | t :: r => by simp [exprsSymbols, mem_exprsSymbols (ts := r)]

theorem unionOf_symbols {ts : List TExpr} {ss : List Str} (hs : ts.map TExpr.print = ss) {x : Str} (h : x ∈ exprSymbols (unionOf ts)) :
    Req (formatTypes ss).2 x ∨ ∃ t ∈ ts, x ∈ exprSymbols t := by
  subst hs
  match ts with
  | [] =>
    simp only [unionOf, exprSymbols, exprsSymbols, List.mem_cons, List.not_mem_nil, or_false] at h
    subst h
    exact .inl (req py!"Union" (by simp [formatTypes]))
  | [t] => exact .inr ⟨t, by simp, h⟩
  | a :: b :: r =>
    simp only [unionOf, exprSymbols, List.mem_cons] at h
    rcases h with h | h
    · subst h; exact .inl (req py!"Union" (by simp [formatTypes]))
    · exact .inr (mem_exprsSymbols.mp h)

section
variable {E : Env}

theorem Asks.corrs {kids : List Out} {kids' : List AOut} (h : All₂ (Asks E) kids kids') : All₂ Corr kids kids' := h.imp (fun _ _ h => h.corr)

theorem aTypes_symbols {kids : List Out} {kids' : List AOut} (h : All₂ (Asks E) kids kids') (b : Bool) {t : TExpr} (ht : t ∈ aTypes kids')
    {x : Str} (hx : x ∈ exprSymbols t) : Req (childTypes kids b).2 x := by
  unfold childTypes
  dsimp only
  have he : (kids.map childRef).isEmpty = kids'.isEmpty := by
    rw [← (Asks.corrs h).isEmpty]; cases kids <;> rfl
  rw [he]
  unfold aTypes at ht
  split at ht
  · rename_i hk
    simp only [List.mem_singleton] at ht
    subst ht
    simp only [exprSymbols, List.mem_singleton] at hx
    subst hx
    exact req py!"Any" (by simp [hk])
  · rename_i hk
    obtain ⟨k, hk', rfl⟩ := List.mem_map.mp ht
    obtain ⟨o, ho, ha⟩ := h.mem_right k hk'
    refine (ha.ref x hx).mono fun kw hkw => ?_
    simp only [hk]
    exact List.mem_flatMap.mpr ⟨o, ho, hkw⟩

theorem aAlias_symbols {kids : List Out} {kids' : List AOut} (h : All₂ (Asks E) kids kids') {x : Str} (hx : x ∈ exprSymbols (aAlias kids')) :
    Req (aliasChildren kids).2 x := by
  unfold aliasChildren
  dsimp only
  have hc := childTypes_abs (Asks.corrs h) true
  simp only [if_true] at hc
  rcases unionOf_symbols hc.symm hx with h' | ⟨t, ht, hx⟩
  · exact h'.mono fun kw hk => List.mem_append_right _ hk
  · exact (aTypes_symbols h true (aUnique_mem ht) hx).mono fun kw hk => List.mem_append_left _ hk

theorem aTuple_symbols {kws : List Str} (hk : py!"tuple" ∈ kws) {kids : List Out} {kids' : List AOut} (h : All₂ (Asks E) kids kids') {x : Str}
    (hx : x ∈ exprSymbols (aTuple E.S kids')) : Req (kws ++ (tupleAliasChildren E.S kids).2) x := by
  have htuple : Req (kws ++ (tupleAliasChildren E.S kids).2) py!"Tuple" := req py!"tuple" (List.mem_append_left _ hk)
  have hleft : ∀ b, (∀ kw ∈ (childTypes kids b).2, kw ∈ (tupleAliasChildren E.S kids).2) → ∀ t ∈ aTypes kids', ∀ x ∈ exprSymbols t,
      Req (kws ++ (tupleAliasChildren E.S kids).2) x := fun b hb t ht x hx =>
    (aTypes_symbols h b ht hx).mono fun kw hkw => List.mem_append_right _ (hb kw hkw)
  unfold aTuple at hx
  cases hS : E.S.tuple with
  | fixed =>
    have hb : ∀ kw ∈ (childTypes kids false).2, kw ∈ (tupleAliasChildren E.S kids).2 := by
      intro kw hkw
      simp only [tupleAliasChildren, hS]
      split
      · exact List.mem_append_left _ hkw
      · exact hkw
    simp only [hS] at hx
    split at hx
    · rename_i he
      simp only [exprSymbols, List.mem_cons, List.not_mem_nil, or_false] at hx
      rcases hx with rfl | rfl
      · exact htuple
      · refine req py!"Any" (List.mem_append_right _ ?_)
        have hc := childTypes_abs (Asks.corrs h) false
        simp only [Bool.false_eq_true, if_false] at hc
        simp only [tupleAliasChildren, hS, hc, he, if_true]
        simp
    · simp only [exprSymbols, List.mem_cons] at hx
      rcases hx with rfl | hx
      · exact htuple
      · obtain ⟨t, ht, hx⟩ := mem_exprsSymbols.mp hx
        exact hleft false hb t ht x hx
  | anySize =>
    have hb : ∀ kw ∈ (childTypes kids true).2, kw ∈ (tupleAliasChildren E.S kids).2 := by
      intro kw hkw
      simp only [tupleAliasChildren, hS]
      split
      · exact List.mem_append_left _ hkw
      · split
        · exact hkw
        · exact List.mem_append_left _ hkw
    simp only [hS, exprSymbols, List.mem_cons] at hx
    rcases hx with rfl | hx
    · exact htuple
    · have hc := childTypes_abs (Asks.corrs h) true
      simp only [if_true] at hc
      have hnd : ((aUnique (aTypes kids')).map TExpr.print).Nodup := by rw [aUnique_print]; exact uniqueTypes_nodup' _
      have hun : ∀ {us : List TExpr}, aUnique (aTypes kids') = us → (∀ t, us ≠ [t]) → Req (kws ++ (tupleAliasChildren E.S kids).2) py!"Union" := by
        intro us hus hne
        refine req py!"Union" (List.mem_append_right _ ?_)
        simp only [tupleAliasChildren, hS, hc, hus] at hnd ⊢
        rw [dedup_of_nodup hnd]
        split
        · rename_i he
          match us, hne with
          | [], _ => simp at he
          | [t], hne => exact absurd rfl (hne t)
          | a :: b :: r, _ => simp at he
        · split
          · rename_i t he
            match us, hne with
            | [], _ => simp at he
            | [t], hne => exact absurd rfl (hne t)
            | a :: b :: r, _ => simp at he
          · simp
      unfold aAlias at hx
      cases hu : aUnique (aTypes kids') with
      | nil =>
        rw [hu] at hx
        simp only [unionOf, exprSymbols, exprsSymbols, List.mem_cons, List.not_mem_nil, or_false] at hx
        subst hx
        exact hun hu (by simp)
      | cons a r =>
        have hmem : ∀ t ∈ a :: r, ∀ x ∈ exprSymbols t, Req (kws ++ (tupleAliasChildren E.S kids).2) x := fun t ht x hx =>
          hleft true hb t (aUnique_mem (by rw [hu]; exact ht)) x hx
        rw [hu] at hx
        cases r with
        | nil => exact hmem a (by simp) x hx
        | cons b r =>
          simp only [unionOf, exprSymbols, List.mem_cons] at hx
          rcases hx with rfl | hx
          · exact hun hu (by simp)
          · obtain ⟨t, ht, hx⟩ := mem_exprsSymbols.mp hx
            exact hmem t ht x hx

theorem foreign {n : Str} (h : n ∉ librarySymbols := by decide) (h' : symbolOf n = n := by decide) : Foreign n := by
  unfold Foreign; rw [h']; exact h

theorem keyExpr_symbols {keys : List Key} (hk : ∀ k ∈ keys, Foreign k.ty.name) {kids : List Out} {kids' : List AOut} (h : All₂ (Asks E) kids kids')
    (hempty : keys = [] → kids = []) {x : Str} (hx : x ∈ exprSymbols (keyExpr keys)) :
    Req ((if keys.isEmpty then childTypes kids true else (uniqueTypes (keys.map (fun k => k.ty.name)), [])).2 ++
      (formatTypes (if keys.isEmpty then childTypes kids true else (uniqueTypes (keys.map (fun k => k.ty.name)), [])).1).2) x := by
  unfold keyExpr at hx
  split at hx
  · rename_i he
    simp only [exprSymbols, List.mem_singleton] at hx
    subst hx
    have := hempty (List.isEmpty_iff.mp he)
    subst this
    rw [if_pos he]
    exact req py!"Any" (by simp [childTypes])
  · rename_i he
    rw [if_neg he]
    have hp : (List.map TExpr.name (uniqueTypes (keys.map (fun k => k.ty.name)))).map TExpr.print = uniqueTypes (keys.map (fun k => k.ty.name)) := by
      rw [List.map_map]
      conv => rhs; rw [← List.map_id (uniqueTypes _)]
      rfl
    rcases unionOf_symbols hp hx with h' | ⟨t, ht, hx⟩
    · exact h'.mono fun kw hkw => by simpa using hkw
    · obtain ⟨s, hs, rfl⟩ := List.mem_map.mp ht
      obtain ⟨k, hk', rfl⟩ := List.mem_map.mp (mem_uniqueTypes.mp hs).1
      simp only [exprSymbols, List.mem_singleton] at hx
      subst hx
      exact .inr (hk k hk')

theorem mapExpr_symbols {h : Hdr} (hs : ∀ s ∈ h.slots, Foreign s.key.ty.name) {kids : List Out} {kids' : List AOut} (hk : All₂ (Asks E) kids kids')
    (hempty : h.slots = [] → kids = []) {x : Str} (hx : x ∈ exprSymbols (mapExpr E h kids')) :
    Req (mapTop E h (h.slots.map (·.key)) kids).2 x := by
  unfold mapExpr at hx
  simp only [exprSymbols, List.mem_cons, List.mem_append] at hx
  unfold mapTop
  dsimp only
  rcases hx with rfl | hx | hx
  · unfold mapCon
    split
    · exact req py!"MappingProxyType" (by simp)
    · cases E.S.dict with
      | typedDict => exact req py!"dict" (by simp)
      | dict => exact req py!"dict" (by simp)
      | mapping => exact req py!"Mapping" (by simp)
  · have := keyExpr_symbols (E := E) (keys := h.slots.map (·.key)) (by
      intro k hk'
      obtain ⟨s, hs', rfl⟩ := List.mem_map.mp hk'
      exact hs s hs') hk (by intro h'; exact hempty (by simpa using h')) hx
    exact this.mono fun kw hkw => by
      simp only [List.mem_append] at hkw ⊢
      rcases hkw with h' | h'
      · exact .inl (.inl (.inl (.inr h')))
      · exact .inl (.inl (.inr h'))
  · exact (aAlias_symbols hk hx).mono fun kw hkw => by
      simp only [List.mem_append]
      exact .inl (.inr hkw)

theorem zip_asks {keys : List Key} {kids : List Out} {kids' : List AOut} (h : All₂ (Asks E) kids kids') :
    All₂ (fun (x : Key × Out) (y : Key × AOut) => x.1 = y.1 ∧ Asks E x.2 y.2) (keys.zip kids) (keys.zip kids') := h.zip keys

theorem record_symbols {h : Hdr} {data : List (Key × Val)} {m : DMeta} {kids : List Out} {kids' : List AOut} (hk : All₂ (Asks E) kids kids')
    {keys : List Key} {x : Str} (hx : x ∈ declSymbols ⟨h.name, recordBody E data m (keys.zip kids')⟩) :
    Req (typedTop E h data m (keys.zip kids)).2 x := by
  simp only [declSymbols, recordBody, List.mem_cons, List.mem_flatMap] at hx
  unfold typedTop
  dsimp only
  rcases hx with rfl | ⟨e, he, hx⟩
  · exact req py!"TypedDict" (by simp)
  · unfold aEntries at he
    obtain ⟨⟨key, kid⟩, hmem, he⟩ := List.mem_filterMap.mp he
    obtain ⟨⟨key', o⟩, hmo, hkey, ho⟩ := (zip_asks hk).mem_right _ hmem
    have hkey : key' = key := hkey
    subst hkey
    cases key' with
    | none => simp at he
    | other _ _ => simp at he
    | str s =>
      simp only [Option.some.injEq] at he
      subst he
      have hsub : ∀ kw ∈ (entryType E m s o).2, kw ∈ py!"TypedDict" :: ((keys.zip kids).filterMap fun kk => match kk.1 with
          | .str s => some (s, entryType E m s kk.2)
          | _ => none).flatMap (fun e => e.2.2) := by
        intro kw hkw
        exact List.mem_cons_of_mem _ (List.mem_flatMap.mpr ⟨(s, entryType E m s o), List.mem_filterMap.mpr ⟨_, hmo, rfl⟩, hkw⟩)
      refine Req.mono ?_ hsub
      have ho' : Asks E o kid := ho
      have href : ∀ y ∈ exprSymbols (if kid.perm then .name (toCamel E.U kid.name) else aref kid), Req (refKws o) y := by
        intro y hy
        split at hy
        · simp only [exprSymbols, List.mem_singleton] at hy
          subst hy
          exact .inr ho'.name.2
        · exact ho'.ref y hy
      have hk0 : (if o.perm then (toCamel E.U o.name, []) else (withoutLvalue o.top.text, o.top.kws)).2 = refKws o := by
        unfold refKws; split <;> rfl
      simp only [aEntry, List.mem_append] at hx
      unfold entryType
      dsimp only
      cases hl : lookupKey (.str s) m.req with
      | none =>
        simp only [hl, Option.getD_none, Option.isSome_none, Bool.false_and, Bool.false_eq_true, if_false, if_true, List.not_mem_nil, false_or] at hx
        dsimp only
        rw [hk0]
        exact href x hx
      | some r =>
        simp only [hl, Option.getD_some, Option.isSome_some, Bool.true_and] at hx
        dsimp only
        rcases hx with (hx | hx) | hx
        · split at hx
          · rename_i hr
            simp only [List.mem_singleton] at hx
            subst hx
            rw [if_pos hr]
            exact req py!"ReadOnly" (by simp)
          · simp at hx
        · split at hx
          · simp at hx
          · rename_i hr
            simp only [List.mem_singleton] at hx
            subst hx
            have : r = false := by simpa using hr
            subst this
            refine req py!"NotRequired" ?_
            split <;> simp
        · refine (href x hx).mono fun kw hkw => ?_
          rw [← hk0] at hkw
          cases r <;> (split <;> simp [hkw])

theorem frame_symbols {h : Hdr} {kids : List Out} {kids' : List AOut} (hk : All₂ (Asks E) kids kids') {keys : List Key} {x : Str}
    (hx : x ∈ declSymbols ⟨h.name, frameBody E (keys.zip kids')⟩) : Req (frameTop E h (keys.zip kids)).2 x := by
  have hz := zip_asks (keys := keys) hk
  have he : (keys.zip kids).isEmpty = (keys.zip kids').isEmpty := hz.isEmpty
  unfold frameBody at hx
  unfold frameTop
  rw [he]
  split at hx
  · rename_i hke
    rw [if_pos hke]
    simp only [declSymbols, exprSymbols, List.mem_cons, List.not_mem_nil, or_false] at hx
    rcases hx with rfl | rfl
    · exact req py!"TypeAlias" (by simp)
    · exact req py!"pandas" (by simp)
  · rename_i hke
    rw [if_neg hke]
    dsimp only
    have key : Req ([py!"pandas", py!"overload", py!"Union", py!"Literal", py!"npt", py!"tuple", py!"list", py!"Hashable",
      py!"numpy", py!"pd.Scalar"] ++ ((keys.zip kids).filter (fun kk => literalKey kk.1)).flatMap (fun kk => refKws kk.2)) x := by
      simp only [declSymbols, List.mem_append, List.mem_flatMap] at hx
      rcases hx with hx | ⟨o, ho, hx⟩
      · have : ∀ y ∈ [py!"pd", py!"overload", py!"Literal", py!"Union", py!"npt", py!"np", py!"List", py!"Scalar", py!"Tuple", py!"Hashable"],
          ∃ kw ∈ [py!"pandas", py!"overload", py!"Union", py!"Literal", py!"npt", py!"tuple", py!"list", py!"Hashable",
            py!"numpy", py!"pd.Scalar"], (bindingOf kw).2 = y := by decide
        obtain ⟨kw, h1, h2⟩ := this x hx
        exact req kw (List.mem_append_left _ h1) h2
      · obtain ⟨⟨k', a⟩, hka, rfl⟩ := List.mem_map.mp ho
        obtain ⟨hka, hlit⟩ := List.mem_filter.mp hka
        obtain ⟨⟨k'', b⟩, hkb, he, hb⟩ := hz.mem_right _ hka
        have he : k'' = k' := he
        subst he
        have hb : Asks E b a := hb
        exact (hb.ref x hx).mono fun kw hkw => List.mem_append_right _ (List.mem_flatMap.mpr ⟨(k'', b), List.mem_filter.mpr ⟨hkb, hlit⟩, hkw⟩)
    cases E.S.pandas <;> exact key

theorem bracket_not_word {U : Uni} {s : Str} (h : Word U s) : '[' ∉ s := by
  intro hc
  rcases h '[' hc with h | h
  · simp only [Uni.isAlnum, U.alpha_ascii '[' (by decide), U.numeric_ascii '[' (by decide)] at h
    revert h; decide
  · revert h; decide

theorem quoted_symbols {n : Str} (h : '[' ∉ n) {x : Str} : x ∉ exprSymbols (.quoted n) := by
  simp only [exprSymbols]
  split
  · rename_i hs
    unfold startsWith at hs
    rw [List.isPrefixOf_iff_prefix] at hs
    exact absurd (hs.subset (by decide)) h
  · simp

/-- What the text of a node requests. -/
theorem top_symbols {im : Str → List Str} {h : Hdr} {kids : List Out} {kids' : List AOut} (hf : ForeignHdr E h) (hc : CleanHdr E h)
    (hk : All₂ (Asks E) kids kids') {height : Nat} :
    (∀ t, aBody E h kids' = .alias t → ∀ x ∈ exprSymbols t, Req (topOf E im h kids).kws x) ∧
    (permOf E.S h height = true → ∀ x ∈ declSymbols ⟨h.name, aBody E h kids'⟩, Req (topOf E im h kids).kws x) := by
  obtain ⟨-, hty, hslots, hkf⟩ := hf
  obtain ⟨-, hword, -, hkc⟩ := hc
  have hit := hk.iterate h.slots
  have hempty : h.slots = [] → iterate h.slots kids = [] := fun h' => by rw [h', iterate_nil]
  have alias : ∀ (t : TExpr), aBody E h kids' = .alias t → py!"TypeAlias" ∈ (topOf E im h kids).kws →
      (∀ x ∈ exprSymbols t, Req (topOf E im h kids).kws x) →
      (∀ t, aBody E h kids' = .alias t → ∀ x ∈ exprSymbols t, Req (topOf E im h kids).kws x) ∧
      (permOf E.S h height = true → ∀ x ∈ declSymbols ⟨h.name, aBody E h kids'⟩, Req (topOf E im h kids).kws x) := by
    intro t ht hta hx
    refine ⟨?_, ?_⟩
    · intro t' ht'
      rw [ht] at ht'
      injection ht' with ht'
      subst ht'
      exact hx
    · intro _ x hx'
      simp only [ht, declSymbols, List.mem_cons] at hx'
      rcases hx' with rfl | hx'
      · exact req py!"TypeAlias" hta
      · exact hx x hx'
  have seqs : ∀ (con kw : Str) (kws : List Str), symbolOf con ∈ librarySymbols → (bindingOf kw).2 = symbolOf con → kw ∈ kws →
      ∀ x ∈ exprSymbols (.app con (aAlias (iterate h.slots kids'))), Req (kws ++ (aliasChildren (iterate h.slots kids)).2) x := by
    intro con kw kws _ hb hmem x hx
    simp only [exprSymbols, List.mem_cons] at hx
    rcases hx with rfl | hx
    · exact req kw (List.mem_append_left _ hmem) hb
    · exact (aAlias_symbols hit hx).mono fun k hk => List.mem_append_right _ hk
  cases hkd : h.kind with
  | inst =>
    have hbody : aBody E h kids' = .alias (atom E h.ty) := by simp [aBody, hkd]
    have htop : (topOf E im h kids).kws = (instTop E h).2 := by simp [topOf, hkd]
    have hatom : ∀ x ∈ exprSymbols (atom E h.ty), Req (instTop E h).2 x := by
      intro x hx
      unfold atom at hx
      unfold instTop
      dsimp only
      split at hx
      · rename_i hn
        rw [if_pos hn]
        simp only [exprSymbols, List.mem_cons, List.not_mem_nil, or_false] at hx
        rcases hx with rfl | rfl
        · exact req py!"Optional" (by simp)
        · exact .inr (by decide)
      · split at hx
        · rename_i hb
          simp only [exprSymbols, List.mem_singleton] at hx
          subst hx
          exact .inr (hty hb)
        · exact absurd hx (quoted_symbols (bracket_not_word hword))
    rw [htop]
    refine ⟨?_, ?_⟩
    · intro t ht
      rw [hbody] at ht
      injection ht with ht
      subst ht
      exact hatom
    · intro hp x hx
      simp only [permOf, hkd] at hp
      simp only [hbody, declSymbols, List.mem_cons] at hx
      rcases hx with rfl | hx
      · refine req py!"TypeAlias" ?_
        unfold instTop
        simp only [hp, if_true]
        split <;> simp
      · exact hatom x hx
  | func f =>
    have htop : topOf E im h kids = funcTop im h.name f := by simp [topOf, hkd]
    have hbody : aBody E h kids' = funcBody f := by simp [aBody, hkd]
    rw [htop, hbody]
    rw [hkd] at hkc
    have hkc : FuncOk f := hkc
    unfold funcTop funcBody
    cases hs : f.sig with
    | typeError => exact absurd hs hkc.1
    | valueError =>
      simp only [Body.alias.injEq]
      refine ⟨?_, ?_⟩
      · rintro t rfl x hx
        simp only [exprSymbols, List.mem_singleton] at hx
        subst hx
        exact req py!"Callable" (by simp)
      · intro _ x hx
        simp only [declSymbols, exprSymbols, List.mem_cons, List.not_mem_nil, or_false] at hx
        rcases hx with rfl | rfl
        · exact req py!"TypeAlias" (by simp)
        · exact req py!"Callable" (by simp)
    | ok args k =>
      dsimp only
      cases hl : f.isLambda with
      | true =>
        simp only [if_true, Body.alias.injEq]
        refine ⟨?_, ?_⟩
        · rintro t rfl x hx
          simp only [exprSymbols, List.mem_cons, List.not_mem_nil, or_false] at hx
          rcases hx with rfl | rfl
          · exact req py!"Callable" (by simp)
          · exact req py!"Any" (by simp)
        · intro _ x hx
          simp only [declSymbols, exprSymbols, List.mem_cons, List.not_mem_nil, or_false] at hx
          rcases hx with rfl | rfl | rfl
          · exact req py!"TypeAlias" (by simp)
          · exact req py!"Callable" (by simp)
          · exact req py!"Any" (by simp)
      | false =>
        simp only [Bool.false_eq_true, if_false, reduceCtorEq, false_implies, implies_true, true_and]
        intro _ x hx
        simp only [declSymbols, List.mem_singleton] at hx
        subst hx
        refine req py!"Protocol" ?_
        split
        · simp
        · split
          · simp
          · simp
          · split <;> simp
  | cls n =>
    have hbody : aBody E h kids' = .alias (.app py!"Type" (if E.isBuiltin n then .name n else .quoted n)) := by simp [aBody, hkd]
    have htop : (topOf E im h kids).kws = [py!"type", py!"TypeAlias"] := by simp [topOf, hkd]
    apply alias _ hbody (by rw [htop]; simp)
    rw [htop]
    intro x hx
    simp only [exprSymbols, List.mem_cons] at hx
    rcases hx with rfl | hx
    · exact req py!"type" (by simp)
    · split at hx
      · rename_i hb
        simp only [exprSymbols, List.mem_singleton] at hx
        subst hx
        rw [hkd] at hkf
        exact .inr (hkf.1 hb)
      · rw [hkd] at hkf; exact absurd hx (quoted_symbols hkf.2)
  | module =>
    have hbody : aBody E h kids' = .alias (.name py!"ModuleType") := by simp [aBody, hkd]
    have htop : (topOf E im h kids).kws = [py!"ModuleType", py!"TypeAlias"] := by simp [topOf, hkd]
    apply alias _ hbody (by rw [htop]; simp)
    rw [htop]
    intro x hx
    simp only [exprSymbols, List.mem_singleton] at hx
    subst hx
    exact req py!"ModuleType" (by simp)
  | io =>
    have hbody : aBody E h kids' = .alias (.name py!"TextIO") := by simp [aBody, hkd]
    have htop : (topOf E im h kids).kws = [py!"TextIO", py!"TypeAlias"] := by simp [topOf, hkd]
    apply alias _ hbody (by rw [htop]; simp)
    rw [htop]
    intro x hx
    simp only [exprSymbols, List.mem_singleton] at hx
    subst hx
    exact req py!"TextIO" (by simp)
  | ndarray d =>
    have hbody : aBody E h kids' = .alias (.quoted (py!"NDArray[np." ++ d ++ py!"]")) := by simp [aBody, hkd]
    have htop : (topOf E im h kids).kws = [py!"NDArray", py!"numpy", py!"TypeAlias"] := by simp [topOf, hkd]
    apply alias _ hbody (by rw [htop]; simp)
    rw [htop]
    intro x hx
    simp only [exprSymbols] at hx
    split at hx
    · simp only [List.mem_cons, List.not_mem_nil, or_false] at hx
      rcases hx with rfl | rfl
      · exact req py!"NDArray" (by simp)
      · exact req py!"numpy" (by simp)
    · simp at hx
  | seq k =>
    cases k with
    | tuple =>
      have hbody : aBody E h kids' = .alias (aTuple E.S (iterate h.slots kids')) := by simp [aBody, hkd]
      have htop : (topOf E im h kids).kws = [py!"tuple", py!"TypeAlias"] ++ (tupleAliasChildren E.S (iterate h.slots kids)).2 := by simp [topOf, hkd]
      apply alias _ hbody (by rw [htop]; simp)
      rw [htop]
      intro x hx
      exact aTuple_symbols (by simp) hit hx
    | list =>
      have hbody : aBody E h kids' = .alias (.app (seqCon E.S .list) (aAlias (iterate h.slots kids'))) := by simp [aBody, hkd]
      cases hl : E.S.list with
      | list =>
        have htop : (topOf E im h kids).kws = [py!"list", py!"TypeAlias"] ++ (aliasChildren (iterate h.slots kids)).2 := by simp [topOf, hkd, hl]
        simp only [seqCon, hl] at hbody
        apply alias _ hbody (by rw [htop]; simp)
        rw [htop]
        exact seqs _ py!"list" _ (by decide) (by decide) (by simp)
      | sequence =>
        have htop : (topOf E im h kids).kws = [py!"Sequence", py!"TypeAlias"] ++ (aliasChildren (iterate h.slots kids)).2 := by simp [topOf, hkd, hl]
        simp only [seqCon, hl] at hbody
        apply alias _ hbody (by rw [htop]; simp)
        rw [htop]
        exact seqs _ py!"Sequence" _ (by decide) (by decide) (by simp)
    | set =>
      have hbody : aBody E h kids' = .alias (.app (seqCon E.S .set) (aAlias (iterate h.slots kids'))) := by simp [aBody, hkd]
      have htop : (topOf E im h kids).kws = [py!"set", py!"TypeAlias"] ++ (aliasChildren (iterate h.slots kids)).2 := by simp [topOf, hkd]
      apply alias _ hbody (by rw [htop]; simp)
      rw [htop]
      exact seqs _ py!"set" _ (by simp only [seqCon]; decide) (by simp only [seqCon]; decide) (by simp)
    | frozenset =>
      have hbody : aBody E h kids' = .alias (.app (seqCon E.S .frozenset) (aAlias (iterate h.slots kids'))) := by simp [aBody, hkd]
      have htop : (topOf E im h kids).kws = [py!"FrozenSet", py!"TypeAlias"] ++ (aliasChildren (iterate h.slots kids)).2 := by simp [topOf, hkd]
      apply alias _ hbody (by rw [htop]; simp)
      rw [htop]
      exact seqs _ py!"FrozenSet" _ (by simp only [seqCon]; decide) (by simp only [seqCon]; decide) (by simp)
    | iterator =>
      have hbody : aBody E h kids' = .alias (.app (seqCon E.S .iterator) (aAlias (iterate h.slots kids'))) := by simp [aBody, hkd]
      have htop : (topOf E im h kids).kws = [py!"Iterator", py!"TypeAlias"] ++ (aliasChildren (iterate h.slots kids)).2 := by simp [topOf, hkd]
      apply alias _ hbody (by rw [htop]; simp)
      rw [htop]
      exact seqs _ py!"Iterator" _ (by simp only [seqCon]; decide) (by simp only [seqCon]; decide) (by simp)
    | series =>
      have hbody : aBody E h kids' = .alias (.app (seqCon E.S .series) (aAlias (iterate h.slots kids'))) := by simp [aBody, hkd]
      have htop : (topOf E im h kids).kws = [py!"annotations", py!"TypeAlias", py!"pandas"] ++ (aliasChildren (iterate h.slots kids)).2 := by simp [topOf, hkd]
      apply alias _ hbody (by rw [htop]; simp)
      rw [htop]
      exact seqs _ py!"pandas" _ (by simp only [seqCon]; decide) (by simp only [seqCon]; decide) (by simp)
  | dict data m =>
    cases ht : m.isTyped E.S with
    | true =>
      have hbody : aBody E h kids' = recordBody E data m ((h.slots.map (·.key)).zip kids') := by simp [aBody, hkd, ht]
      have htop : (topOf E im h kids).kws = (typedTop E h data m ((h.slots.map (·.key)).zip kids)).2 := by simp [topOf, hkd, ht]
      rw [htop, hbody]
      refine ⟨fun t h' => by simp [recordBody] at h', fun _ x hx => record_symbols hk hx⟩
    | false =>
      have hbody : aBody E h kids' = .alias (mapExpr E h (iterate h.slots kids')) := by simp [aBody, hkd, ht]
      have htop : (topOf E im h kids).kws = (mapTop E h (h.slots.map (·.key)) (iterate h.slots kids)).2 := by simp [topOf, hkd, ht]
      apply alias _ hbody (by rw [htop]; simp [mapTop])
      rw [htop]
      exact fun x hx => mapExpr_symbols hslots hit hempty hx
  | proxy =>
    have hbody : aBody E h kids' = .alias (mapExpr E h (iterate h.slots kids')) := by simp [aBody, hkd]
    have htop : (topOf E im h kids).kws = (mapTop E h (h.slots.map (·.key)) (iterate h.slots kids)).2 := by simp [topOf, hkd]
    apply alias _ hbody (by rw [htop]; simp [mapTop])
    rw [htop]
    exact fun x hx => mapExpr_symbols hslots hit hempty hx
  | frame i =>
    have hbody : aBody E h kids' = frameBody E ((h.slots.map (·.key)).zip kids') := by simp [aBody, hkd]
    have htop : (topOf E im h kids).kws = (frameTop E h ((h.slots.map (·.key)).zip kids)).2 := by simp [topOf, hkd]
    rw [htop, hbody]
    refine ⟨fun t ht x hx => frame_symbols hk (by rw [ht]; simp only [declSymbols]; exact List.mem_cons_of_mem _ hx), fun _ x hx => frame_symbols hk hx⟩

theorem All₂.flatMap {α β γ δ} {R : α → β → Prop} {T : γ → δ → Prop} {f : α → List γ} {g : β → List δ} (hfg : ∀ a b, R a b → All₂ T (f a) (g b))
    {l : List α} {l' : List β} (h : All₂ R l l') : All₂ T (l.flatMap f) (l'.flatMap g) := by
  induction h with
  | nil => exact .nil
  | cons hr _ ih => simp only [List.flatMap_cons]; exact (hfg _ _ hr).append ih

theorem combine_asks {im : Str → List Str} {h : Hdr} {kids : List Out} {kids' : List AOut} (hf : ForeignHdr E h) (hc : CleanHdr E h)
    (hk : All₂ (Asks E) kids kids') : Asks E (combine E im h kids) (aCombine E h kids') := by
  have hcorr : Corr (combine E im h kids) (aCombine E h kids') := combine_corr hc (Asks.corrs hk)
  obtain ⟨htop1, htop2⟩ := top_symbols (im := im) hf hc hk (height := heightOf h (iterate h.slots kids))
  have hdecl : (combine E im h kids).perm = true → ∀ x ∈ declSymbols (aCombine E h kids').decl, Req (combine E im h kids).top.kws x := htop2
  have hlast : All₂ (fun (d : Decl) (t : TDecl) => ∀ x ∈ declSymbols t, Req d.kws x)
      (if (combine E im h kids).perm then [(combine E im h kids).top] else [])
      (if (aCombine E h kids').perm then [(aCombine E h kids').decl] else []) := by
    rw [← hcorr.perm]
    cases hp : (combine E im h kids).perm with
    | true => exact .cons (hdecl hp) .nil
    | false => exact .nil
  refine ⟨hcorr, hf.1, ?_, hdecl, ?_⟩
  · intro x hx
    unfold aref at hx
    unfold refKws
    rw [hcorr.perm]
    split at hx
    · simp only [exprSymbols, List.mem_singleton] at hx
      subst hx
      exact .inr hf.1.1
    · rename_i hp
      rw [if_neg hp]
      split at hx
      · rename_i t ht
        exact htop1 t ht x hx
      · simp only [exprSymbols, List.mem_singleton] at hx
        subst hx
        exact .inr hf.1.1
  · show All₂ _ (emitOf h (combine E im h kids).perm (combine E im h kids).top kids)
      (aEmit h (aCombine E h kids').perm (aCombine E h kids').decl kids')
    unfold emitOf aEmit
    rw [(Asks.corrs hk).isEmpty]
    cases kids'.isEmpty with
    | true =>
      simp only [if_true]
      cases h.root with
      | true => simpa using hlast
      | false => exact .nil
    | false =>
      simp only [Bool.false_eq_true, if_false]
      refine All₂.append ?_ hlast
      refine All₂.flatMap ?_ (hk.iterate h.slots)
      intro o a ha
      refine All₂.append ha.emitted ?_
      rw [← ha.corr.perm]
      cases hp : o.perm with
      | true => exact .cons (ha.top hp) .nil
      | false => exact .nil

mutual
theorem out_asks {im : Str → List Str} : ∀ {n : Node}, NodeAll (fun h => ForeignHdr E h ∧ CleanHdr E h) n → Asks E (n.out E im) (n.abs E)
  | .mk h kids => by
    intro hn
    simp only [NodeAll] at hn
    rw [Node.out, Node.abs]
    exact combine_asks hn.1.1 hn.1.2 (outList_asks hn.2)
theorem outList_asks {im : Str → List Str} : ∀ {l : List Node}, NodeAllList (fun h => ForeignHdr E h ∧ CleanHdr E h) l →
    All₂ (Asks E) (outList E im l) (absList E l)
  | [] => fun _ => by rw [outList, absList]; exact .nil
  | n :: r => by
    intro hn
    simp only [NodeAllList] at hn
    rw [outList, absList]
    exact .cons (out_asks hn.1) (outList_asks hn.2)
end

end
end Verif
