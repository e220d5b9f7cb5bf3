import Verif.Lemmas.Flat
import Verif.Lemmas.Types
/-
C22, C24, C25: sequences of plain instances.
-/
namespace Verif.Props
open Verif Verif.Spec

/-- The hint of a list, set, frozenset, iterator or series is written with this container. -/
def conOf (S : Strategies) : SeqKind → Str
  | .list => match S.list with
    | .list => py!"List"
    | .sequence => py!"Sequence"
  | .set => py!"Set"
  | .frozenset => py!"FrozenSet"
  | .iterator => py!"Iterator"
  | .series => py!"pd.Series"
  | .tuple => py!"Tuple"

theorem conOf_fits (S : Strategies) {k : SeqKind} (hk : k ≠ .tuple) : containerFits k (conOf S k) = true := by
  cases k <;> simp only [conOf]
  · cases S.list <;> decide
  all_goals first | decide | exact absurd rfl hk

section
variable {E : Env}

/-- The class name and its capitalised form are words. -/
def TyFine (U : Uni) (t : Ty) : Prop := Word U t.name ∧ Word U (U.capitalize t.name)

theorem TyOk.fine {U : Uni} {t : Ty} (h : TyOk U t) : TyFine U t := ⟨h.1, Verif.Word.capitalize h.1 h.2⟩

theorem foldE_calls {α β} {f : β → α → Except Err β} : ∀ {l : List α} {b r : β}, foldE f b l = .ok r → ∀ a ∈ l, ∃ b' c, f b' a = .ok c
  | [], _, _, _, a, ha => by simp at ha
  | x :: l, b, r, h, a, ha => by
    simp only [foldE] at h
    cases hx : f b x with
    | error e => rw [hx] at h; cases h
    | ok b' =>
      rw [hx] at h
      rcases List.mem_cons.mp ha with rfl | ha
      · exact ⟨b, b', hx⟩
      · exact foldE_calls h a ha

theorem word_capitalize_of_build {f : Nat} {parent : Str} {names : List Str} {v : Val} (hv : Scalar v) {n : Node}
    (h : build E (f + 1) false (freshName (parent ++ E.U.capitalize v.ty.name) names) v = .ok n) : Word E.U (E.U.capitalize v.ty.name) := by
  have hn : nameOk E.U (freshName (parent ++ E.U.capitalize v.ty.name) names) = true := by
    cases v with
    | inst t x =>
      simp only [build] at h
      by_cases hb : nameOk E.U (freshName (parent ++ E.U.capitalize (Val.inst t x).ty.name) names) = true
      · exact hb
      · rw [if_neg hb] at h; cases h
    | _ => exact hv.elim
  have hw := word_of_nameOk hn
  intro c hc
  apply hw
  rcases freshName_spec (parent ++ E.U.capitalize v.ty.name) names with h | ⟨k, h⟩ <;> rw [h] <;> simp [hc]

theorem limit_whole {α} {m : Nat} {l : List α} (hl : m = 0 ∨ l.length ≤ m) : limit m l = l := by
  unfold limit
  split
  · rfl
  · rcases hl with h | h
    · contradiction
    · exact List.take_of_length_le h

/-- Generation only succeeds if the capitalised class names of all elements are words. -/
theorem fine_of_success {name : Str} {k : SeqKind} {t : Ty} {es : List Val} {n : Node} (hs : ∀ e ∈ es, Scalar e)
    (hl : E.S.checkMax = 0 ∨ es.length ≤ E.S.checkMax) (h : fromData E name (.seq k t es) = .ok n) :
    nameOk E.U name = true ∧ ∀ e ∈ es, Word E.U (E.U.capitalize e.ty.name) := by
  unfold fromData at h
  by_cases hn : nameOk E.U name = true
  · refine ⟨hn, fun e he => ?_⟩
    rw [if_pos hn, buildTree, Val.depth, build_seq, if_pos hn] at h
    by_cases hk : k = .tuple ∧ E.S.tuple = .fixed
    · rw [if_pos hk] at h
      unfold tupleChildren at h
      rw [limit_whole hl] at h
      cases hf : foldE (tupleStep E (build E (depthList es + 1) false) name) ([], []) es with
      | error e => rw [hf] at h; cases h
      | ok r =>
        obtain ⟨b, c, hc⟩ := foldE_calls hf e he
        unfold tupleStep at hc
        dsimp only at hc
        cases hb : build E (depthList es + 1) false (freshName (name ++ E.U.capitalize e.ty.name) (b.2.map (·.2))) e with
        | error e' => rw [hb] at hc; cases hc
        | ok m => exact word_capitalize_of_build (hs e he) hb
    · rw [if_neg hk] at h
      unfold setChildren at h
      rw [limit_whole hl] at h
      cases hf : foldE (setStep E (build E (depthList es + 1) false) name) ([], []) es with
      | error e => rw [hf] at h; cases h
      | ok r =>
        obtain ⟨b, c, hc⟩ := foldE_calls hf e he
        unfold setStep at hc
        dsimp only at hc
        cases hb : build E (depthList es + 1) false (freshName (name ++ E.U.capitalize e.ty.name) b.2) e with
        | error e' => rw [hb] at hc; cases hc
        | ok m => exact word_capitalize_of_build (hs e he) hb
  · rw [if_neg hn] at h; cases h

theorem elemNamesOk {name : Str} {es : List Val} (hn : nameOk E.U name = true) (hes : ∀ e ∈ es, TyFine E.U e.ty) :
    ElemNamesOk E name es := by
  intro v hv nm h
  have hw : Word E.U (E.U.capitalize v.ty.name) := (hes v hv).2
  rcases h with rfl | ⟨k, rfl⟩
  · exact nameOk_append hn hw
  · rw [List.append_assoc]; exact nameOk_append hn (Verif.Word.append hw (Verif.Word.natStr k))

/-- One declaration per sequence of plain instances: the rendering of a node whose children are plain instances. -/
theorem emitted_flat {h : Hdr} {kids : List Node} (hk : ∀ k ∈ kids, ∃ nm t, k = instNode nm t) (hr : h.root = true) :
    ((Node.mk h kids).render E).emitted = [topOf E (sigImports E.U) h (outList E (sigImports E.U) kids)] := by
  simp only [Node.render, Node.out, combine, emitOf, permOf_root hr, hr, Bool.and_self, if_true]
  split
  · rfl
  · have : (iterate h.slots (outList E (sigImports E.U) kids)).flatMap
        (fun k => k.emitted ++ (if k.perm then [k.top] else [])) = [] := by
      rw [List.flatMap_eq_nil_iff]
      intro o ho
      have ho := mem_iterate ho
      rw [outList_eq_map] at ho
      obtain ⟨k, hkk, rfl⟩ := List.mem_map.mp ho
      obtain ⟨nm, t, rfl⟩ := hk k hkk
      rw [instNode_out]; simp
    simp [this]

theorem render_flat {h : Hdr} {kids : List Node} (hk : ∀ k ∈ kids, ∃ nm t, k = instNode nm t) (hr : h.root = true) :
    declTexts ((Node.mk h kids).render E) = [(topOf E (sigImports E.U) h (outList E (sigImports E.U) kids)).text] := by
  simp [declTexts, emitted_flat hk hr, dedup]

theorem refs_flat {kids : List Node} (hk : ∀ k ∈ kids, ∃ nm t, k = instNode nm t)
    (hw : ∀ k ∈ kids, Word E.U k.hdr.ty.name) (im : Str → List Str) :
    (outList E im kids).map childRef = (kids.map (fun k => k.hdr.ty)).map (fun t => (atom E t).print) := by
  rw [outList_eq_map, List.map_map, List.map_map]
  apply List.map_congr_left
  intro k hkk
  obtain ⟨nm, t, rfl⟩ := hk k hkk
  exact instNode_ref (hw _ hkk)

/-- The children of a sequence of plain instances. -/
theorem flat_children (hE : E.Fair) (hm : 0 < E.S.merge) {name : Str} {es : List Val} (hn : nameOk E.U name = true)
    (hes : ∀ e ∈ es, Scalar e ∧ TyFine E.U e.ty) (hl : E.S.checkMax = 0 ∨ es.length ≤ E.S.checkMax) (f : Nat) :
    ∃ kids, setChildren E (build E (f + 1) false) name es = .ok (kids.map (fun _ => Slot.seq 1), kids) ∧
      (∀ k ∈ kids, ∃ nm t, k = instNode nm t) ∧ (∀ k ∈ kids, Word E.U k.hdr.ty.name) ∧
      (∀ t, t ∈ kids.map (fun k => k.hdr.ty) ↔ t ∈ es.map Val.ty) := by
  have hlim : limit E.S.checkMax es = es := by
    unfold limit
    split
    · rfl
    · rcases hl with h | h
      · contradiction
      · exact List.take_of_length_le h
  obtain ⟨kids, h1, h2, h3⟩ := setChildren_scalar hE hm (f := f) (fun v hv => (hes v hv).1)
    (elemNamesOk hn (fun e he => (hes e he).2)) hlim
  refine ⟨kids, h1, fun k hk => ?_, fun k hk => ?_, fun t => ?_⟩
  · obtain ⟨nm, v, _, h⟩ := h2 k hk; exact ⟨nm, _, h⟩
  · obtain ⟨nm, v, hv, rfl⟩ := h2 k hk; exact (hes v hv).2.1
  · simp only [List.mem_map]
    constructor
    · rintro ⟨k, hk, rfl⟩
      obtain ⟨nm, v, hv, rfl⟩ := h2 k hk
      exact ⟨v, hv, rfl⟩
    · rintro ⟨v, hv, rfl⟩
      obtain ⟨nm, hk⟩ := h3 v hv
      exact ⟨_, hk, rfl⟩

/-- The element part of the hint of a sequence of plain instances of the classes `tys`. -/
def elemText (E : Env) (tys : List Ty) : Str :=
  if tys = [] then py!"Any" else (formatTypes (uniqueTypes (tys.map (fun t => (atom E t).print)))).1

theorem sortStr_sortStr (l : List Str) : sortStr (sortStr l) = sortStr l := sortStr_eq_of_perm (sortStr_perm l)

theorem uniqueTypes_sorted (ts : List Str) : sortStr (dedup (uniqueTypes ts)) = uniqueTypes ts := by
  unfold uniqueTypes
  dsimp only
  have hnd : (sortStr (dedup ts)).Nodup := (sortStr_perm _).nodup_iff.mpr (nodup_dedup ts)
  split
  · rw [dedup_of_nodup ((sortStr_perm _).nodup_iff.mpr (hnd.erase _)), sortStr_sortStr]
  · rw [dedup_of_nodup hnd, sortStr_sortStr]

theorem uniqueTypes_nodup (ts : List Str) : (uniqueTypes ts).Nodup := by
  rw [← uniqueTypes_sorted]
  exact (sortStr_perm _).nodup_iff.mpr (nodup_dedup _)

theorem atom_ne_any {E : Env} {t : Ty} (h : E.isBuiltin py!"Any" = false) : (atom E t).print ≠ py!"Any" := by
  intro he
  have := atom_eq_cls (E := E) (t := t) (by decide) (by decide) he
  have h1 := this.1
  unfold atom at h1
  split at h1
  · cases h1
  · split at h1
    · rename_i h2; rw [this.2, h] at h2; cases h2
    · cases h1

theorem mem_nil_iff_of {α} {a b : List α} (h : ∀ s, s ∈ a ↔ s ∈ b) : a = [] ↔ b = [] := by
  simp only [List.eq_nil_iff_forall_not_mem, h]

/-- The text of the type arguments of a sequence, from the rendered children. -/
theorem alias_text {kids : List Out} {tys : List Ty} (hk : ∀ s, s ∈ kids.map childRef ↔ s ∈ tys.map (fun t => (atom E t).print)) :
    (aliasChildren kids).1 = elemText E tys := by
  have he : kids = [] ↔ tys = [] := by
    have h1 := mem_nil_iff_of hk
    simpa using h1
  by_cases h : tys = []
  · have := he.mpr h
    subst this; subst h; rfl
  · have hne : kids ≠ [] := fun h' => h (he.mp h')
    unfold aliasChildren elemText
    rw [if_neg h]
    dsimp only
    rw [childTypes_true hne, uniqueTypes_congr hk]

theorem tuple_alias_text {kids : List Out} {tys : List Ty} (hS : E.S.tuple = .anySize) (hany : E.isBuiltin py!"Any" = false)
    (hk : ∀ s, s ∈ kids.map childRef ↔ s ∈ tys.map (fun t => (atom E t).print)) :
    (tupleAliasChildren E.S kids).1 = elemText E tys ++ py!", ..." := by
  have he : kids = [] ↔ tys = [] := by
    have h1 := mem_nil_iff_of hk
    simpa using h1
  by_cases h : tys = []
  · have := he.mpr h
    subst this; subst h
    simp only [tupleAliasChildren, hS]; rfl
  · have hne : kids ≠ [] := fun h' => h (he.mp h')
    unfold tupleAliasChildren elemText
    rw [if_neg h, hS]
    dsimp only
    rw [childTypes_true hne, uniqueTypes_congr hk]
    have hno : py!"Any" ∉ uniqueTypes (tys.map (fun t => (atom E t).print)) := by
      intro hm
      obtain ⟨t, _, ht⟩ := List.mem_map.mp (mem_uniqueTypes.mp hm).1
      exact atom_ne_any hany ht
    rw [if_neg (by intro h'; apply hno; rw [h']; simp), dedup_of_nodup (uniqueTypes_nodup _)]
    have hs := uniqueTypes_sorted (tys.map (fun t => (atom E t).print))
    rw [dedup_of_nodup (uniqueTypes_nodup _)] at hs
    unfold formatTypes
    split <;> rename_i heq
    · simp
    · dsimp only; rw [hs]; simp

/-- The tree of a sequence of plain instances. -/
theorem flat_tree (hE : E.Fair) (hm : 0 < E.S.merge) {name : Str} {k : SeqKind} {t : Ty} {es : List Val}
    (hn : nameOk E.U name = true) (hes : ∀ e ∈ es, Scalar e ∧ TyFine E.U e.ty)
    (hl : E.S.checkMax = 0 ∨ es.length ≤ E.S.checkMax) (hk : k = .tuple → E.S.tuple = .anySize ∧ E.isBuiltin py!"Any" = false) :
    ∃ kids, fromData E name (.seq k t es) = .ok (.mk ⟨.seq k, name, true, t, kids.map (fun _ => Slot.seq 1)⟩ kids) ∧
      (∀ k ∈ kids, ∃ nm t, k = instNode nm t) ∧ (∀ k ∈ kids, Word E.U k.hdr.ty.name) ∧
      (∀ t, t ∈ kids.map (fun k => k.hdr.ty) ↔ t ∈ es.map Val.ty) := by
  obtain ⟨kids, h1, h2, h3, h4⟩ := flat_children hE hm hn hes hl (depthList es)
  have hb : buildTree E name (.seq k t es) =
      .ok (.mk ⟨.seq k, name, true, t, kids.map (fun _ => Slot.seq 1)⟩ kids) := by
    rw [buildTree, Val.depth, build_seq, if_pos hn]
    have : ¬ (k = .tuple ∧ E.S.tuple = .fixed) := by
      rintro ⟨rfl, hf⟩; rw [(hk rfl).1] at hf; cases hf
    rw [if_neg this, h1]
  exact ⟨kids, by simp only [fromData, hn, if_true, hb], h2, h3, h4⟩

theorem iterate_flat {kids : List Node} {im : Str → List Str} :
    iterate (kids.map (fun _ => Slot.seq 1)) (outList E im kids) = outList E im kids := by
  apply iterate_seq
  · simp [outList_eq_map]
  · intro s hs
    obtain ⟨_, _, rfl⟩ := List.mem_map.mp hs
    simp [Slot.seq]

theorem mem_refs_flat {kids : List Node} {es : List Val} (h2 : ∀ k ∈ kids, ∃ nm t, k = instNode nm t)
    (h3 : ∀ k ∈ kids, Word E.U k.hdr.ty.name) (h4 : ∀ t, t ∈ kids.map (fun k => k.hdr.ty) ↔ t ∈ es.map Val.ty)
    (im : Str → List Str) (s : Str) :
    s ∈ (outList E im kids).map childRef ↔ s ∈ (es.map Val.ty).map (fun t => (atom E t).print) := by
  rw [refs_flat h2 h3]
  simp only [List.mem_map (f := fun t => (atom E t).print)]
  constructor
  · rintro ⟨t, ht, rfl⟩; exact ⟨t, (h4 t).1 ht, rfl⟩
  · rintro ⟨t, ht, rfl⟩; exact ⟨t, (h4 t).2 ht, rfl⟩

/-- The one declaration generated for a sequence of plain instances. -/
theorem flat_text (hE : E.Fair) (hm : 0 < E.S.merge) {name : Str} {k : SeqKind} {t : Ty} {es : List Val}
    (hn : nameOk E.U name = true) (hes : ∀ e ∈ es, Scalar e ∧ TyFine E.U e.ty)
    (hl : E.S.checkMax = 0 ∨ es.length ≤ E.S.checkMax) (hk : k = .tuple → E.S.tuple = .anySize ∧ E.isBuiltin py!"Any" = false) :
    declsOf E name (.seq k t es) = [name ++ py!": TypeAlias = " ++ conOf E.S k ++ py!"[" ++ elemText E (es.map Val.ty) ++
      (if k = .tuple then py!", ..." else []) ++ py!"]"] := by
  obtain ⟨kids, hb, h2, h3, h4⟩ := flat_tree (t := t) hE hm hn hes hl hk
  simp only [declsOf, hb]
  rw [render_flat h2 rfl]
  have hrefs := mem_refs_flat h2 h3 h4 (sigImports E.U)
  have ha := alias_text (E := E) hrefs
  cases k with
  | list =>
    simp only [topOf, iterate_flat, ha, typeAlias, conOf]
    cases E.S.list <;> simp
  | tuple =>
    have hta := tuple_alias_text (E := E) (hk rfl).1 (hk rfl).2 hrefs
    simp [topOf, iterate_flat, hta, typeAlias, conOf]
  | _ => simp [topOf, iterate_flat, ha, typeAlias, conOf]

/-- The import keywords requested by a sequence of plain instances, up to order. -/
def flatKws (E : Env) (k : SeqKind) (tys : List Ty) : List Str :=
  (match k with
   | .list => match E.S.list with
     | .list => [py!"list", py!"TypeAlias"]
     | .sequence => [py!"Sequence", py!"TypeAlias"]
   | .set => [py!"set", py!"TypeAlias"]
   | .frozenset => [py!"FrozenSet", py!"TypeAlias"]
   | .iterator => [py!"Iterator", py!"TypeAlias"]
   | .series => [py!"annotations", py!"TypeAlias", py!"pandas"]
   | .tuple => [py!"tuple", py!"TypeAlias"]) ++
  (if tys = [] then [py!"Any"] else []) ++ (if .noneType ∈ tys then [py!"TypeAlias", py!"Optional"] else []) ++
  (formatTypes (uniqueTypes (if tys = [] then [py!"Any"] else tys.map (fun t => (atom E t).print)))).2

theorem refKws_inst {nm : Str} {t : Ty} {im : Str → List Str} :
    refKws ((instNode nm t).out E im) = if t = .noneType then [py!"TypeAlias", py!"Optional"] else [] := by
  rw [instNode_out]
  simp only [refKws, instTop, Bool.false_eq_true, if_false]
  split <;> rfl

theorem flat_kws (hE : E.Fair) (hm : 0 < E.S.merge) {name : Str} {k : SeqKind} {t : Ty} {es : List Val}
    (hn : nameOk E.U name = true) (hes : ∀ e ∈ es, Scalar e ∧ TyFine E.U e.ty)
    (hl : E.S.checkMax = 0 ∨ es.length ≤ E.S.checkMax) (hk : k = .tuple → E.S.tuple = .anySize ∧ E.isBuiltin py!"Any" = false) :
    ∃ n, fromData E name (.seq k t es) = .ok n ∧ n.hdr.root = true ∧ firstFailure (n.render E).emitted = none ∧
      declTexts (n.render E) = [name ++ py!": TypeAlias = " ++ conOf E.S k ++ py!"[" ++ elemText E (es.map Val.ty) ++
      (if k = .tuple then py!", ..." else []) ++ py!"]"] ∧
      ∀ kw, kw ∈ allKws (n.render E) ↔ kw ∈ flatKws E k (es.map Val.ty) := by
  have ht := flat_text (t := t) hE hm hn hes hl hk
  obtain ⟨kids, hb, h2, h3, h4⟩ := flat_tree (t := t) hE hm hn hes hl hk
  simp only [declsOf, hb] at ht
  refine ⟨_, hb, rfl, ?_, ht, ?_⟩
  · apply out_fails
    simp only [NodeAll]
    refine ⟨by simp, ?_⟩
    rw [nodeAllList_iff]
    intro k hkk
    obtain ⟨nm, t, rfl⟩ := h2 k hkk
    simp [instNode, NodeAll, NodeAllList]
  · have hrefs := mem_refs_flat h2 h3 h4 (sigImports E.U)
    have hkw : ∀ kw, kw ∈ (outList E (sigImports E.U) kids).flatMap refKws ↔
        kw ∈ (if .noneType ∈ es.map Val.ty then [py!"TypeAlias", py!"Optional"] else []) := by
      intro kw
      rw [outList_eq_map, List.flatMap_map, List.mem_flatMap]
      constructor
      · rintro ⟨k, hkk, h⟩
        have hm := (h4 _).1 (List.mem_map_of_mem hkk)
        obtain ⟨nm, t, rfl⟩ := h2 k hkk
        rw [refKws_inst] at h
        split at h
        · rename_i e; subst e; rw [if_pos (show Ty.noneType ∈ _ from hm)]; exact h
        · simp at h
      · intro h
        split at h
        · rename_i hm
          obtain ⟨k, hkk, e⟩ := List.mem_map.mp ((h4 _).2 hm)
          refine ⟨k, hkk, ?_⟩
          obtain ⟨nm, t, rfl⟩ := h2 k hkk
          have e : t = .noneType := e
          rw [refKws_inst, if_pos e]; exact h
        · simp at h
    have hnil : (outList E (sigImports E.U) kids).map childRef = [] ↔ es.map Val.ty = [] := by
      rw [mem_nil_iff_of hrefs]; simp
    have hct : ∀ kw, kw ∈ (childTypes (outList E (sigImports E.U) kids) true).2 ↔
        kw ∈ (if es.map Val.ty = [] then [py!"Any"] else []) ++
          (if .noneType ∈ es.map Val.ty then [py!"TypeAlias", py!"Optional"] else []) := by
      intro kw
      unfold childTypes
      dsimp only
      by_cases h : es.map Val.ty = []
      · have h' := hnil.mpr h
        simp only [h', h, List.isEmpty_nil, if_true, List.mem_append, hkw kw, List.not_mem_nil, if_false]
        simp
      · have h' : ((outList E (sigImports E.U) kids).map childRef).isEmpty = false := by
          rw [List.isEmpty_eq_false_iff]; exact fun h'' => h (hnil.mp h'')
        simp only [h', h, Bool.false_eq_true, if_false, List.mem_append, hkw kw]
        simp
    have hts : (childTypes (outList E (sigImports E.U) kids) true).1 =
        uniqueTypes (if es.map Val.ty = [] then [py!"Any"] else (es.map Val.ty).map (fun t => (atom E t).print)) := by
      by_cases h : es.map Val.ty = []
      · have h' := hnil.mpr h
        simp only [childTypes, h', h, List.isEmpty_nil, if_true]
      · have h' : outList E (sigImports E.U) kids ≠ [] := by
          intro h''; apply h; apply hnil.mp; simp [h'']
        rw [childTypes_true h', if_neg h, uniqueTypes_congr hrefs]
    have hal : ∀ kw, kw ∈ (aliasChildren (outList E (sigImports E.U) kids)).2 ↔
        kw ∈ (if es.map Val.ty = [] then [py!"Any"] else []) ++
          (if .noneType ∈ es.map Val.ty then [py!"TypeAlias", py!"Optional"] else []) ++
          (formatTypes (uniqueTypes (if es.map Val.ty = [] then [py!"Any"]
            else (es.map Val.ty).map (fun t => (atom E t).print)))).2 := by
      intro kw
      unfold aliasChildren
      dsimp only
      rw [List.mem_append, List.mem_append, hct, hts]
    intro kw
    unfold allKws
    rw [emitted_flat h2 (by rfl)]
    simp only [flatKws, mem_dedup, List.flatMap_cons, List.flatMap_nil, List.append_nil, flatKws]
    cases k with
    | list =>
      simp only [topOf, iterate_flat]
      cases E.S.list <;> simp only [List.mem_append, hal, or_assoc]
    | tuple =>
      have hS := (hk rfl).1
      have hany := (hk rfl).2
      have hu : uniqueTypes [py!"Any"] = [py!"Any"] := by decide
      simp only [topOf, iterate_flat, tupleAliasChildren, hS]
      by_cases he : es.map Val.ty = []
      · rw [hts, if_pos he, hu, if_pos rfl, he]
        have := hct kw
        rw [he] at this
        simp only [List.mem_append, this, formatTypes]
        simp
      · have hno : py!"Any" ∉ uniqueTypes ((es.map Val.ty).map (fun t => (atom E t).print)) := by
          intro hm
          obtain ⟨t, _, ht⟩ := List.mem_map.mp (mem_uniqueTypes.mp hm).1
          exact atom_ne_any hany ht
        rw [hts, if_neg he, if_neg (by intro h'; apply hno; rw [h']; simp), dedup_of_nodup (uniqueTypes_nodup _),
          if_neg he]
        have hct := hct kw
        rw [if_neg he] at hct
        simp only [formatTypes]
        split
        · simp only [List.mem_append, hct, or_assoc]; simp
        · simp only [List.mem_append, hct, or_assoc]
    | _ => simp only [topOf, iterate_flat, List.mem_append, hal, or_assoc]

/-- The element type behind the text: it admits all elements, and mentions only classes of elements. -/
theorem elemText_sound {es : List Val} (hes : ∀ e ∈ es, TyFine E.U e.ty) :
    ∃ ts : List TExpr, elemText E (es.map Val.ty) = (unionOf ts).print ∧
      (∀ Γ, NoShadow Γ → (∀ e ∈ es, ¬ Declared Γ e.ty.name) → ∀ e ∈ es, Admits Γ (unionOf ts) e) ∧ (es ≠ [] → ∀ t ∈ ts, ∃ e ∈ es, Writes t e.ty) := by
  by_cases h : es = []
  · subst h; exact ⟨[.name py!"Any"], rfl, by simp, by simp⟩
  · obtain ⟨as, h1, h2, h3⟩ := unique_atoms (E := E) (tys := es.map Val.ty) (by
      intro t ht
      obtain ⟨e, he, rfl⟩ := List.mem_map.mp ht
      exact (hes e he).1)
    refine ⟨as, ?_, ?_, ?_⟩
    · unfold elemText
      rw [if_neg (by simpa using h), h1, formatTypes_print]
    · intro Γ hs hd e he
      rcases h3 e.ty (List.mem_map_of_mem he) with h' | ⟨h', h''⟩
      · exact admits_unionOf hs h' (atom_admits E hs e (hd e he))
      · exact admits_unionOf hs h'' (.promote e (hs _ (by decide)) h')
    · intro _ a ha
      obtain ⟨t, ht, rfl⟩ := h2 a ha
      obtain ⟨e, he, rfl⟩ := List.mem_map.mp ht
      exact ⟨e, he, atom_writes E _⟩

/-- The requested class name is none of the identifiers that the hint of a sequence of plain instances is written with. -/
def NameFree (name : Str) (es : List Val) : Prop := name ∉ typingNames ∧ ∀ e ∈ es, e.ty.name ≠ name

theorem noShadow_single {name : Str} {es : List Val} (h : NameFree name es) (b : Body) : NoShadow [⟨name, b⟩] := by
  rintro n hn ⟨d, hd, rfl⟩
  simp only [List.mem_singleton] at hd
  subst hd
  exact h.1 hn

theorem notDeclared_single {name : Str} {es : List Val} (h : NameFree name es) (b : Body) :
    ∀ e ∈ es, ¬ Declared [⟨name, b⟩] e.ty.name := by
  rintro e he ⟨d, hd, hde⟩
  simp only [List.mem_singleton] at hd
  subst hd
  exact h.2 e he hde.symm

/-- **C22**: the hint of a list, set, frozenset, iterator or series of plain instances within the element limit is a single
declaration `name: TypeAlias = Con[T]` such that the declared type admits the whole value, and `T` is a union of
classes that all occur among the elements. -/
theorem scalar_sequence_sound (hE : E.Fair) (hm : 0 < E.S.merge) (name : Str) (k : SeqKind) (t : Ty) (es : List Val)
    (hs : ∀ e ∈ es, Scalar e) (hw : ∀ e ∈ es, Word E.U e.ty.name)
    (hl : E.S.checkMax = 0 ∨ es.length ≤ E.S.checkMax) (hk : k ≠ .tuple) (hf : NameFree name es)
    (n : Node) (hok : fromData E name (.seq k t es) = .ok n) :
    ∃ (con : Str) (ts : List TExpr),
      declsOf E name (.seq k t es) = [TDecl.print ⟨name, .alias (.app con (unionOf ts))⟩] ∧
      Admits [⟨name, .alias (.app con (unionOf ts))⟩] (.name name) (.seq k t es) ∧
      (es ≠ [] → ∀ t ∈ ts, ∃ e ∈ es, Writes t e.ty) := by
  have hfine := fine_of_success hs hl hok
  have hn := hfine.1
  have hes : ∀ e ∈ es, Scalar e ∧ TyFine E.U e.ty := fun e he => ⟨hs e he, hw e he, hfine.2 e he⟩
  obtain ⟨ts, h1, h2, h3⟩ := elemText_sound (E := E) (fun e he => (hes e he).2)
  refine ⟨conOf E.S k, ts, ?_, ?_, h3⟩
  · rw [flat_text hE hm hn hes hl (fun h => absurd h hk), h1, if_neg hk]
    simp [TDecl.print, TExpr.print]
  · refine .alias (t := .app (conOf E.S k) (unionOf ts)) ⟨by simp, by simp⟩ ?_
    have hsh := noShadow_single hf (.alias (.app (conOf E.S k) (unionOf ts)))
    refine .app (hsh _ ?_) (conOf_fits E.S hk) (h2 _ hsh (notDeclared_single hf _))
    cases k <;> simp only [conOf] <;> (first | decide | skip)
    cases E.S.list <;> decide

/-- **C22** for tuples under the any-size strategy: `name: TypeAlias = Tuple[T, ...]`. -/
theorem scalar_tuple_sound (hE : E.Fair) (hm : 0 < E.S.merge) (hany : E.isBuiltin py!"Any" = false)
    (hS : E.S.tuple = .anySize) (name : Str) (t : Ty) (es : List Val)
    (hs : ∀ e ∈ es, Scalar e) (hw : ∀ e ∈ es, Word E.U e.ty.name)
    (hl : E.S.checkMax = 0 ∨ es.length ≤ E.S.checkMax) (hf : NameFree name es)
    (n : Node) (hok : fromData E name (.seq .tuple t es) = .ok n) :
    ∃ ts : List TExpr,
      declsOf E name (.seq .tuple t es) = [TDecl.print ⟨name, .alias (.tupleOf (unionOf ts))⟩] ∧
      Admits [⟨name, .alias (.tupleOf (unionOf ts))⟩] (.name name) (.seq .tuple t es) ∧
      (es ≠ [] → ∀ t ∈ ts, ∃ e ∈ es, Writes t e.ty) := by
  have hfine := fine_of_success hs hl hok
  have hn := hfine.1
  have hes : ∀ e ∈ es, Scalar e ∧ TyFine E.U e.ty := fun e he => ⟨hs e he, hw e he, hfine.2 e he⟩
  obtain ⟨ts, h1, h2, h3⟩ := elemText_sound (E := E) (fun e he => (hes e he).2)
  refine ⟨ts, ?_, ?_, h3⟩
  · rw [flat_text hE hm hn hes hl (fun _ => ⟨hS, hany⟩), h1]
    simp [TDecl.print, TExpr.print, conOf]
  · have hsh := noShadow_single hf (.alias (.tupleOf (unionOf ts)))
    exact .alias (t := .tupleOf (unionOf ts)) ⟨by simp, by simp⟩
      (.tupleOf (hsh _ (by decide)) (h2 _ hsh (notDeclared_single hf _)))

/-- Texts and imports determine the output. -/
theorem toString_congr {E' : Env} {n n' : Node} {b : Bool} (h1 : firstFailure (n.render E).emitted = none)
    (h2 : firstFailure (n'.render E').emitted = none) (ht : declTexts (n.render E) = declTexts (n'.render E'))
    (hk : ∀ kw, kw ∈ allKws (n.render E) ↔ kw ∈ allKws (n'.render E')) : toString' E n b = toString' E' n' b := by
  have hp : (allKws (n.render E)).Perm (allKws (n'.render E')) := by
    unfold allKws at hk ⊢
    simp only [mem_dedup] at hk
    exact dedup_perm_of_mem hk
  have hf : formatImports 90 (allKws (n.render E)) = formatImports 90 (allKws (n'.render E')) := by
    apply imports_order_independent 90 _ _ (nodup_dedup _) hp
    intro kw hkw
    exact (known_iff kw).2 (out_known (fun s => sigImports_known s) n kw hkw)
  simp only [toString', nodeStrings, h1, h2, ht, hf]

/-- **C25** for sequences within the element limit: if one of two sequences of plain instances with the same set of element
types has a hint, the other has the same, imports included: order, repetition and the iteration order of Python sets do
not matter. Class names are words, as those of all classes defined by `class` statements. -/
theorem scalar_sequence_order_free_partial {E' : Env} (hE : E.Fair) (hE' : E'.Fair) (hU : E'.U = E.U) (hS : E'.S = E.S)
    (hB : E'.isBuiltin = E.isBuiltin) (hm : 0 < E.S.merge) (name : Str)
    (k : SeqKind) (t t' : Ty) (es es' : List Val) (imports : Bool)
    (hs : ∀ e ∈ es, Scalar e) (hw : ∀ e ∈ es, Word E.U e.ty.name) (hs' : ∀ e ∈ es', Scalar e)
    (hl : E.S.checkMax = 0 ∨ es.length ≤ E.S.checkMax) (hl' : E.S.checkMax = 0 ∨ es'.length ≤ E.S.checkMax)
    (hk : k = .tuple → E.S.tuple = .anySize ∧ E.isBuiltin py!"Any" = false)
    (hset : ∀ c, c ∈ es.map Val.ty ↔ c ∈ es'.map Val.ty) (text : Str) (hok : generate E name (.seq k t es) imports = .ok text) :
    generate E name (.seq k t es) imports = generate E' name (.seq k t' es') imports := by
  have hfine : nameOk E.U name = true ∧ ∀ e ∈ es, Word E.U (E.U.capitalize e.ty.name) := by
    unfold generate at hok
    cases hd : fromData E name (.seq k t es) with
    | error e => rw [hd] at hok; cases hok
    | ok n => exact fine_of_success hs hl hd
  have hn := hfine.1
  have hes : ∀ e ∈ es, Scalar e ∧ TyFine E.U e.ty := fun e he => ⟨hs e he, hw e he, hfine.2 e he⟩
  have hes' : ∀ e ∈ es', Scalar e ∧ TyFine E.U e.ty := fun e he => by
    obtain ⟨x, hx, hxe⟩ := List.mem_map.mp ((hset e.ty).2 (List.mem_map_of_mem he))
    exact ⟨hs' e he, hxe ▸ (hes x hx).2⟩
  obtain ⟨n, a1, _, a3, a4, a5⟩ := flat_kws (t := t) hE hm hn hes hl hk
  obtain ⟨n', b1, _, b3, b4, b5⟩ := flat_kws (t := t') hE' (by rw [hS]; exact hm) (by rw [hU]; exact hn)
    (by rw [hU]; exact hes') (by rw [hS]; exact hl') (by rw [hS, hB]; exact hk)
  have ha : ∀ c, atom E' c = atom E c := by intro c; simp only [atom, hB]
  have h0 : es.map Val.ty = [] ↔ es'.map Val.ty = [] := mem_nil_iff_of hset
  have hx : ∀ x, x ∈ (es.map Val.ty).map (fun t => (atom E t).print) ↔ x ∈ (es'.map Val.ty).map (fun t => (atom E t).print) := by
    intro x
    simp only [List.mem_map (f := fun t => (atom E t).print)]
    constructor
    · rintro ⟨c, hc, rfl⟩; exact ⟨c, (hset c).1 hc, rfl⟩
    · rintro ⟨c, hc, rfl⟩; exact ⟨c, (hset c).2 hc, rfl⟩
  have he : elemText E (es.map Val.ty) = elemText E' (es'.map Val.ty) := by
    unfold elemText
    by_cases h : es.map Val.ty = []
    · rw [if_pos h, if_pos (h0.mp h)]
    · rw [if_neg h, if_neg (fun h' => h (h0.mpr h'))]
      simp only [ha]
      rw [uniqueTypes_congr hx]
  have hkw : flatKws E k (es.map Val.ty) = flatKws E' k (es'.map Val.ty) := by
    unfold flatKws
    simp only [ha, hS, hset]
    by_cases h : es.map Val.ty = []
    · rw [if_pos h, if_pos h, if_pos (h0.mp h), if_pos (h0.mp h)]
    · have h' : es'.map Val.ty ≠ [] := fun h' => h (h0.mpr h')
      rw [if_neg h, if_neg h, if_neg h', if_neg h', uniqueTypes_congr hx]
  simp only [generate, a1, b1]
  rw [toString_congr a3 b3 (by rw [a4, b4, he, hS]) (fun kw => by rw [a5, b5, hkw])]

theorem zip_self_mem {α} {q : α × α} : ∀ {l : List α}, q ∈ l.zip l → q.1 = q.2
  | [], h => by simp at h
  | a :: r, h => by
    simp only [List.zip_cons_cons, List.mem_cons] at h
    rcases h with rfl | h
    · rfl
    · exact zip_self_mem h

/-- **C24**, for all tuples but the empty one: under the fixed strategy the hint of a tuple of plain instances within the
limit lists one class per position, each being the class of the element at that position. -/
theorem fixed_tuple_positions_partial (hm : 0 < E.S.merge) (hany : E.isBuiltin py!"Any" = false) (hS : E.S.tuple = .fixed)
    (name : Str) (t : Ty) (es : List Val) (hne : es ≠ []) (hs : ∀ e ∈ es, Scalar e) (hw : ∀ e ∈ es, Word E.U e.ty.name)
    (hl : E.S.checkMax = 0 ∨ es.length ≤ E.S.checkMax) (hf : NameFree name es)
    (n : Node) (hok : fromData E name (.seq .tuple t es) = .ok n) :
    ∃ ts : List TExpr,
      declsOf E name (.seq .tuple t es) = [TDecl.print ⟨name, .alias (.tuple ts)⟩] ∧ ts.length = es.length ∧
      (∀ p ∈ ts.zip es, Writes p.1 p.2.ty) ∧
      Admits [⟨name, .alias (.tuple ts)⟩] (.name name) (.seq .tuple t es) := by
  have hfine := fine_of_success hs hl hok
  have hn := hfine.1
  have hes : ∀ e ∈ es, Scalar e ∧ TyFine E.U e.ty := fun e he => ⟨hs e he, hw e he, hfine.2 e he⟩
  have hlim : limit E.S.checkMax es = es := by
    unfold limit
    split
    · rfl
    · rcases hl with h | h
      · contradiction
      · exact List.take_of_length_le h
  obtain ⟨kids, h1, h2, h3⟩ := tupleChildren_scalar hm (f := depthList es) (fun v hv => (hes v hv).1)
    (elemNamesOk hn (fun e he => (hes e he).2)) hlim
  have hb : buildTree E name (.seq .tuple t es) =
      .ok (.mk ⟨.seq .tuple, name, true, t, kids.map (fun _ => Slot.seq 1)⟩ kids) := by
    rw [buildTree, Val.depth, build_seq, if_pos hn]
    rw [if_pos ⟨rfl, hS⟩, h1]
  have hwk : ∀ k ∈ kids, Word E.U k.hdr.ty.name := by
    intro k hk
    have : k.hdr.ty ∈ kids.map (fun k => k.hdr.ty) := List.mem_map_of_mem hk
    rw [h3] at this
    obtain ⟨e, he, hee⟩ := List.mem_map.mp this
    rw [← hee]; exact (hes e he).2.1
  have hit : iterate (kids.map (fun _ => Slot.seq 1)) (outList E (sigImports E.U) kids) = outList E (sigImports E.U) kids := by
    apply iterate_seq
    · simp [outList_eq_map]
    · intro s hs
      obtain ⟨_, _, rfl⟩ := List.mem_map.mp hs
      simp [Slot.seq]
  have hrefs := refs_flat (E := E) h2 hwk (sigImports E.U)
  rw [h3, List.map_map] at hrefs
  have hkne : outList E (sigImports E.U) kids ≠ [] := by
    intro h; rw [h] at hrefs; simp at hrefs; exact hne hrefs
  have hpair : ∀ p ∈ (es.map (fun e => atom E e.ty)).zip es, p.1 = atom E p.2.ty := by
    intro p hp
    rw [List.zip_map_left] at hp
    obtain ⟨q, hq, rfl⟩ := List.mem_map.mp hp
    have : q.1 = q.2 := zip_self_mem hq
    simp [Prod.map, this]
  refine ⟨es.map (fun e => atom E e.ty), ?_, by simp, ?_, ?_⟩
  · simp only [declsOf, fromData, hn, if_true, hb]
    rw [render_flat h2 rfl]
    simp only [topOf, hit, typeAlias, tupleAliasChildren, hS, childTypes_false hkne, hrefs]
    rw [if_neg]
    · simp [TDecl.print, TExpr.print, printList_eq_map, Function.comp_def]
    · intro h
      have : py!"Any" ∈ es.map ((fun t => (atom E t).print) ∘ Val.ty) := by rw [h]; simp
      obtain ⟨e, _, he⟩ := List.mem_map.mp this
      exact atom_ne_any hany he
  · intro p hp
    rw [hpair p hp]; exact atom_writes E _
  · refine .alias (t := .tuple (es.map (fun e => atom E e.ty))) ⟨by simp, by simp⟩
      (.tuple (noShadow_single hf _ _ (by decide)) (by simp) ?_)
    intro p hp
    rw [hpair p hp]
    exact atom_admits E (noShadow_single hf _) _ (notDeclared_single hf _ _ (List.of_mem_zip hp).2)

end

/-- The full statement of C24: the hint of a fixed tuple lists as many types as the tuple has elements. -/
def FixedTuplePositions (E : Env) : Prop :=
  ∀ (name : Str) (t : Ty) (es : List Val), nameOk E.U name = true → (∀ e ∈ es, Scalar e ∧ TyOk E.U e.ty) →
    (E.S.checkMax = 0 ∨ es.length ≤ E.S.checkMax) →
    ∃ ts : List TExpr, declsOf E name (.seq .tuple t es) = [TDecl.print ⟨name, .alias (.tuple ts)⟩] ∧ ts.length = es.length

/-- **C24** fails for the empty tuple, whose hint is `Tuple[Any, ...]`. -/
theorem fixed_tuple_positions_fails : ¬ FixedTuplePositions (exEnv {}) := by
  intro h
  obtain ⟨ts, h1, h2⟩ := h py!"X" .tuple [] (by decide) (by simp) (by decide)
  have : ts = [] := List.eq_nil_of_length_eq_zero h2
  subst this
  revert h1
  decide +kernel

/-- **C22** for the empty tuple under the fixed strategy: its hint is `Tuple[Any, ...]`, which admits it. -/
theorem empty_tuple_sound {E : Env} (hm : 0 < E.S.merge) (hS : E.S.tuple = .fixed) (name : Str) (t : Ty) (hn : nameOk E.U name = true)
    (hf : NameFree name []) :
    declsOf E name (.seq .tuple t []) = [TDecl.print ⟨name, .alias (.tupleOf (.name py!"Any"))⟩] ∧
    Admits [⟨name, .alias (.tupleOf (.name py!"Any"))⟩] (.name name) (.seq .tuple t []) := by
  obtain ⟨kids, h1, h2, h3⟩ := tupleChildren_scalar hm (E := E) (parent := name) (es := []) (f := 0) (by simp) (by intro v hv; simp at hv)
    (limit_whole (.inr (by simp)))
  have hk : kids = [] := by simpa using h3
  subst hk
  have hb : buildTree E name (.seq .tuple t []) = .ok (.mk ⟨.seq .tuple, name, true, t, []⟩ []) := by
    rw [buildTree, Val.depth, build_seq, if_pos hn, if_pos ⟨rfl, hS⟩]
    show (match tupleChildren E (build E 1 false) name [] with | .ok (slots, kids) => _ | .error e => _) = _
    rw [h1]; rfl
  refine ⟨?_, ?_⟩
  · simp only [declsOf, fromData, hn, if_true, hb]
    rw [render_flat (by simp) rfl]
    simp [topOf, outList, iterate, tupleAliasChildren, childTypes, typeAlias, hS, TDecl.print, TExpr.print]
  · have hsh := noShadow_single hf (.alias (.tupleOf (.name py!"Any")))
    exact .alias (t := .tupleOf (.name py!"Any")) ⟨by simp, by simp⟩ (.tupleOf (hsh _ (by decide)) (by simp))

/-- The full statement of C25, whatever the element limit. -/
def OrderFree (E : Env) : Prop :=
  ∀ (name : Str) (t : Ty) (es es' : List Val), (∀ e ∈ es, Scalar e) → (∀ e ∈ es', Scalar e) → es.Perm es' →
    generate E name (.seq .list t es) false = generate E name (.seq .list t es') false

/-- **C25** fails for lists longer than the limit: with limit 1, the hints of `[1, ""]` and `["", 1]` differ. -/
theorem scalar_sequence_order_free_fails : ¬ OrderFree (exEnv { checkMax := 1 }) := by
  intro h
  have := h py!"X" .list [.inst .int none, .inst .str none] [.inst .str none, .inst .int none] (by simp [Scalar]) (by simp [Scalar])
    (.swap _ _ _)
  revert this
  decide +kernel

/-- The interpreter of the examples, with sets iterated backwards. -/
def revEnv (S : Strategies) : Env := { exEnv S with order := fun _ l => l.reverse }

theorem exEnv_fair (S : Strategies) : (exEnv S).Fair := ⟨fun _ _ => .refl _, fun _ _ => rfl⟩
theorem revEnv_fair (S : Strategies) : (revEnv S).Fair := ⟨fun _ l => List.reverse_perm l, fun _ _ => rfl⟩

/-- The full statement of C26: the text does not depend on the iteration order of Python sets. -/
def Deterministic : Prop :=
  ∀ (E E' : Env) (name : Str) (v : Val) (imports : Bool), E.Fair → E'.Fair → E'.U = E.U → E'.S = E.S →
    E'.isBuiltin = E.isBuiltin → E'.reprStr = E.reprStr → generate E name v imports = generate E' name v imports

/-- **C26** is false: the declarations of two dictionaries in one list come in the order in which a set is iterated. -/
theorem deterministic_fails : ¬ Deterministic := by
  intro h
  have := h (exEnv {}) (revEnv {}) py!"X"
    (.seq .list .list [.dict [(.str py!"a", .inst .int none)], .dict [(.str py!"b", .inst .int none)]]) false
    (exEnv_fair _) (revEnv_fair _) rfl rfl rfl rfl
  revert this
  decide +kernel

/-- **C26** for sequences of plain instances (see also `scalar_sequence_order_free_partial`). -/
theorem deterministic_scalars_partial {E E' : Env} (hE : E.Fair) (hE' : E'.Fair) (hU : E'.U = E.U) (hS : E'.S = E.S)
    (hB : E'.isBuiltin = E.isBuiltin) (hm : 0 < E.S.merge) (name : Str) (k : SeqKind) (t : Ty) (es : List Val)
    (imports : Bool) (hs : ∀ e ∈ es, Scalar e) (hw : ∀ e ∈ es, Word E.U e.ty.name)
    (hl : E.S.checkMax = 0 ∨ es.length ≤ E.S.checkMax)
    (hk : k = .tuple → E.S.tuple = .anySize ∧ E.isBuiltin py!"Any" = false)
    (text : Str) (hok : generate E name (.seq k t es) imports = .ok text) :
    generate E name (.seq k t es) imports = generate E' name (.seq k t es) imports :=
  scalar_sequence_order_free_partial hE hE' hU hS hB hm name k t t es es imports hs hw hs hl hl hk (fun _ => Iff.rfl) text hok

/-- A list with repetitions, `None`, both number classes and a class that is not built in. -/
def sampleScalars : List Val :=
  [.inst .int none, .inst .noneType none, .inst .float none, .inst .int none, .inst ⟨py!"Path", 7⟩ none]

theorem sampleScalars_ok : ∀ e ∈ sampleScalars, Scalar e ∧ TyOk asciiUni e.ty := by
  simp only [sampleScalars, List.mem_cons, List.not_mem_nil, or_false, forall_eq_or_imp, forall_eq]
  refine ⟨?_, ?_, ?_, ?_, ?_⟩ <;> exact ⟨trivial, tyOk_ascii (by decide)⟩

example : declsOf (exEnv {}) py!"X" (.seq .list .list sampleScalars) =
    [py!"X: TypeAlias = List[Union[\"Path\", Optional[object], float]]"] := by decide +kernel
example : declsOf (exEnv { tuple := .anySize }) py!"X" (.seq .tuple .tuple sampleScalars) =
    [py!"X: TypeAlias = Tuple[Union[\"Path\", Optional[object], float], ...]"] := by decide +kernel
example : declsOf (exEnv {}) py!"X" (.seq .tuple .tuple sampleScalars) =
    [py!"X: TypeAlias = Tuple[int, Optional[object], float, int, \"Path\"]"] := by decide +kernel
example : NameFree py!"X" sampleScalars := ⟨by decide, by
  simp only [sampleScalars, List.mem_cons, List.not_mem_nil, or_false, forall_eq_or_imp, forall_eq]; decide⟩

/-- Why the class name must differ from the identifiers used: `int: TypeAlias = List[int]` does not admit `[1]`. -/
theorem shadowing_name_unsound :
    declsOf (exEnv {}) py!"int" (.seq .list .list [.inst .int none]) =
      [TDecl.print ⟨py!"int", .alias (.app py!"List" (.name py!"int"))⟩] ∧
    ¬ Admits [⟨py!"int", .alias (.app py!"List" (.name py!"int"))⟩] (.name py!"int") (.seq .list .list [.inst .int none]) := by
  refine ⟨by decide +kernel, ?_⟩
  have hd : Declared [⟨py!"int", .alias (.app py!"List" (.name py!"int"))⟩] py!"int" := ⟨_, List.mem_singleton_self _, rfl⟩
  have key : ∀ v, Admits [⟨py!"int", .alias (.app py!"List" (.name py!"int"))⟩] (.name py!"int") v →
      ∃ k ty es, v = .seq k ty es ∧
        ∀ e ∈ es, Admits [⟨py!"int", .alias (.app py!"List" (.name py!"int"))⟩] (.name py!"int") e := by
    intro v h
    have hdef : Defines [⟨py!"int", .alias (.app py!"List" (.name py!"int"))⟩] py!"int"
      (.alias (.app py!"List" (.name py!"int"))) := ⟨by simp, by simp⟩
    rcases admits_declared h hd with ⟨t, h1, h2⟩ | ⟨f, doc, es, ty, ks, vs, _, h1, _⟩ | ⟨ovs, rest, h1⟩
    · have := defines_unique h1 hdef
      injection this with this
      subst this
      rcases admits_app h2 with ⟨k, ty, es, rfl, _, h3⟩ | ⟨h4, _⟩
      · exact ⟨k, ty, es, rfl, h3⟩
      · exact absurd h4 (by decide)
    · cases defines_unique h1 hdef
    · cases defines_unique h1 hdef
  intro h
  obtain ⟨k, ty, es, he, h'⟩ := key _ h
  injection he with _ _ he
  subst he
  obtain ⟨_, _, _, he, _⟩ := key _ (h' (.inst .int none) (by simp))
  cases he

example : nameOk asciiUni py!"X" = true ∧ (exEnv {}).isBuiltin py!"Any" = false ∧ sampleScalars.length ≤ (exEnv {}).S.checkMax := by
  decide

end Verif.Props
