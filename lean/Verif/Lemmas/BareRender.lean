import Verif.Lemmas.BareBuild
import Verif.Lemmas.Abs
import Verif.Lemmas.SimRender
import Verif.Props.Records
/-
The text of trees with and without comments.
-/
namespace Verif
open Verif.Spec Verif.Props

/-- Declarations whose texts differ at most in docstrings. -/
structure DocEq (d d' : Decl) : Prop where
  text : UpToDocs d.text d'.text
  kws : d.kws = d'.kws
  fails : d.fails = d'.fails

/-- Renderings that differ at most in docstrings. -/
structure OutDoc (o o' : Out) : Prop where
  name : o.name = o'.name
  height : o.height = o'.height
  perm : o.perm = o'.perm
  top : DocEq o.top o'.top
  inline : o.perm = false → o.top.text = o'.top.text
  emitted : All₂ DocEq o.emitted o'.emitted

theorem DocEq.of_eq {d d' : Decl} (h : d = d') : DocEq d d' := h ▸ ⟨.same _, rfl, rfl⟩

theorem OutDoc.ref {o o' : Out} (h : OutDoc o o') : childRef o = childRef o' := by
  unfold childRef
  rw [← h.perm, ← h.name]
  cases hp : o.perm with
  | true => rfl
  | false => simp only [Bool.false_eq_true, if_false, h.inline hp]

theorem OutDoc.refKws {o o' : Out} (h : OutDoc o o') : refKws o = refKws o' := by
  simp only [Verif.refKws, h.perm, h.top.kws]

theorem OutDoc.entryType {E : Env} {m : DMeta} {key : Str} {o o' : Out} (h : OutDoc o o') : entryType E m key o = entryType E m key o' := by
  have : (if o.perm then (toCamel E.U o.name, []) else (withoutLvalue o.top.text, o.top.kws) : Str × List Str) =
      if o'.perm then (toCamel E.U o'.name, []) else (withoutLvalue o'.top.text, o'.top.kws) := by
    rw [← h.perm, ← h.name, ← h.top.kws]
    cases hp : o.perm with
    | true => rfl
    | false => simp only [Bool.false_eq_true, if_false, h.inline hp]
  unfold Verif.entryType
  rw [this]

section
variable {E : Env}

/-- The keys of the configured docstring is not hidden. -/
theorem classDoc_bare (hk : (Key.str E.S.keyDoc).hidden = false) (d : List (Key × Val)) : classDoc E (bareData d) = classDoc E d := by
  unfold classDoc
  split
  · rfl
  · rw [lookup_bareData hk]
    cases lookupKey (.str E.S.keyDoc) d with
    | none => rfl
    | some v =>
      cases v with
      | map k t ks vs => cases k <;> simp [withoutComments]
      | _ => simp [withoutComments]

theorem ident_hidden {U : Uni} {s : Str} (h : nameOk U s = true) : (!kwlist.contains (hiddenPrefix ++ s) && nameOk U (hiddenPrefix ++ s)) = true := by
  have h1 : nameOk U hiddenPrefix = true := by
    rw [ascii_ident_nameOk U hiddenPrefix (by decide) ⟨'_', hiddenPrefix.tail, by decide, .inr rfl, by decide⟩]
    exact ⟨'d', by decide, by decide⟩
  have h2 := nameOk_append h1 (word_of_nameOk h)
  have h3 : kwlist.contains (hiddenPrefix ++ s) = false := by
    simpa using hidden_not_keyword (k := s)
  rw [h2, h3]; rfl

theorem isFunctional_bare {U : Uni} {m : DMeta} (h : Clad E.S m.data) : isFunctional U (bareMeta m) = isFunctional U m := by
  unfold isFunctional
  have e : (bareMeta m).data = bareData m.data := rfl
  rw [e, allStr_bare]
  congr 2
  rw [Bool.eq_iff_iff, List.all_eq_true, List.all_eq_true]
  constructor
  · intro ha kv hkv
    have vis : ∀ kv ∈ m.data, kv.1.hidden = false → (match kv.1 with
        | .str s => !kwlist.contains s && nameOk U s
        | _ => false) = true := by
      intro kv hkv hv
      exact ha (kv.1, withoutComments kv.2) (List.mem_map.mpr ⟨kv, List.mem_filter.mpr ⟨hkv, by simp [hv]⟩, rfl⟩)
    cases hh : kv.1.hidden with
    | false => exact vis kv hkv hh
    | true =>
      obtain ⟨s, e, hm, hv⟩ := h.owned kv.1 (List.mem_map_of_mem hkv) hh
      obtain ⟨kv', hkv', e'⟩ := List.mem_map.mp hm
      have := vis kv' hkv' (by rw [e']; exact hv)
      rw [e'] at this
      simp only [Bool.and_eq_true] at this
      rw [e]
      exact ident_hidden this.2
  · intro ha kv hkv
    obtain ⟨kv', hkv', rfl⟩ := List.mem_map.mp hkv
    exact ha kv' (List.mem_filter.mp hkv').1

theorem keyDoc_bare (m : DMeta) (key : Str) : keyDoc (bareMeta m) key = none := by
  unfold keyDoc
  have e : (bareMeta m).data = bareData m.data := rfl
  rw [e, lookup_bareData_hidden (by simp [Key.hidden, startsWith])]
  split <;> rfl

theorem filterMap_entries {E : Env} {m m' : DMeta} (hm : m.req = m'.req) {g g' : Key × Out → Option (Str × (Str × List Str))}
    (g1 : ∀ s o, g (.str s, o) = some (s, entryType E m s o)) (g2 : ∀ o, g (.none, o) = none) (g3 : ∀ t r o, g (.other t r, o) = none)
    (g1' : ∀ s o, g' (.str s, o) = some (s, entryType E m' s o)) (g2' : ∀ o, g' (.none, o) = none) (g3' : ∀ t r o, g' (.other t r, o) = none)
    {kids kids' : List (Key × Out)} (h : All₂ (fun (a b : Key × Out) => a.1 = b.1 ∧ OutDoc a.2 b.2) kids kids') :
    kids.filterMap g = kids'.filterMap g' := by
  induction h with
  | nil => rfl
  | @cons a b l₁ l₂ h _ ih =>
    obtain ⟨k, o⟩ := a
    obtain ⟨k', o'⟩ := b
    obtain ⟨rfl, ho⟩ := h
    cases k with
    | str s =>
      have : entryType E m s o = entryType E m' s o' := by rw [ho.entryType]; unfold entryType; rw [hm]
      simp only [List.filterMap_cons, g1, g1', ih, this]
    | none => simpa only [List.filterMap_cons, g2, g2'] using ih
    | other t r => simpa only [List.filterMap_cons, g3, g3'] using ih

theorem typedTop_bare (hk : (Key.str E.S.keyDoc).hidden = false) {h h' : Hdr} (hn : h.name = h'.name) {data : List (Key × Val)} {m : DMeta}
    {kids kids' : List (Key × Out)} (hm : Clad E.S m.data)
    (ho : All₂ (fun (a b : Key × Out) => a.1 = b.1 ∧ OutDoc a.2 b.2) kids kids') :
    UpToDocs (typedTop E h data m kids).1 (typedTop E h' (bareData data) (bareMeta m) kids').1 ∧
      (typedTop E h data m kids).2 = (typedTop E h' (bareData data) (bareMeta m) kids').2 := by
  have he := filterMap_entries (E := E) (m := m) (m' := bareMeta m) rfl
    (g := fun kk => match kk.1 with | .str s => some (s, entryType E m s kk.2) | _ => none)
    (g' := fun kk => match kk.1 with | .str s => some (s, entryType E (bareMeta m) s kk.2) | _ => none)
    (fun _ _ => rfl) (fun _ => rfl) (fun _ _ _ => rfl) (fun _ _ => rfl) (fun _ => rfl) (fun _ _ _ => rfl) ho
  constructor
  · rw [typed_raw, typed_raw]
    have e1 : textEntries E m kids = textEntries E (bareMeta m) kids' := by
      unfold textEntries
      exact congrArg (List.map (fun e : Str × (Str × List Str) => (e.1, e.2.1))) he
    have e2 : rawEntries E (bareMeta m) kids' = (rawEntries E m kids).map fun e => { e with doc := none } := by
      unfold rawEntries
      rw [← e1, List.map_map]
      apply List.map_congr_left
      intro e _
      simp [entryDoc, keyDoc_bare]
    have e3 : recordDoc E (bareMeta m) (bareData data) = recordDoc E m data := by
      unfold recordDoc
      rw [isFunctional_bare hm, classDoc_bare hk]
    rw [e2, e3, isFunctional_bare hm, ← hn]
    exact .record _ _ _ _
  · unfold typedTop
    dsimp only
    exact congrArg (fun l : List (Str × (Str × List Str)) => py!"TypedDict" :: l.flatMap (fun e => e.2.2)) he

theorem childTypes_doc {kids kids' : List Out} (h : All₂ OutDoc kids kids') (b : Bool) : childTypes kids b = childTypes kids' b := by
  unfold childTypes
  rw [h.map_eq (f := childRef) (g := childRef) (fun _ _ h => h.ref), h.flatMap_eq (f := refKws) (g := refKws) (fun _ _ h => h.refKws)]

theorem aliasChildren_doc {kids kids' : List Out} (h : All₂ OutDoc kids kids') : aliasChildren kids = aliasChildren kids' := by
  unfold aliasChildren
  rw [childTypes_doc h]

theorem tupleAlias_doc {S : Strategies} {kids kids' : List Out} (h : All₂ OutDoc kids kids') : tupleAliasChildren S kids = tupleAliasChildren S kids' := by
  unfold tupleAliasChildren
  simp only [childTypes_doc h]

theorem mapTop_doc {h h' : Hdr} (hn : h.name = h'.name) (ht : h.ty = h'.ty) {keys : List Key} {kids kids' : List Out} (hk : All₂ OutDoc kids kids') :
    mapTop E h keys kids = mapTop E h' keys kids' := by
  unfold mapTop
  rw [childTypes_doc hk, aliasChildren_doc hk, hn, ht]

theorem frameTop_doc {h h' : Hdr} (hn : h.name = h'.name) {kids kids' : List (Key × Out)}
    (hk : All₂ (fun (a b : Key × Out) => a.1 = b.1 ∧ OutDoc a.2 b.2) kids kids') : frameTop E h kids = frameTop E h' kids' := by
  have hl := hk.filter (p := fun kk => literalKey kk.1) (q := fun kk => literalKey kk.1) (fun a b h => by rw [h.1])
  have h1 := hl.map_eq (f := fun kk => frameOverload E kk.1 (childRef kk.2)) (g := fun kk => frameOverload E kk.1 (childRef kk.2))
    (fun a b h => by rw [h.1, h.2.ref])
  have h2 := hl.map_eq (f := fun kk => reprKey E kk.1) (g := fun kk => reprKey E kk.1) (fun a b h => by rw [h.1])
  have h3 := hk.all_eq (p := fun kk => literalKey kk.1) (q := fun kk => literalKey kk.1) (fun a b h => by rw [h.1])
  have h4 := hl.flatMap_eq (f := fun kk : Key × Out => refKws kk.2) (g := fun kk : Key × Out => refKws kk.2) (fun a b h => h.2.refKws)
  unfold frameTop
  simp only [hk.isEmpty, h1, h2, h3, h4, hn]

/-- The header without comments. -/
def bareHdr (h : Hdr) : Hdr := { h with kind := bareKind h.kind }

theorem topOf_doc (hk : (Key.str E.S.keyDoc).hidden = false) {im : Str → List Str} {h : Hdr} (hc : CladHdr E.S h) {kids kids' : List Out} (ho : All₂ OutDoc kids kids') :
    DocEq (topOf E im h kids) (topOf E im (bareHdr h) kids') ∧
      ((∀ d m, h.kind = .dict d m → m.isTyped E.S = false) → topOf E im h kids = topOf E im (bareHdr h) kids') := by
  have hi := ho.iterate h.slots
  have hz := ho.zip (h.slots.map (·.key))
  have both : ∀ {a b : Decl} {P : Prop}, a = b → DocEq a b ∧ (P → a = b) := fun e => ⟨.of_eq e, fun _ => e⟩
  obtain ⟨k, name, root, ty, slots⟩ := h
  cases k with
  | inst => exact both rfl
  | func f => exact both rfl
  | cls n => exact both rfl
  | module => exact both rfl
  | io => exact both rfl
  | ndarray d => exact both rfl
  | seq k =>
    apply both
    cases k <;> simp only [topOf, bareHdr, bareKind] <;> first | rw [aliasChildren_doc hi] | rw [tupleAlias_doc hi]
  | dict d m =>
    simp only [topOf, bareHdr, bareKind, isTyped_bare]
    cases ht : m.isTyped E.S with
    | false =>
      simp only [Bool.false_eq_true, if_false]
      apply both
      rw [mapTop_doc (E := E) (h := ⟨.dict d m, name, root, ty, slots⟩) (h' := ⟨.dict (bareData d) (bareMeta m), name, root, ty, slots⟩) rfl rfl hi]
    | true =>
      simp only [if_true]
      refine ⟨?_, fun h => ?_⟩
      · obtain ⟨a, b⟩ := typedTop_bare hk (E := E) (h := ⟨.dict d m, name, root, ty, slots⟩) (h' := ⟨.dict (bareData d) (bareMeta m), name, root, ty, slots⟩)
          rfl (data := d) (m := m) hc.2.data hz
        exact ⟨a, b, rfl⟩
      · have := h d m rfl
        rw [ht] at this
        cases this
  | proxy =>
    simp only [topOf, bareHdr, bareKind]
    apply both
    rw [mapTop_doc (E := E) (h := ⟨.proxy, name, root, ty, slots⟩) (h' := ⟨.proxy, name, root, ty, slots⟩) rfl rfl hi]
  | frame i =>
    simp only [topOf, bareHdr, bareKind]
    apply both
    rw [frameTop_doc (E := E) (h := ⟨.frame i, name, root, ty, slots⟩) (h' := ⟨.frame i, name, root, ty, slots⟩) rfl hz]

theorem foldl_height_doc {l l' : List Out} (h : All₂ OutDoc l l') : ∀ m, l.foldl (fun m k => max k.height m) m = l'.foldl (fun m k => max k.height m) m := by
  induction h with
  | nil => intro _; rfl
  | cons h _ ih => intro m; simp only [List.foldl_cons, h.height, ih]

theorem permOf_bare (S : Strategies) (h : Hdr) (n : Nat) : permOf S (bareHdr h) n = permOf S h n := by
  obtain ⟨k, name, root, ty, slots⟩ := h
  cases k <;> simp [permOf, bareHdr, bareKind, isTyped_bare]

theorem combine_doc (hk : (Key.str E.S.keyDoc).hidden = false) {im : Str → List Str} {h : Hdr} (hc : CladHdr E.S h) {kids kids' : List Out}
    (ho : All₂ OutDoc kids kids') : OutDoc (combine E im h kids) (combine E im (bareHdr h) kids') := by
  have hi : All₂ OutDoc (iterate h.slots kids) (iterate h.slots kids') := ho.iterate h.slots
  have hh : heightOf h (iterate h.slots kids) = heightOf (bareHdr h) (iterate (bareHdr h).slots kids') := by
    unfold heightOf
    rw [foldl_height_doc hi]
    obtain ⟨k, name, root, ty, slots⟩ := h
    cases k <;> rfl
  obtain ⟨ht, ht'⟩ := topOf_doc (im := im) hk hc ho
  have hp : permOf E.S h (heightOf h (iterate h.slots kids)) = permOf E.S (bareHdr h) (heightOf (bareHdr h) (iterate (bareHdr h).slots kids')) := by
    rw [permOf_bare, hh]
  refine ⟨rfl, hh, hp, ht, ?_, ?_⟩
  · intro hf
    show (topOf E im h kids).text = _
    rw [ht']
    · rfl
    · intro d m e
      change permOf E.S h _ = false at hf
      unfold permOf at hf
      rw [e] at hf
      simp only [Bool.or_eq_false_iff] at hf
      exact hf.1
  · unfold combine
    dsimp only
    rw [← hp]
    unfold emitOf
    have es : (bareHdr h).slots = h.slots := rfl
    have er : (bareHdr h).root = h.root := rfl
    rw [ho.isEmpty, es, er]
    have hl : ∀ b : Bool, All₂ DocEq (if b then [topOf E im h kids] else []) (if b then [topOf E im (bareHdr h) kids'] else []) := by
      intro b
      cases b with
      | true => exact .cons ht .nil
      | false => exact .nil
    split
    · exact hl _
    · refine All₂.append (All₂.flatMap_rel ?_ hi) (hl _)
      intro a b hab
      refine hab.emitted.append ?_
      rw [hab.perm]
      split
      · exact .cons hab.top .nil
      · exact .nil

mutual
theorem out_doc (hk : (Key.str E.S.keyDoc).hidden = false) {im : Str → List Str} : ∀ n : Node, NodeAll (CladHdr E.S) n → OutDoc (n.out E im) ((bareTree n).out E im)
  | .mk h kids, hn => by
    simp only [NodeAll] at hn
    simp only [bareTree, Node.out]
    exact combine_doc hk hn.1 (outList_doc hk kids hn.2)
theorem outList_doc (hk : (Key.str E.S.keyDoc).hidden = false) {im : Str → List Str} : ∀ l : List Node, NodeAllList (CladHdr E.S) l →
    All₂ OutDoc (outList E im l) (outList E im (bareTrees l))
  | [], _ => .nil
  | n :: r, hn => by
    simp only [NodeAllList] at hn
    simp only [bareTrees, outList]
    exact .cons (out_doc hk n hn.1) (outList_doc hk r hn.2)
end

theorem firstFailure_doc {l l' : List Decl} (h : All₂ DocEq l l') : firstFailure l = firstFailure l' := by
  induction h with
  | nil => rfl
  | cons h _ ih => simp only [firstFailure, h.fails, ih]

end

/-- The fuel of a value without comments. -/
theorem bare_depth : ∀ v : Val, (withoutComments v).depth ≤ v.depth := by
  have main : ∀ (n : Nat) (v : Val), v.depth ≤ n → (withoutComments v).depth ≤ v.depth := by
    intro n
    induction n with
    | zero =>
      intro v h
      cases v with
      | seq k t es => simp [Val.depth] at h
      | map k t ks vs => simp [Val.depth] at h
      | _ => simp [withoutComments]
    | succ n ih =>
      intro v h
      have hl : ∀ l : List Val, depthList l ≤ n → depthList (l.map withoutComments) ≤ depthList l := by
        intro l hl
        apply depthList_le
        intro w hw
        obtain ⟨x, hx, rfl⟩ := List.mem_map.mp hw
        have hx' := depth_le_depthList hx
        exact Nat.le_trans (ih x (by omega)) hx'
      have hm : ∀ (ks : List Key) (vs : List Val), depthList vs ≤ n → depthList ((bareData (ks.zip vs)).map (·.2)) ≤ depthList vs := by
        intro ks vs hl
        apply depthList_le
        intro w hw
        obtain ⟨x, hx, rfl⟩ := List.mem_map.mp hw
        obtain ⟨y, hy, rfl⟩ := List.mem_map.mp hx
        have hy' := zip_depth (List.mem_filter.mp hy).1
        exact Nat.le_trans (ih y.2 (by omega)) hy'
      cases v with
      | seq k t es =>
        simp only [Val.depth] at h
        simp only [withoutComments, Val.depth, bareList_map]
        have := hl es (by omega)
        omega
      | map k t ks vs =>
        simp only [Val.depth] at h
        cases k with
        | dict =>
          rw [bare_dictMap]
          simp only [Val.depth]
          have := hm ks vs (by omega)
          omega
        | proxy =>
          rw [bare_proxyMap]
          simp only [Val.depth]
          have := hm ks vs (by omega)
          omega
        | frame i =>
          simp only [withoutComments, Val.depth, bareList_map]
          have := hl vs (by omega)
          omega
      | _ => simp [withoutComments]
  intro v
  exact main _ v (Nat.le_refl _)

theorem fromData_bare {E : Env} (hE : E.Fair) (hO : OrderIgnoresComments E) {name : Str} {v : Val} (hv : Commented E.S v) :
    fromData E name (withoutComments v) = (fromData E name v).map bareTree ∧ ∀ n, fromData E name v = .ok n → NodeAll (CladHdr E.S) n := by
  unfold fromData buildTree
  split
  · obtain ⟨h1, h2⟩ := build_bare hE hO (v.depth + 1) true name v hv
    rw [← build_fuel hE (f := (withoutComments v).depth + 1) (f' := v.depth + 1) (by omega) (by have := bare_depth v; omega), h1]
    cases hb : build E (v.depth + 1) true name v with
    | error e => exact ⟨rfl, fun _ h => by cases h⟩
    | ok n => exact ⟨rfl, fun n' h => by injection h with h; exact h ▸ h2 n hb⟩
  · exact ⟨rfl, fun _ h => by cases h⟩

end Verif
