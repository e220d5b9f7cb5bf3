import Verif.Props.Scalars
import Verif.Lemmas.Share
import Verif.Lemmas.FitsBuild
/-
C42: which entries of a dictionary contribute to its hint.
-/
namespace Verif.Props
open Verif Verif.Spec

/-- The hint of a mapping that is not a TypedDict is written with this container. -/
def mapCon (S : Strategies) (t : Ty) : Str :=
  if t.name = py!"mappingproxy" then py!"MappingProxyType" else if S.dict = .mapping then py!"Mapping" else py!"Dict"

/-- The key part of the hint of a mapping with keys of the classes `tys`. -/
def keyText (tys : List Ty) : Str :=
  if tys = [] then py!"Any" else (formatTypes (uniqueTypes (tys.map (·.name)))).1

/-- The entries of a mapping that are not documentation. -/
def entriesOf (ks : List Key) (vs : List Val) : List (Key × Val) := (ks.zip vs).filter (fun kv => !kv.1.hidden)

section
variable {E : Env}

/-- A node built for a plain instance. -/
def IsInst (t : Ty) (n : Node) : Prop := ∃ nm, n = instNode nm t

theorem isInst_build {f : Nat} {nm : Str} {v : Val} {n : Node} (hv : Scalar v) (h : build E (f + 1) false nm v = .ok n) : IsInst v.ty n := by
  cases v with
  | inst t x =>
    simp only [build] at h
    split at h
    · injection h with h; exact ⟨nm, h.symm⟩
    · cases h
  | _ => exact absurd hv (by simp [Scalar])

theorem isInst_rename {t : Ty} {n : Node} {x : Str} (h : IsInst t n) : IsInst t (n.rename x) := by
  obtain ⟨nm, rfl⟩ := h
  refine ⟨renameTimes x nm.length 1 nm, ?_⟩
  simp only [Node.rename, instNode, Node.renameAux, renameList]
  rfl

theorem isInst_shares {items : List (Key × Val)} {kids : List (Key × Node)}
    (h : All₂ (fun kv kn => kn.1 = kv.1 ∧ IsInst kv.2.ty kn.2) items kids) {t : Ty} {n0 n : Node} (h0 : IsInst t n0)
    (hs : Shares E.S kids n0 n) : IsInst t n := by
  obtain ⟨k, m, hm, h1, h2⟩ := hs
  have hmt : IsInst t m := by
    rcases h1 with rfl | h1
    · exact h0
    · obtain ⟨kv, _, _, nm, e⟩ := h.mem_right _ hm
      obtain ⟨nm0, rfl⟩ := h0
      have e : m = _ := e
      subst e
      rw [nodeEq_inst] at h1
      have := of_decide_eq_true h1
      exact ⟨nm, by rw [this]⟩
  rcases h2 with rfl | ⟨x, rfl⟩
  · exact hmt
  · exact isInst_rename hmt

theorem _root_.Verif.All₂.trans' {α β γ} {R : α → β → Prop} {T : β → γ → Prop} {Q : α → γ → Prop} {a : List α} {b : List β} {c : List γ}
    (h1 : All₂ R a b) (h2 : All₂ T b c) (h : ∀ x y z, R x y → T y z → Q x z) : All₂ Q a c := by
  induction h1 generalizing c with
  | nil => cases h2; exact .nil
  | cons hr _ ih =>
    cases h2 with
    | cons ht hs => exact .cons (h _ _ _ hr ht) (ih hs)

/-- The children of a mapping from keys to plain instances. -/
theorem inst_children {f : Nat} {name : Str} {items : List (Key × Val)} {kids : List (Key × Node)}
    (hv : ∀ kv ∈ items, Scalar kv.2) (hnd : (items.map (·.1)).Nodup)
    (h : mapKids (build E (f + 1) false) name (keySuffix E.U) items = .ok kids) :
    (shareEqual E name kids).1.map (·.key) = items.map (·.1) ∧
    All₂ (fun kv n => IsInst kv.2.ty n) items (shareEqual E name kids).2 := by
  have h1 : All₂ (fun kv kn => kn.1 = kv.1 ∧ IsInst kv.2.ty kn.2) items kids := by
    have h2 := mapKids_all₂ (R := fun v n => Scalar v → IsInst v.ty n) (fun kv _ nm n hb hs => isInst_build hs hb) h
    clear hnd h
    induction h2 with
    | nil => exact .nil
    | cons hr _ ih => exact .cons ⟨hr.1, hr.2 (hv _ (by simp))⟩ (ih (fun kv h => hv kv (by simp [h])))
  have hk := mapKids_keys h
  refine ⟨by rw [shareEqual_keys, hk], ?_⟩
  exact h1.trans' (shareEqual_spec (E := E) (parent := name) (by rw [hk]; exact hnd))
    (fun x y z hxy hyz => isInst_shares h1 hxy.2 hyz)

/-- Shape of a successfully built tree of a mapping proxy. -/
theorem build_proxy {f : Nat} {root : Bool} {name : Str} {t : Ty} {ks : List Key} {vs : List Val} {n : Node}
    (h : build E (f + 1) root name (.map .proxy t ks vs) = .ok n) :
    ∃ kids, mapKids (build E f false) name (keySuffix E.U) (visibleItems (limit E.S.checkMax (ks.zip vs))) = .ok kids ∧
      n = .mk ⟨.proxy, name, root, t, (shareEqual E name kids).1⟩ (shareEqual E name kids).2 := by
  simp only [build, mapChildren] at h
  split at h
  · cases hm : mapKids (build E f false) name (keySuffix E.U)
        ((limit E.S.checkMax (ks.zip vs)).filter (fun kv => !kv.1.hidden)) with
    | error e => rw [hm] at h; cases h
    | ok kids =>
      rw [hm] at h
      refine ⟨kids, hm, ?_⟩
      injection h with h
      exact h.symm
  · cases h

/-- The children reached by iteration: those of the entries before a `None` key. -/
theorem iterate_entries {items : List (Key × Val)} {slots : List Slot} {kids : List Node} {R : Key × Val → Node → Prop}
    (hs : slots.map (·.key) = items.map (·.1)) (h : All₂ R items kids) :
    All₂ R (items.takeWhile (fun kv => kv.1 != .none)) (iterate slots kids) := by
  induction h generalizing slots with
  | nil => simp [iterate]; exact .nil
  | @cons a b l₁ l₂ hr _ ih =>
    cases slots with
    | nil => simp at hs
    | cons s ss =>
      simp only [List.map_cons, List.cons.injEq] at hs
      have := ih hs.2
      simp only [iterate, List.zip_cons_cons, List.takeWhile_cons, hs.1]
      split
      · exact .cons hr this
      · exact .nil

theorem refs_insts {im : Str → List Str} {items : List (Key × Val)} {kids : List Node}
    (h : All₂ (fun kv n => IsInst kv.2.ty n) items kids) (hw : ∀ kv ∈ items, Word E.U kv.2.ty.name) :
    (kids.map (fun n => n.out E im)).map childRef = (items.map (fun kv => kv.2.ty)).map (fun t => (atom E t).print) := by
  induction h with
  | nil => rfl
  | @cons a b l₁ l₂ hr _ ih =>
    obtain ⟨nm, rfl⟩ := hr
    simp only [List.map_cons, List.cons.injEq]
    exact ⟨instNode_ref (hw _ (by simp)), ih (fun kv h => hw kv (by simp [h]))⟩

/-- The one declaration generated for a mapping from keys to plain instances that is not a TypedDict. A `None` key hides
the entries after it, and its own. -/
theorem map_text {name : Str} {k : MapKind} {t : Ty} {ks : List Key} {vs : List Val} {n : Node} (hk : k = .dict ∨ k = .proxy)
    (hd : k = .dict → E.S.dict ≠ .typedDict ∨ ∃ x ∈ ks, x.isStr = false) (hlen : ks.length = vs.length) (hnd : ks.Nodup)
    (hl : E.S.checkMax = 0 ∨ ks.length ≤ E.S.checkMax) (hv : ∀ v ∈ vs, Scalar v ∧ Word E.U v.ty.name)
    (h : fromData E name (.map k t ks vs) = .ok n) :
    declsOf E name (.map k t ks vs) = [name ++ py!": TypeAlias = " ++ mapCon E.S t ++ py!"[" ++
      keyText ((entriesOf ks vs).map (fun kv => kv.1.ty)) ++ py!", " ++
      elemText E (((entriesOf ks vs).takeWhile (fun kv => kv.1 != .none)).map (fun kv => kv.2.ty)) ++ py!"]"] := by
  have hzl : (ks.zip vs).length = ks.length := by simp [hlen]
  have hlim : limit E.S.checkMax (ks.zip vs) = ks.zip vs := by
    unfold limit
    split
    · rfl
    · rcases hl with h | h
      · contradiction
      · exact List.take_of_length_le (by omega)
  have hdd : dictData E.S (ks.zip vs) = ks.zip vs := by
    unfold dictData; rw [hlim]; split <;> rfl
  have hmem : ∀ kv ∈ entriesOf ks vs, Scalar kv.2 ∧ Word E.U kv.2.ty.name := by
    intro kv hkv
    exact hv _ (List.of_mem_zip (List.mem_filter.mp hkv).1).2
  have hks : (entriesOf ks vs).map (·.1) = ks.filter (fun k => !k.hidden) := by
    have hz : (ks.zip vs).map (·.1) = ks := List.map_fst_zip (by omega)
    have : ks.filter (fun k => !k.hidden) = ((ks.zip vs).map (·.1)).filter (fun k => !k.hidden) := by rw [hz]
    rw [this, List.filter_map]; rfl
  have hnd' : ((entriesOf ks vs).map (·.1)).Nodup := by rw [hks]; exact hnd.filter _
  obtain ⟨kids, kd, hkids, rfl, hkd⟩ : ∃ kids kd, mapKids (build E (depthList vs + 1) false) name (keySuffix E.U) (entriesOf ks vs) = .ok kids ∧
      n = .mk ⟨kd, name, true, t, (shareEqual E name kids).1⟩ (shareEqual E name kids).2 ∧
      (kd = .proxy ∨ ∃ m : DMeta, kd = .dict m.data m ∧ m.isTyped E.S = false) := by
    simp only [fromData] at h
    split at h
    · rename_i hn
      rw [buildTree, Val.depth] at h
      have h : build E (depthList vs + 1 + 1) true name (.map k t ks vs) = .ok n := by
        split at h
        · rename_i e; injection h with h; rw [e, h]
        · cases h
      rcases hk with rfl | rfl
      · obtain ⟨kids, h1, h2⟩ := build_dict h
        rw [hdd] at h1 h2
        refine ⟨kids, _, h1, h2, .inr ⟨DMeta.ofData (ks.zip vs), rfl, ?_⟩⟩
        simp only [DMeta.isTyped, DMeta.ofData, Bool.and_eq_false_iff, decide_eq_false_iff_not]
        rcases hd rfl with hd | ⟨x, hx, hxs⟩
        · exact .inr hd
        · refine .inl ?_
          unfold allStr
          rw [List.all_eq_false]
          have hx' : x ∈ (ks.zip vs).map (·.1) := by rw [List.map_fst_zip (by omega)]; exact hx
          obtain ⟨kv, hkv, rfl⟩ := List.mem_map.mp hx'
          exact ⟨kv, hkv, by simp [hxs]⟩
      · obtain ⟨kids, h1, h2⟩ := build_proxy h
        rw [hlim] at h1
        exact ⟨kids, .proxy, h1, h2, .inl rfl⟩
    · cases h
  obtain ⟨hslots, hall⟩ := inst_children (fun kv h => (hmem kv h).1) hnd' hkids
  generalize hsl : (shareEqual E name kids).1 = slots at *
  generalize hkk : (shareEqual E name kids).2 = ns at *
  have hinst : ∀ k ∈ ns, ∃ nm t, k = instNode nm t := by
    intro k hk
    obtain ⟨kv, _, nm, e⟩ := hall.mem_right k hk
    exact ⟨nm, _, e⟩
  simp only [declsOf, h]
  rw [render_flat hinst rfl]
  have hit : iterate slots (outList E (sigImports E.U) ns) = (iterate slots ns).map (fun n => n.out E (sigImports E.U)) := by
    rw [outList_eq_map]
    unfold iterate
    rw [List.zip_map_right, List.takeWhile_map, List.map_map, List.map_map]
    rfl
  have href := refs_insts (E := E) (im := sigImports E.U) (iterate_entries hslots hall)
    (fun kv h => (hmem kv (List.takeWhile_subset _ h)).2)
  rw [← hit] at href
  have hal := alias_text (E := E) (kids := iterate slots (outList E (sigImports E.U) ns)) (tys := _) (by rw [href]; exact fun s => Iff.rfl)
  have hmap : (topOf E (sigImports E.U) ⟨kd, name, true, t, slots⟩ (outList E (sigImports E.U) ns)).text =
      (mapTop E ⟨kd, name, true, t, slots⟩ (slots.map (·.key)) (iterate slots (outList E (sigImports E.U) ns))).1 := by
    rcases hkd with rfl | ⟨m, rfl, hm⟩
    · rfl
    · simp only [topOf, hm, Bool.false_eq_true, if_false]
  rw [hmap]
  have hcon : (if t.name = py!"mappingproxy" then (py!"MappingProxyType", py!"MappingProxyType")
    else match E.S.dict with
      | .typedDict | .dict => (py!"Dict", py!"dict")
      | .mapping => (py!"Mapping", py!"Mapping")).1 = mapCon E.S t := by
    unfold mapCon
    split
    · rfl
    · cases E.S.dict <;> rfl
  have hkt : (formatTypes (if (slots.map (·.key)).isEmpty then childTypes (iterate slots (outList E (sigImports E.U) ns)) true
      else (uniqueTypes ((slots.map (·.key)).map (fun k => k.ty.name)), [])).1).1 = keyText ((entriesOf ks vs).map (fun kv => kv.1.ty)) := by
    rw [hslots]
    unfold keyText
    cases he : entriesOf ks vs with
    | nil =>
      rw [he] at hslots
      have : slots = [] := by simpa using hslots
      subst this
      simp only [iterate_nil]
      rfl
    | cons a r =>
      simp only [List.map_cons, List.isEmpty_cons, Bool.false_eq_true, if_false, List.map_map, reduceCtorEq, Function.comp_def]
  rw [← hcon, ← hkt, ← hal]
  rfl

/-- C42 (partial: flat dictionaries and mapping proxies without `None` keys, limit not reached). Every entry that is not
documentation contributes to the key part and to the value part of the hint. -/
theorem every_entry_counts_partial {name : Str} {k : MapKind} {t : Ty} {ks : List Key} {vs : List Val} {n : Node}
    (hk : k = .dict ∨ k = .proxy)
    (hd : k = .dict → E.S.dict ≠ .typedDict ∨ ∃ x ∈ ks, x.isStr = false) (hlen : ks.length = vs.length) (hnd : ks.Nodup)
    (hl : E.S.checkMax = 0 ∨ ks.length ≤ E.S.checkMax) (hv : ∀ v ∈ vs, Scalar v ∧ Word E.U v.ty.name) (hno : .none ∉ ks)
    (h : fromData E name (.map k t ks vs) = .ok n) :
    declsOf E name (.map k t ks vs) = [name ++ py!": TypeAlias = " ++ mapCon E.S t ++ py!"[" ++
      keyText ((entriesOf ks vs).map (fun kv => kv.1.ty)) ++ py!", " ++
      elemText E ((entriesOf ks vs).map (fun kv => kv.2.ty)) ++ py!"]"] := by
  rw [map_text hk hd hlen hnd hl hv h, takeWhile_all]
  intro kv hkv
  have : kv.1 ≠ .none := by
    intro e
    exact hno (e ▸ (List.of_mem_zip (List.mem_filter.mp hkv).1).1)
  simpa using this

end

/-- C42 fails: of `{"a": 1, None: "x", "b": 2.5}` only the first value counts. -/
theorem every_entry_counts_fails :
    declsOf (exEnv {}) py!"D" (.dict [(.str py!"a", .inst .int none), (.none, .inst .str (some py!"x")), (.str py!"b", .inst .float none)])
      = [py!"D: TypeAlias = Dict[Union[NoneType, str], int]"] := by decide +kernel

/-- The hypotheses are met. -/
example : ∃ n, fromData (exEnv {}) py!"D" (.map .dict .dict [.str py!"a", .other .int py!"1", .str py!"b"]
      [.inst .int none, .inst .str (some py!"x"), .inst .noneType none]) = .ok n ∧
    (∃ x ∈ [Key.str py!"a", .other .int py!"1", .str py!"b"], x.isStr = false) ∧
    [Key.str py!"a", .other .int py!"1", .str py!"b"].Nodup ∧ Key.none ∉ [Key.str py!"a", .other .int py!"1", .str py!"b"] ∧
    declsOf (exEnv {}) py!"D" (.map .dict .dict [.str py!"a", .other .int py!"1", .str py!"b"]
      [.inst .int none, .inst .str (some py!"x"), .inst .noneType none]) = [py!"D: TypeAlias = Dict[Union[int, str], Union[Optional[object], int, str]]"] := by
  refine ⟨_, rfl, by decide, by decide, by decide, by decide +kernel⟩

end Verif.Props
