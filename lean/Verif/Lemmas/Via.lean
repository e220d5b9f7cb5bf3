import Verif.Spec.Inspected
import Verif.Lemmas.BareBuild
import Verif.Model.Render
/-
Trees whose dictionaries keep other values of the same classes.
-/
namespace Verif
open Verif.Spec

theorem viaTrees_map (φ : Val → Val) : ∀ l : List Node, viaTrees φ l = l.map (viaTree φ)
  | [] => rfl
  | v :: r => by simp [viaTrees, viaTrees_map φ r]

/-- The metadata with other values. -/
def viaMeta (φ : Val → Val) (m : DMeta) : DMeta := { m with data := viaData φ m.data }

/-- The text of a value, if it is a string. -/
def textOf : Val → Option Str
  | .inst _ (some text) => some text
  | _ => none

section
variable {φ : Val → Val}

theorem viaData_keys (d : List (Key × Val)) : (viaData φ d).map (·.1) = d.map (·.1) := by simp [viaData, Function.comp_def]

theorem viaData_append (a b : List (Key × Val)) : viaData φ (a ++ b) = viaData φ a ++ viaData φ b := by simp [viaData]

theorem viaData_filter (p : Key → Bool) (d : List (Key × Val)) :
    viaData φ (d.filter fun kv => p kv.1) = (viaData φ d).filter fun kv => p kv.1 := by
  simp only [viaData, List.filter_map]; rfl

theorem lookup_viaData (k : Key) : ∀ d : List (Key × Val), lookupKey k (viaData φ d) = (lookupKey k d).map φ
  | [] => rfl
  | (k', v) :: r => by
    have e : viaData φ ((k', v) :: r) = (k', φ v) :: viaData φ r := rfl
    rw [e]
    simp only [lookupKey, lookup_viaData k r]
    split <;> rfl

theorem setKey_via (k : Key) (v : Val) : ∀ d : List (Key × Val), viaData φ (setKey k v d) = setKey k (φ v) (viaData φ d)
  | [] => rfl
  | (k', v') :: r => by
    have e : viaData φ ((k', v') :: r) = (k', φ v') :: viaData φ r := rfl
    rw [e]
    simp only [setKey]
    split
    · rfl
    · rw [← setKey_via k v r]; rfl

theorem updateDict_via (e : List (Key × Val)) : ∀ d, viaData φ (updateDict d e) = updateDict (viaData φ d) (viaData φ e) := by
  unfold updateDict
  induction e with
  | nil => intro d; rfl
  | cons kv r ih =>
    intro d
    simp only [List.foldl_cons]
    rw [ih, setKey_via]
    rfl

theorem allStr_via (d : List (Key × Val)) : allStr (viaData φ d) = allStr d := by
  simp [allStr, viaData, List.all_map, Function.comp_def]

theorem isTyped_via (S : Strategies) (m : DMeta) : (viaMeta φ m).isTyped S = m.isTyped S := by
  simp [DMeta.isTyped, viaMeta, allStr_via]

theorem isTypedDict_via (S : Strategies) (n : Node) : isTypedDict S (viaTree φ n) = isTypedDict S n := by
  obtain ⟨h, kids⟩ := n
  simp only [viaTree, isTypedDict]
  cases h.kind with
  | dict d m => exact isTyped_via S m
  | _ => rfl

theorem via_name (n : Node) : (viaTree φ n).name = n.name := by cases n; rfl
theorem via_hdr_ty (n : Node) : (viaTree φ n).hdr.ty = n.hdr.ty := by cases n; rfl

theorem tag_via (k : NKind) : (viaKind φ k).tag = k.tag := by cases k <;> rfl

theorem hashOf_via (S : Strategies) (h : Hdr) (hs : List H) : hashOf S { h with kind := viaKind φ h.kind } hs = hashOf S h hs := by
  obtain ⟨k, _, _, _, _⟩ := h
  unfold hashOf
  cases k with
  | dict d m =>
    have := isTyped_via (φ := φ) S m
    unfold viaMeta at this
    simp [viaKind, this]
  | _ => simp [viaKind]

mutual
theorem hash_via (S : Strategies) : ∀ n : Node, (viaTree φ n).hash S = n.hash S
  | .mk h kids => by simp only [viaTree, Node.hash, hashList_via S kids, hashOf_via]
theorem hashList_via (S : Strategies) : ∀ l : List Node, hashList S (viaTrees φ l) = hashList S l
  | [] => rfl
  | n :: r => by simp only [viaTrees, hashList, hash_via S n, hashList_via S r]
end

theorem nodeEq_via (S : Strategies) (a b : Node) : nodeEq S (viaTree φ a) (viaTree φ b) = nodeEq S a b := by
  unfold nodeEq
  rw [hash_via, hash_via]
  obtain ⟨h, _⟩ := a
  obtain ⟨h', _⟩ := b
  simp only [viaTree, Node.hdr, tag_via]
  congr

mutual
theorem renameAux_via (new : Str) (len : Nat) : ∀ (n : Node) (c : Nat), viaTree φ (n.renameAux new len c) = (viaTree φ n).renameAux new len c
  | .mk h kids, c => by simp only [viaTree, Node.renameAux, renameList_via new len kids h.slots c]
theorem renameList_via (new : Str) (len : Nat) : ∀ (l : List Node) (ss : List Slot) (c : Nat),
    viaTrees φ (renameList new len c ss l) = renameList new len c ss (viaTrees φ l)
  | [], _, _ => by simp [renameList, viaTrees]
  | k :: r, [], c => by simp only [renameList, viaTrees, renameAux_via new len k c, renameList_via new len r [] c]
  | k :: r, s :: ss, c => by simp only [renameList, viaTrees, renameAux_via new len k (c * s.mult), renameList_via new len r ss c]
end

theorem rename_via (new : Str) (n : Node) : viaTree φ (n.rename new) = (viaTree φ n).rename new := by
  simp only [Node.rename, renameAux_via, via_name]

/-! ### Metadata -/

theorem viaMeta_ofData (d : List (Key × Val)) : viaMeta φ (DMeta.ofData d) = DMeta.ofData (viaData φ d) := by
  simp only [viaMeta, DMeta.ofData, viaData_keys]
  congr 1
  simp only [viaData, List.filter_map, List.map_map, Function.comp_def]

theorem update_via (m o : DMeta) : viaMeta φ (m.update o) = (viaMeta φ m).update (viaMeta φ o) := by
  have e1 : viaData φ (m.data ++ o.data.filter (fun kv => (lookupKey kv.1 m.data).isNone)) =
      viaData φ m.data ++ (viaData φ o.data).filter (fun kv => (lookupKey kv.1 (viaData φ m.data)).isNone) := by
    rw [viaData_append, viaData_filter (fun k => (lookupKey k m.data).isNone)]
    congr 2
    funext kv
    rw [lookup_viaData]
    cases lookupKey kv.1 m.data <;> rfl
  have e2 : ∀ d : List (Key × Val), (d.filter (fun kv => !kv.1.hidden && (lookupKey kv.1 m.req).isNone)).map (fun kv => (kv.1, false)) =
      ((viaData φ d).filter (fun kv => !kv.1.hidden && (lookupKey kv.1 m.req).isNone)).map (fun kv => (kv.1, false)) := by
    intro d
    simp only [viaData, List.filter_map, List.map_map, Function.comp_def]
  simp only [viaMeta, DMeta.update]
  rw [e2, e1]
  rfl

/-! ### Nodes -/

theorem nodeMeta_via (n : Node) : nodeMeta (viaTree φ n) = (nodeMeta n).map (viaMeta φ) := by
  obtain ⟨h, kids⟩ := n
  simp only [viaTree, nodeMeta]
  cases h.kind <;> rfl

theorem nodeData_via (n : Node) : nodeData (viaTree φ n) = viaData φ (nodeData n) := by
  obtain ⟨h, kids⟩ := n
  simp only [viaTree, nodeData]
  cases h.kind <;> rfl

theorem updateNode_via (k c : Node) : viaTree φ (updateNode k c) = updateNode (viaTree φ k) (viaTree φ c) := by
  obtain ⟨⟨kd, nm, rt, ty, sl⟩, kids⟩ := k
  obtain ⟨⟨kd', nm', rt', ty', sl'⟩, kids'⟩ := c
  cases kd with
  | dict d m =>
    cases kd' with
    | dict d' m' =>
      have := update_via (φ := φ) m m'
      simp only [viaMeta] at this
      simp only [updateNode, viaTree, viaKind]
      rw [← this]
    | _ => rfl
  | _ => rfl

/-! ### Comparison of dictionaries -/

theorem keys_via (m : DMeta) : (viaMeta φ m).keys = m.keys := by
  unfold DMeta.keys viaMeta
  rw [viaData_keys]

theorem compareDicts_via (hty : ∀ v, (φ v).ty = v.ty) (ms : List DMeta) : compareDicts (ms.map (viaMeta φ)) = compareDicts ms := by
  cases ms with
  | nil => rfl
  | cons m r =>
    have e0 : ∀ (l : List (Key × Val)) (acc : List (Key × List Ty)), (viaData φ l).foldl addValueType acc = l.foldl addValueType acc := by
      intro l
      induction l with
      | nil => intro _; rfl
      | cons kv r ih =>
        intro acc
        have e : viaData φ (kv :: r) = (kv.1, φ kv.2) :: viaData φ r := rfl
        rw [e, List.foldl_cons, List.foldl_cons, ih]
        simp only [addValueType, hty]
    have e1 : ((m :: r).map (viaMeta φ)).flatMap (·.data) = viaData φ ((m :: r).flatMap (·.data)) := by
      generalize m :: r = ms
      induction ms with
      | nil => rfl
      | cons m r ih => simp only [List.flatMap_cons, List.map_cons, viaData_append, ih]; rfl
    have e2 : ((m :: r).map (viaMeta φ)).flatMap DMeta.keys = (m :: r).flatMap DMeta.keys := by
      rw [List.flatMap_map]
      congr 1
      funext x
      exact keys_via x
    have e3 : (m.keys.filter fun k => (r.map (viaMeta φ)).all fun m' => m'.keys.contains k) =
        (m.keys.filter fun k => r.all fun m' => m'.keys.contains k) := by
      apply List.filter_congr
      intro k _
      rw [List.all_map]
      congr 1
      funext x
      simp [keys_via]
    rw [List.map_cons] at e1 e2 ⊢
    simp only [compareDicts, keys_via, e1, e2, e3, e0]

theorem filterMap_nodeMeta_via (ns : List Node) : (ns.map (viaTree φ)).filterMap nodeMeta = (ns.filterMap nodeMeta).map (viaMeta φ) := by
  rw [List.filterMap_map, List.map_filterMap]
  congr 1
  funext n
  exact nodeMeta_via n

theorem shouldMerge_via (hty : ∀ v, (φ v).ty = v.ty) (S : Strategies) (ns : List Node) :
    shouldMerge S (ns.map (viaTree φ)) = shouldMerge S ns := by
  unfold shouldMerge
  rw [filterMap_nodeMeta_via, compareDicts_via hty]

/-- Construction commutes with the change of values. -/
def Commutes (φ : Val → Val) (r : Str → Val → Except Err Node) : Prop := ∀ nm v, r nm (φ v) = (r nm v).map (viaTree φ)

theorem foldl_updateDict_via : ∀ (ns : List Node) (d : List (Key × Val)),
    viaData φ (ns.foldl (fun acc n => updateDict acc (nodeData n)) d) =
      (ns.map (viaTree φ)).foldl (fun acc n => updateDict acc (nodeData n)) (viaData φ d)
  | [], _ => rfl
  | n :: r, d => by
    simp only [List.foldl_cons, List.map_cons]
    rw [foldl_updateDict_via r, updateDict_via, nodeData_via]

theorem foldl_minStr_via : ∀ (ns : List Node) (s : Str),
    (ns.map (viaTree φ)).foldl (fun acc n => minStr acc n.name) s = ns.foldl (fun acc n => minStr acc n.name) s
  | [], _ => rfl
  | n :: r, s => by simp only [List.map_cons, List.foldl_cons, via_name, foldl_minStr_via r]

theorem foldl_update_via : ∀ (ms : List DMeta) (m : DMeta),
    viaMeta φ (ms.foldl DMeta.update m) = (ms.map (viaMeta φ)).foldl DMeta.update (viaMeta φ m)
  | [], _ => rfl
  | o :: r, m => by simp only [List.foldl_cons, List.map_cons, foldl_update_via r, update_via]

theorem mergeDicts_via {S : Strategies} {r : Str → Val → Except Err Node} (hr : Commutes φ r)
    (hd : S.dict = .typedDict → ∀ d, φ (.dict d) = .dict (viaData φ d)) {ds : List Node} (ht : ∀ n ∈ ds, isTypedDict S n = true) :
    mergeDicts r (ds.map (viaTree φ)) = (mergeDicts r ds).map (viaTree φ) := by
  cases ds with
  | nil => rfl
  | cons d ds =>
    have hS : S.dict = .typedDict := by
      have := ht d (by simp)
      obtain ⟨h, kids⟩ := d
      simp only [isTypedDict] at this
      split at this
      · simp only [DMeta.isTyped, Bool.and_eq_true, decide_eq_true_eq] at this
        exact this.2
      · cases this
    obtain ⟨m, hm⟩ := Option.isSome_iff_exists.mp (nodeMeta_of_isTypedDict (ht d (by simp)))
    simp only [mergeDicts, List.map_cons, bind, Except.bind, pure, Except.pure]
    rw [← List.map_cons, filterMap_nodeMeta_via, via_name, foldl_minStr_via, nodeMeta_via, hm]
    have hd' := foldl_updateDict_via (φ := φ) (d :: ds) []
    have e0 : viaData φ [] = [] := rfl
    rw [e0] at hd'
    rw [← hd', ← hd hS, hr]
    generalize hD : (d :: ds).foldl (fun acc n => updateDict acc (nodeData n)) [] = D
    have hme : (List.map (viaMeta φ) (List.filterMap nodeMeta (d :: ds))).foldl DMeta.update (((some m).map (viaMeta φ)).getD (DMeta.ofData [])) =
        viaMeta φ (List.foldl DMeta.update m (List.filterMap nodeMeta (d :: ds))) := (foldl_update_via _ m).symm
    rw [hme]
    cases hb : r (ds.foldl (fun acc n => minStr acc n.name) d.name) (.dict D) with
    | error e => rfl
    | ok n => obtain ⟨h, kids⟩ := n; rfl

theorem any_nodeEq_via {S : Strategies} (c : Node) (l : List Node) : (l.map (viaTree φ)).any (nodeEq S (viaTree φ c)) = l.any (nodeEq S c) := by
  rw [List.any_map]
  congr 1
  funext x
  exact nodeEq_via S c x

theorem findEq_via (S : Strategies) (c : Node) : ∀ l : List (Node × Str), findEq S (viaTree φ c) (l.map fun p => (viaTree φ p.1, p.2)) = findEq S c l
  | [] => rfl
  | (n, s) :: r => by simp only [List.map_cons, findEq, nodeEq_via, findEq_via S c r]

theorem filter_typed_via (S : Strategies) (l : List Node) : (l.map (viaTree φ)).filter (isTypedDict S) = (l.filter (isTypedDict S)).map (viaTree φ) := by
  rw [List.filter_map]
  congr 2
  funext x
  exact isTypedDict_via S x

theorem filter_untyped_via (S : Strategies) (l : List Node) :
    (l.map (viaTree φ)).filter (fun k => !isTypedDict S k) = (l.filter (fun k => !isTypedDict S k)).map (viaTree φ) := by
  rw [List.filter_map]
  congr 2
  funext x
  simp [isTypedDict_via S x]

/-- Slots and children with other values. -/
def viaKids (φ : Val → Val) (c : List Slot × List Node) : List Slot × List Node := (c.1, c.2.map (viaTree φ))

variable {E : Env} {r : Str → Val → Except Err Node}

theorem setStep_via (hty : ∀ v, (φ v).ty = v.ty) (hr : Commutes φ r) (parent : Str) (acc : List Node × List Str) (v : Val) :
    setStep E r parent (acc.1.map (viaTree φ), acc.2) (φ v) = (setStep E r parent acc v).map (fun a => (a.1.map (viaTree φ), a.2)) := by
  simp only [setStep, hty, bind, Except.bind, pure, Except.pure]
  generalize freshName (parent ++ E.U.capitalize v.ty.name) acc.2 = name
  rw [hr]
  cases hb : r name v with
  | error e => rfl
  | ok c =>
    simp only [Except.map, any_nodeEq_via, isTypedDict_via]
    split
    · split
      · simp only [List.map_map]
        congr 2
        apply List.map_congr_left
        intro k hk
        simp only [Function.comp, nodeEq_via]
        split
        · exact (updateNode_via k c).symm
        · rfl
      · rfl
    · simp

theorem tupleStep_via (hty : ∀ v, (φ v).ty = v.ty) (hr : Commutes φ r) (parent : Str) (acc : List Node × List (Node × Str)) (v : Val) :
    tupleStep E r parent (acc.1.map (viaTree φ), acc.2.map fun p => (viaTree φ p.1, p.2)) (φ v) =
      (tupleStep E r parent acc v).map (fun a => (a.1.map (viaTree φ), a.2.map fun p => (viaTree φ p.1, p.2))) := by
  simp only [tupleStep, hty, bind, Except.bind, pure, Except.pure, List.map_map]
  have e : (List.map ((fun x => x.snd) ∘ fun (p : Node × Str) => (viaTree φ p.fst, p.snd)) acc.2) = acc.2.map (·.2) := rfl
  rw [e]
  generalize freshName (parent ++ E.U.capitalize v.ty.name) (acc.2.map (·.2)) = name
  rw [hr]
  cases hb : r name v with
  | error e => rfl
  | ok c =>
    simp only [Except.map, findEq_via]
    cases hf : findEq E.S c acc.2 with
    | some old => simp [rename_via]
    | none => simp [via_name]

/-- The elements that are visited correspond to each other. -/
theorem setChildren_via (hE : E.Fair) (hty : ∀ v, (φ v).ty = v.ty) (hd : E.S.dict = .typedDict → ∀ d, φ (.dict d) = .dict (viaData φ d))
    (hO : ∀ site l, E.order site (l.map (viaTree φ)) = (E.order site l).map (viaTree φ)) (hr : Commutes φ r) {parent : Str} {es es' : List Val}
    (he : limit E.S.checkMax es' = (limit E.S.checkMax es).map φ) :
    setChildren E r parent es' = (setChildren E r parent es).map (viaKids φ) := by
  simp only [setChildren, bind, Except.bind, pure, Except.pure, he]
  have h1 := (foldE_commute (f := setStep E r parent) (f' := setStep E r parent) (g := fun a => (a.1.map (viaTree φ), a.2)) (t := φ)
    (I := fun _ => True) (l := limit E.S.checkMax es) (b := ([], []))
    (fun b a _ _ => ⟨setStep_via hty hr parent b a, fun _ _ => trivial⟩) trivial).1
  simp only [List.map_nil] at h1
  rw [h1]
  cases hf : foldE (setStep E r parent) ([], []) (limit E.S.checkMax es) with
  | error e => rfl
  | ok a =>
    obtain ⟨kids, names⟩ := a
    simp only [Except.map, hO 0 kids, hO 1 kids, filter_typed_via, shouldMerge_via hty]
    split
    · rw [mergeDicts_via hr hd (fun n hn => (List.mem_filter.mp hn).2)]
      cases hm : mergeDicts r ((E.order 1 kids).filter (isTypedDict E.S)) with
      | error e => rfl
      | ok merged =>
        have e1 : (kids.map (viaTree φ)).filter (fun k => !isTypedDict E.S k) ++ [viaTree φ merged] =
            (kids.filter (fun k => !isTypedDict E.S k) ++ [merged]).map (viaTree φ) := by simp [filter_untyped_via]
        simp only [Except.map, e1, hO 2]
        simp [viaKids]
    · simp [viaKids]

theorem tupleChildren_via (hty : ∀ v, (φ v).ty = v.ty) (hd : E.S.dict = .typedDict → ∀ d, φ (.dict d) = .dict (viaData φ d))
    (hr : Commutes φ r) {parent : Str} {es es' : List Val} (he : limit E.S.checkMax es' = (limit E.S.checkMax es).map φ) :
    tupleChildren E r parent es' = (tupleChildren E r parent es).map (viaKids φ) := by
  simp only [tupleChildren, bind, Except.bind, pure, Except.pure, he]
  have h1 := (foldE_commute (f := tupleStep E r parent) (f' := tupleStep E r parent)
    (g := fun a => (a.1.map (viaTree φ), a.2.map fun p => (viaTree φ p.1, p.2))) (t := φ)
    (I := fun _ => True) (l := limit E.S.checkMax es) (b := ([], []))
    (fun b a _ _ => ⟨tupleStep_via hty hr parent b a, fun _ _ => trivial⟩) trivial).1
  simp only [List.map_nil] at h1
  rw [h1]
  cases hf : foldE (tupleStep E r parent) ([], []) (limit E.S.checkMax es) with
  | error e => rfl
  | ok a =>
    obtain ⟨kids, names⟩ := a
    simp only [Except.map, filter_typed_via, shouldMerge_via hty]
    split
    · rw [mergeDicts_via hr hd (fun n hn => (List.mem_filter.mp hn).2)]
      cases hm : mergeDicts r (kids.filter (isTypedDict E.S)) with
      | error e => rfl
      | ok merged =>
        simp only [Except.map, viaKids, List.map_map, List.length_map]
        congr 2
        · apply List.map_congr_left
          intro k _
          simp only [Function.comp, isTypedDict_via]
        · apply List.map_congr_left
          intro k _
          simp only [Function.comp, isTypedDict_via]
          split <;> rfl
    · simp [viaKids]

/-! ### Mappings -/

/-- Keyed trees with other values. -/
def viaItem (φ : Val → Val) (kn : Key × Node) : Key × Node := (kn.1, viaTree φ kn.2)

theorem mapKids_via (hr : Commutes φ r) {parent : Str} {suffix : Key → Str} : ∀ items : List (Key × Val),
    mapKids r parent suffix (viaData φ items) = (mapKids r parent suffix items).map (fun l => l.map (viaItem φ))
  | [] => rfl
  | (k, v) :: rest => by
    have e : viaData φ ((k, v) :: rest) = (k, φ v) :: viaData φ rest := rfl
    rw [e]
    simp only [mapKids, bind, Except.bind, pure, Except.pure]
    rw [hr, mapKids_via hr rest]
    cases hb : r (parent ++ suffix k) v with
    | error e => rfl
    | ok n => cases hm : mapKids r parent suffix rest <;> rfl

/-- Groups of keys with other values. -/
def viaGroup (φ : Val → Val) (g : Node × List Key) : Node × List Key := (viaTree φ g.1, g.2)

theorem addGroup_via (S : Strategies) (key : Key) (n : Node) : ∀ g : List (Node × List Key),
    addGroup S key (viaTree φ n) (g.map (viaGroup φ)) = (addGroup S key n g).map (viaGroup φ)
  | [] => rfl
  | (m, ks) :: rest => by
    have e : ((m, ks) :: rest).map (viaGroup φ) = (viaTree φ m, ks) :: rest.map (viaGroup φ) := rfl
    rw [e]
    simp only [addGroup, nodeEq_via, addGroup_via S key n rest]
    split <;> rfl

theorem foldl_addGroup_via (S : Strategies) : ∀ (kids : List (Key × Node)) (g : List (Node × List Key)),
    (kids.map (viaItem φ)).foldl (fun g kn => addGroup S kn.1 kn.2 g) (g.map (viaGroup φ)) =
      (kids.foldl (fun g kn => addGroup S kn.1 kn.2 g) g).map (viaGroup φ)
  | [], _ => rfl
  | kn :: rest, g => by
    simp only [List.map_cons, List.foldl_cons, viaItem]
    rw [addGroup_via, ← foldl_addGroup_via S rest]

theorem renameGroups_via (U : Uni) (parent : Str) : ∀ (g : List (Node × List Key)) (counts : List (Ty × Nat)),
    renameGroups U parent counts (g.map (viaGroup φ)) = (renameGroups U parent counts g).map (viaGroup φ)
  | [], _ => rfl
  | (n, ks) :: rest, counts => by
    have e : ((n, ks) :: rest).map (viaGroup φ) = (viaTree φ n, ks) :: rest.map (viaGroup φ) := rfl
    rw [e]
    simp only [renameGroups, via_hdr_ty]
    split
    · split <;> simp only [List.map_cons, viaGroup, rename_via] <;> rw [← renameGroups_via U parent rest] <;> rfl
    · simp only [List.map_cons, viaGroup]; rw [← renameGroups_via U parent rest]

theorem findGroup_via (key : Key) : ∀ g : List (Node × List Key), findGroup key (g.map (viaGroup φ)) = (findGroup key g).map (viaGroup φ)
  | [] => rfl
  | (n, ks) :: rest => by
    have e : ((n, ks) :: rest).map (viaGroup φ) = (viaTree φ n, ks) :: rest.map (viaGroup φ) := rfl
    rw [e]
    simp only [findGroup, findGroup_via key rest]
    split <;> rfl

theorem shareEqual_via {parent : Str} {kids : List (Key × Node)} :
    shareEqual E parent (kids.map (viaItem φ)) = viaKids φ (shareEqual E parent kids) := by
  have e1 : (kids.map (viaItem φ)).map (·.1) = kids.map (·.1) := by simp [viaItem, Function.comp_def]
  have e2 : (kids.map (viaItem φ)).foldl (fun g kn => addGroup E.S kn.1 kn.2 g) [] = (kids.foldl (fun g kn => addGroup E.S kn.1 kn.2 g) []).map (viaGroup φ) :=
    foldl_addGroup_via E.S kids []
  simp only [shareEqual, e1, e2, renameGroups_via]
  generalize renameGroups E.U parent [] (kids.foldl (fun g kn => addGroup E.S kn.1 kn.2 g) []) = groups
  simp only [viaKids, List.map_map]
  congr 1
  · apply List.map_congr_left
    intro kn _
    simp only [Function.comp, viaItem, findGroup_via]
    cases findGroup kn.1 groups <;> rfl
  · apply List.map_congr_left
    intro kn _
    simp only [Function.comp, viaItem, findGroup_via]
    cases findGroup kn.1 groups <;> rfl

theorem mapChildren_via (hr : Commutes φ r) {parent : Str} {items : List (Key × Val)} :
    mapChildren E r parent (viaData φ items) = (mapChildren E r parent items).map (viaKids φ) := by
  simp only [mapChildren, bind, Except.bind, pure, Except.pure]
  rw [← viaData_filter (fun k => !k.hidden), mapKids_via hr]
  cases hm : mapKids r parent (keySuffix E.U) (items.filter fun kv => !kv.1.hidden) with
  | error e => rfl
  | ok kids => simp only [Except.map, shareEqual_via]

theorem frameChildren_via (hr : Commutes φ r) {parent : Str} {items : List (Key × Val)} :
    frameChildren E r parent (viaData φ items) = (frameChildren E r parent items).map (viaKids φ) := by
  simp only [frameChildren, bind, Except.bind, pure, Except.pure]
  rw [mapKids_via hr]
  cases hm : mapKids r parent (labelSuffix E.U) items with
  | error e => rfl
  | ok kids => simp [Except.map, viaKids, viaItem, Function.comp_def]

/-! ### Texts -/

theorem isFunctional_via (U : Uni) (m : DMeta) : isFunctional U (viaMeta φ m) = isFunctional U m := by
  unfold isFunctional
  have e : (viaMeta φ m).data = viaData φ m.data := rfl
  rw [e, allStr_via]
  simp only [viaData, List.all_map, Function.comp_def]

theorem keyDoc_via (hdoc : ∀ v, textOf (φ v) = textOf v) (m : DMeta) (key : Str) : keyDoc (viaMeta φ m) key = keyDoc m key := by
  have h : ∀ m : DMeta, keyDoc m key = if allStr m.data && !startsWith key hiddenPrefix then
      (lookupKey (.str (hiddenPrefix ++ key)) m.data).bind textOf else none := by
    intro m
    unfold keyDoc
    split
    · cases lookupKey (.str (hiddenPrefix ++ key)) m.data with
      | none => rfl
      | some v =>
        cases v with
        | inst t x => cases x <;> rfl
        | _ => rfl
    · rfl
  rw [h, h]
  have e : (viaMeta φ m).data = viaData φ m.data := rfl
  rw [e, allStr_via, lookup_viaData]
  cases lookupKey (.str (hiddenPrefix ++ key)) m.data with
  | none => rfl
  | some v => simp only [Option.map, Option.bind, hdoc]

theorem classDoc_via (hdoc : ∀ v, textOf (φ v) = textOf v) (d : List (Key × Val)) : classDoc E (viaData φ d) = classDoc E d := by
  have h : ∀ d, classDoc E d = if E.S.keyDoc.isEmpty then none else (lookupKey (.str E.S.keyDoc) d).bind textOf := by
    intro d
    unfold classDoc
    split
    · rfl
    · cases lookupKey (.str E.S.keyDoc) d with
      | none => rfl
      | some v =>
        cases v with
        | inst t x => cases x <;> rfl
        | _ => rfl
  rw [h, h, lookup_viaData]
  cases lookupKey (.str E.S.keyDoc) d with
  | none => rfl
  | some v => simp only [Option.map, Option.bind, hdoc]

end

end Verif
