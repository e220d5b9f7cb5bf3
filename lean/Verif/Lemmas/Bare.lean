import Verif.Spec.Comments
import Verif.Lemmas.Total
import Verif.Lemmas.Merge
/-
Trees of data with and without comments.
-/
namespace Verif
open Verif.Spec

theorem bareList_map : ∀ l : List Val, withoutCommentsList l = l.map withoutComments
  | [] => rfl
  | v :: r => by simp [withoutCommentsList, bareList_map r]

theorem bareTrees_map : ∀ l : List Node, bareTrees l = l.map bareTree
  | [] => rfl
  | v :: r => by simp [bareTrees, bareTrees_map r]

theorem uncommented_eq : ∀ (ks : List Key) (vs : List Val), uncommented ks vs = bareData (ks.zip vs)
  | [], _ => by simp [uncommented, bareData]
  | _ :: _, [] => by simp [uncommented, bareData]
  | k :: ks, v :: vs => by
    simp only [uncommented, uncommented_eq ks vs, bareData, List.zip_cons_cons]
    cases h : k.hidden <;> simp [h]

theorem bare_dictMap {t : Ty} {ks : List Key} {vs : List Val} :
    withoutComments (.map .dict t ks vs) = .map .dict t ((bareData (ks.zip vs)).map (·.1)) ((bareData (ks.zip vs)).map (·.2)) := by
  rw [withoutComments, uncommented_eq]
  intro i h; cases h

theorem bare_proxyMap {t : Ty} {ks : List Key} {vs : List Val} :
    withoutComments (.map .proxy t ks vs) = .map .proxy t ((bareData (ks.zip vs)).map (·.1)) ((bareData (ks.zip vs)).map (·.2)) := by
  rw [withoutComments, uncommented_eq]
  intro i h; cases h

theorem zip_of_parts {α β} : ∀ l : List (α × β), (l.map (·.1)).zip (l.map (·.2)) = l
  | [] => rfl
  | _ :: r => by simp [zip_of_parts r]

theorem bare_dict (items : List (Key × Val)) : withoutComments (.dict items) = .dict (bareData items) := by
  rw [Val.dict, bare_dictMap, zip_of_parts]; rfl

theorem bare_ty (v : Val) : (withoutComments v).ty = v.ty := by
  cases v with
  | map k t ks vs => cases k <;> simp [withoutComments, Val.ty]
  | _ => simp [withoutComments, Val.ty]

/-! ### Items -/

theorem bareData_nil : bareData [] = [] := rfl

theorem bareData_cons_hidden {k : Key} {v : Val} {d} (h : k.hidden = true) : bareData ((k, v) :: d) = bareData d := by
  simp [bareData, h]

theorem bareData_cons_visible {k : Key} {v : Val} {d} (h : k.hidden = false) :
    bareData ((k, v) :: d) = (k, withoutComments v) :: bareData d := by
  simp [bareData, h]

theorem bareData_append (a b : List (Key × Val)) : bareData (a ++ b) = bareData a ++ bareData b := by simp [bareData]

theorem bareData_keys (d : List (Key × Val)) : (bareData d).map (·.1) = (d.map (·.1)).filter fun k => !k.hidden := by
  induction d with
  | nil => rfl
  | cons kv r ih =>
    obtain ⟨k, v⟩ := kv
    cases h : k.hidden
    · rw [bareData_cons_visible h]; simp [h, ih]
    · rw [bareData_cons_hidden h]; simp [h, ih]

theorem bareData_visible {d : List (Key × Val)} {kv} (h : kv ∈ bareData d) : kv.1.hidden = false := by
  unfold bareData at h
  simp only [List.mem_map, List.mem_filter] at h
  obtain ⟨a, ⟨_, ha⟩, rfl⟩ := h
  simpa using ha

theorem filter_visible_bareData (d : List (Key × Val)) : (bareData d).filter (fun kv => !kv.1.hidden) = bareData d := by
  rw [List.filter_eq_self]
  intro kv h
  rw [bareData_visible h]; rfl

theorem lookup_bareData {k : Key} (hk : k.hidden = false) : ∀ d : List (Key × Val), lookupKey k (bareData d) = (lookupKey k d).map withoutComments
  | [] => rfl
  | (k', v) :: r => by
    cases h : k'.hidden
    · rw [bareData_cons_visible h]
      simp only [lookupKey, lookup_bareData hk r]
      split <;> rfl
    · rw [bareData_cons_hidden h]
      have : k' ≠ k := by intro e; rw [e, hk] at h; cases h
      simp only [lookupKey, this, if_false, lookup_bareData hk r]

theorem lookup_bareData_hidden {k : Key} (hk : k.hidden = true) (d : List (Key × Val)) : lookupKey k (bareData d) = none := by
  rw [lookupKey_none, bareData_keys]
  intro h
  rw [List.mem_filter] at h
  rw [hk] at h
  simp at h

theorem setKey_bare_visible {k : Key} (hk : k.hidden = false) (v : Val) : ∀ d : List (Key × Val),
    bareData (setKey k v d) = setKey k (withoutComments v) (bareData d)
  | [] => by simp [setKey, bareData, hk]
  | (k', v') :: r => by
    by_cases e : k' = k
    · subst e
      simp only [setKey, if_true]
      rw [bareData_cons_visible hk, bareData_cons_visible hk]
      simp [setKey]
    · simp only [setKey, e, if_false]
      cases h : k'.hidden
      · rw [bareData_cons_visible h, bareData_cons_visible h, setKey_bare_visible hk v r]
        simp [setKey, e]
      · rw [bareData_cons_hidden h, bareData_cons_hidden h, setKey_bare_visible hk v r]

theorem setKey_bare_hidden {k : Key} (hk : k.hidden = true) (v : Val) : ∀ d : List (Key × Val),
    bareData (setKey k v d) = bareData d
  | [] => by simp [setKey, bareData, hk]
  | (k', v') :: r => by
    by_cases e : k' = k
    · subst e
      simp only [setKey, if_true]
      rw [bareData_cons_hidden hk, bareData_cons_hidden hk]
    · simp only [setKey, e, if_false]
      cases h : k'.hidden
      · rw [bareData_cons_visible h, bareData_cons_visible h, setKey_bare_hidden hk v r]
      · rw [bareData_cons_hidden h, bareData_cons_hidden h, setKey_bare_hidden hk v r]

theorem updateDict_bare (e : List (Key × Val)) : ∀ d, bareData (updateDict d e) = updateDict (bareData d) (bareData e) := by
  unfold updateDict
  induction e with
  | nil => intro d; rfl
  | cons kv r ih =>
    obtain ⟨k, v⟩ := kv
    intro d
    simp only [List.foldl_cons]
    rw [ih]
    cases h : k.hidden
    · rw [bareData_cons_visible h, setKey_bare_visible h]; rfl
    · rw [bareData_cons_hidden h, setKey_bare_hidden h]

theorem allStr_bare (d : List (Key × Val)) : allStr (bareData d) = allStr d := by
  induction d with
  | nil => rfl
  | cons kv r ih =>
    obtain ⟨k, v⟩ := kv
    unfold allStr at ih ⊢
    cases h : k.hidden
    · rw [bareData_cons_visible h]; simp [ih]
    · rw [bareData_cons_hidden h, ih]
      cases k with
      | str s => simp [Key.isStr]
      | none => cases h
      | other t r => cases h

theorem isTyped_bare (S : Strategies) (m : DMeta) : (bareMeta m).isTyped S = m.isTyped S := by
  simp [DMeta.isTyped, bareMeta, allStr_bare]

theorem isTypedDict_bare (S : Strategies) (n : Node) : isTypedDict S (bareTree n) = isTypedDict S n := by
  obtain ⟨h, kids⟩ := n
  simp only [bareTree, isTypedDict]
  cases h.kind <;> simp [bareKind, isTyped_bare]

theorem bare_name (n : Node) : (bareTree n).name = n.name := by cases n; rfl
theorem bare_hdr_ty (n : Node) : (bareTree n).hdr.ty = n.hdr.ty := by cases n; rfl

theorem tag_bare (k : NKind) : (bareKind k).tag = k.tag := by
  cases k <;> rfl

theorem hashOf_bare (S : Strategies) (h : Hdr) (hs : List H) : hashOf S { h with kind := bareKind h.kind } hs = hashOf S h hs := by
  obtain ⟨k, _, _, _, _⟩ := h
  unfold hashOf
  cases k <;> simp [bareKind, isTyped_bare]

mutual
theorem hash_bare (S : Strategies) : ∀ n : Node, (bareTree n).hash S = n.hash S
  | .mk h kids => by simp only [bareTree, Node.hash, hashList_bare S kids, hashOf_bare]
theorem hashList_bare (S : Strategies) : ∀ l : List Node, hashList S (bareTrees l) = hashList S l
  | [] => rfl
  | n :: r => by simp only [bareTrees, hashList, hash_bare S n, hashList_bare S r]
end

theorem nodeEq_bare (S : Strategies) (a b : Node) : nodeEq S (bareTree a) (bareTree b) = nodeEq S a b := by
  unfold nodeEq
  rw [hash_bare, hash_bare]
  obtain ⟨h, _⟩ := a
  obtain ⟨h', _⟩ := b
  simp only [bareTree, Node.hdr, tag_bare]
  congr

mutual
theorem renameAux_bare (new : Str) (len : Nat) : ∀ (n : Node) (c : Nat), bareTree (n.renameAux new len c) = (bareTree n).renameAux new len c
  | .mk h kids, c => by simp only [bareTree, Node.renameAux, renameList_bare new len kids h.slots c]
theorem renameList_bare (new : Str) (len : Nat) : ∀ (l : List Node) (ss : List Slot) (c : Nat),
    bareTrees (renameList new len c ss l) = renameList new len c ss (bareTrees l)
  | [], _, _ => by simp [renameList, bareTrees]
  | k :: r, [], c => by simp only [renameList, bareTrees, renameAux_bare new len k c, renameList_bare new len r [] c]
  | k :: r, s :: ss, c => by simp only [renameList, bareTrees, renameAux_bare new len k (c * s.mult), renameList_bare new len r ss c]
end

theorem rename_bare (new : Str) (n : Node) : bareTree (n.rename new) = (bareTree n).rename new := by
  simp only [Node.rename, renameAux_bare, bare_name]

/-! ### Metadata -/

/-- Items in which comments belong to visible keys and are strings. -/
structure Clad (S : Strategies) (d : List (Key × Val)) : Prop where
  vals : ∀ kv ∈ d, Commented S kv.2
  owned : Owned (d.map (·.1))
  text : ∀ kv ∈ d, kv.1.hidden = true → ∃ text, kv.2 = .inst .str text

structure CladMeta (S : Strategies) (m : DMeta) : Prop where
  data : Clad S m.data
  init : Owned m.init
  req : ∀ kb ∈ m.req, kb.1.hidden = false

def CladHdr (S : Strategies) (h : Hdr) : Prop :=
  match h.kind with
  | .dict d m => Clad S d ∧ CladMeta S m
  | _ => True

theorem owned_nonempty {ks : List Key} (h : Owned ks) : (ks.filter fun k => !k.hidden).isEmpty = ks.isEmpty := by
  cases ks with
  | nil => rfl
  | cons k r =>
    have : (List.filter (fun k => !k.hidden) (k :: r)) ≠ [] := by
      cases hk : k.hidden
      · simp [hk]
      · obtain ⟨s, _, hs, hv⟩ := h k (by simp) hk
        intro e
        have := List.filter_eq_nil_iff.mp e _ hs
        simp [hv] at this
    cases hh : List.filter (fun k => !k.hidden) (k :: r) with
    | nil => exact absurd hh this
    | cons => rfl

theorem contains_visible {l : List Key} {k : Key} (h : k.hidden = false) : (l.filter fun k => !k.hidden).contains k = l.contains k := by
  rw [Bool.eq_iff_iff]
  simp [List.mem_filter, h]

theorem bareMeta_ofData (d : List (Key × Val)) : bareMeta (DMeta.ofData d) = DMeta.ofData (bareData d) := by
  simp only [bareMeta, DMeta.ofData, bareData_keys, filter_visible_bareData]
  congr 1
  simp [bareData]

theorem bareData_filter {p q : Key × Val → Bool} (h : ∀ k v, k.hidden = false → p (k, v) = q (k, withoutComments v)) (d : List (Key × Val)) :
    bareData (d.filter p) = (bareData d).filter q := by
  induction d with
  | nil => rfl
  | cons kv r ih =>
    obtain ⟨k, v⟩ := kv
    cases hk : k.hidden
    · rw [bareData_cons_visible hk, List.filter_cons, List.filter_cons, h k v hk]
      split
      · rw [bareData_cons_visible hk, ih]
      · exact ih
    · rw [bareData_cons_hidden hk, List.filter_cons]
      split
      · rw [bareData_cons_hidden hk, ih]
      · exact ih

theorem filterMap_bare {p : Key → Bool} (d : List (Key × Val)) :
    (d.filter (fun kv => !kv.1.hidden && p kv.1)).map (fun kv => (kv.1, false)) =
      ((bareData d).filter (fun kv => !kv.1.hidden && p kv.1)).map (fun kv => (kv.1, false)) := by
  induction d with
  | nil => rfl
  | cons kv r ih =>
    obtain ⟨k, v⟩ := kv
    cases hk : k.hidden
    · rw [bareData_cons_visible hk]
      simp only [List.filter_cons, hk]
      split <;> simp [ih]
    · rw [bareData_cons_hidden hk]
      simp [List.filter_cons, hk, ih]

theorem update_data_bare (m o : DMeta) : bareData (m.update o).data = ((bareMeta m).update (bareMeta o)).data := by
  simp only [DMeta.update, bareMeta, bareData_append]
  rw [bareData_filter (q := fun kv => (lookupKey kv.1 (bareData m.data)).isNone)]
  intro k v hk
  simp [lookup_bareData hk]

theorem update_req_visible {m o : DMeta} (hm : ∀ kb ∈ m.req, kb.1.hidden = false) :
    ∀ kb ∈ (m.update o).req, kb.1.hidden = false := by
  intro kb h
  unfold DMeta.update at h
  dsimp only at h
  have : ∀ kb ∈ m.req ++ (((m.data ++ o.data.filter (fun kv => (lookupKey kv.1 m.data).isNone)).filter
      (fun kv => !kv.1.hidden && (lookupKey kv.1 m.req).isNone)).map fun kv => (kv.1, false)), kb.1.hidden = false := by
    intro kb h
    rcases List.mem_append.mp h with h | h
    · exact hm _ h
    · obtain ⟨kv, hkv, rfl⟩ := List.mem_map.mp h
      have := (List.mem_filter.mp hkv).2
      simp only [Bool.and_eq_true, Bool.not_eq_true'] at this
      exact this.1
  split at h <;> obtain ⟨kb', hkb', rfl⟩ := List.mem_map.mp h <;> exact this kb' hkb'

theorem update_bare {S : Strategies} {m o : DMeta} (hm : CladMeta S m) (ho : CladMeta S o) :
    bareMeta (m.update o) = (bareMeta m).update (bareMeta o) := by
  have hd := update_data_bare m o
  have hi : (bareMeta o).init.isEmpty = o.init.isEmpty := owned_nonempty ho.init
  have hr : (m.update o).req = ((bareMeta m).update (bareMeta o)).req := by
    simp only [DMeta.update] at hd ⊢
    rw [hi]
    rw [filterMap_bare (p := fun k => (lookupKey k m.req).isNone), hd]
    split
    · rfl
    · apply List.map_congr_left
      intro kb hkb
      have hv : kb.1.hidden = false := by
        rcases List.mem_append.mp hkb with h | h
        · exact hm.req _ h
        · obtain ⟨kv, hkv, rfl⟩ := List.mem_map.mp h
          have := (List.mem_filter.mp hkv).2
          simp only [Bool.and_eq_true, Bool.not_eq_true'] at this
          exact this.1
      simp only [bareMeta, contains_visible hv]
  have e1 : bareMeta (m.update o) = { data := bareData (m.update o).data, init := m.init.filter fun k => !k.hidden, req := (m.update o).req } := rfl
  rw [e1, hd, hr]
  rfl

theorem owned_union {a b : List Key} (ha : Owned a) (hb : Owned b) {c : List Key} (h1 : ∀ k ∈ c, k ∈ a ∨ k ∈ b)
    (h2 : ∀ k, k ∈ a ∨ k ∈ b → k ∈ c) : Owned c := by
  intro k hk hh
  rcases h1 k hk with h | h
  · obtain ⟨s, e, m, v⟩ := ha k h hh
    exact ⟨s, e, h2 _ (.inl m), v⟩
  · obtain ⟨s, e, m, v⟩ := hb k h hh
    exact ⟨s, e, h2 _ (.inr m), v⟩

theorem CladMeta.update {S : Strategies} {m o : DMeta} (hm : CladMeta S m) (ho : CladMeta S o) : CladMeta S (m.update o) := by
  have hmem : ∀ kv ∈ (m.update o).data, kv ∈ m.data ∨ kv ∈ o.data := by
    intro kv h
    simp only [DMeta.update, List.mem_append, List.mem_filter] at h
    exact h.imp id And.left
  constructor
  · constructor
    · intro kv h
      exact (hmem kv h).elim (hm.data.vals kv) (ho.data.vals kv)
    · exact owned_union hm.data.owned ho.data.owned (fun k hk => mem_update_keys.mp hk) (fun k hk => mem_update_keys.mpr hk)
    · intro kv h
      exact (hmem kv h).elim (hm.data.text kv) (ho.data.text kv)
  · exact hm.init
  · exact update_req_visible hm.req

theorem mem_keys_setKey {α} {k x : Key} {v : α} {d : List (Key × α)} : x ∈ (setKey k v d).map (·.1) ↔ x = k ∨ x ∈ d.map (·.1) := by
  induction d with
  | nil => simp [setKey]
  | cons kv r ih =>
    obtain ⟨k', v'⟩ := kv
    simp only [setKey]
    split
    · rename_i e; subst e; simp
    · simp only [List.map_cons, List.mem_cons, ih]
      constructor
      · rintro (h | h | h) <;> simp [h]
      · rintro (h | h | h) <;> simp [h]

theorem mem_keys_updateDict {α} {x : Key} (e : List (Key × α)) : ∀ {d : List (Key × α)}, x ∈ (updateDict d e).map (·.1) ↔ x ∈ d.map (·.1) ∨ x ∈ e.map (·.1) := by
  unfold updateDict
  induction e with
  | nil => simp
  | cons kv r ih =>
    intro d
    simp only [List.foldl_cons]
    rw [ih, mem_keys_setKey]
    simp only [List.map_cons, List.mem_cons]
    constructor
    · rintro ((h | h) | h) <;> simp [h]
    · rintro (h | h | h) <;> simp [h]

theorem mem_setKey_or {α} {k : Key} {v : α} {d : List (Key × α)} {x} (h : x ∈ setKey k v d) : x = (k, v) ∨ x ∈ d := by
  induction d with
  | nil => simpa [setKey] using h
  | cons kv r ih =>
    obtain ⟨k', v'⟩ := kv
    simp only [setKey] at h
    split at h
    · rename_i e; subst e
      rcases List.mem_cons.mp h with h | h
      · exact .inl h
      · exact .inr (by simp [h])
    · rcases List.mem_cons.mp h with h | h
      · exact .inr (by simp [h])
      · exact (ih h).imp id (by simp +contextual)

theorem mem_updateDict_or {α} {x} (e : List (Key × α)) : ∀ {d : List (Key × α)}, x ∈ updateDict d e → x ∈ d ∨ x ∈ e := by
  unfold updateDict
  induction e with
  | nil => intro d h; exact .inl h
  | cons kv r ih =>
    intro d h
    simp only [List.foldl_cons] at h
    rcases ih h with h | h
    · rcases mem_setKey_or h with h | h
      · exact .inr (by simp [h])
      · exact .inl h
    · exact .inr (by simp [h])

theorem Clad.updateDict {S : Strategies} {d e : List (Key × Val)} (hd : Clad S d) (he : Clad S e) : Clad S (updateDict d e) := by
  constructor
  · intro kv h
    exact (mem_updateDict_or e h).elim (hd.vals kv) (he.vals kv)
  · exact owned_union hd.owned he.owned (fun k hk => (mem_keys_updateDict e).mp hk) (fun k hk => (mem_keys_updateDict e).mpr hk)
  · intro kv h
    exact (mem_updateDict_or e h).elim (hd.text kv) (he.text kv)

theorem clad_nil {S : Strategies} : Clad S [] := ⟨by simp, fun _ h => by simp at h, by simp⟩

theorem clad_ofData {S : Strategies} {d : List (Key × Val)} (h : Clad S d) : CladMeta S (DMeta.ofData d) := by
  refine ⟨h, h.owned, ?_⟩
  intro kb hkb
  obtain ⟨kv, hkv, rfl⟩ := List.mem_map.mp hkb
  simpa using (List.mem_filter.mp hkv).2

/-! ### Nodes -/

theorem nodeMeta_bare (n : Node) : nodeMeta (bareTree n) = (nodeMeta n).map bareMeta := by
  obtain ⟨h, kids⟩ := n
  simp only [bareTree, nodeMeta]
  cases h.kind <;> rfl

theorem nodeData_bare (n : Node) : nodeData (bareTree n) = bareData (nodeData n) := by
  obtain ⟨h, kids⟩ := n
  simp only [bareTree, nodeData]
  cases h.kind <;> rfl

theorem clad_nodeMeta {S : Strategies} {n : Node} (h : NodeAll (CladHdr S) n) {m : DMeta} (hm : nodeMeta n = some m) : CladMeta S m := by
  have := nodeAll_hdr h
  obtain ⟨hd, kids⟩ := n
  simp only [nodeMeta] at hm
  simp only [CladHdr, Node.hdr] at this
  split at hm
  · rename_i d m' hk
    rw [hk] at this
    injection hm with hm
    subst hm
    exact this.2
  · cases hm

theorem clad_nodeData {S : Strategies} {n : Node} (h : NodeAll (CladHdr S) n) : Clad S (nodeData n) := by
  have := nodeAll_hdr h
  obtain ⟨hd, kids⟩ := n
  simp only [nodeData]
  simp only [CladHdr, Node.hdr] at this
  split
  · rename_i d m' hk
    rw [hk] at this
    exact this.1
  · exact clad_nil

theorem updateNode_bare {S : Strategies} {k c : Node} (hk : NodeAll (CladHdr S) k) (hc : NodeAll (CladHdr S) c) :
    bareTree (updateNode k c) = updateNode (bareTree k) (bareTree c) := by
  obtain ⟨h, kids⟩ := k
  obtain ⟨h', kids'⟩ := c
  have hk := (nodeAll_hdr hk)
  have hc := (nodeAll_hdr hc)
  obtain ⟨kd, nm, rt, ty, sl⟩ := h
  obtain ⟨kd', nm', rt', ty', sl'⟩ := h'
  simp only [Node.hdr, CladHdr] at hk hc
  cases kd with
  | dict d m =>
    cases kd' with
    | dict d' m' =>
      simp only [updateNode, bareTree, bareKind]
      rw [update_bare hk.2 hc.2, update_data_bare]
    | _ => rfl
  | _ => rfl

theorem clad_updateNode {S : Strategies} {k c : Node} (hk : NodeAll (CladHdr S) k) (hc : NodeAll (CladHdr S) c) :
    NodeAll (CladHdr S) (updateNode k c) := by
  obtain ⟨h, kids⟩ := k
  obtain ⟨h', kids'⟩ := c
  have hk' := hk
  have hc' := hc
  simp only [NodeAll] at hk' hc'
  obtain ⟨kd, nm, rt, ty, sl⟩ := h
  obtain ⟨kd', nm', rt', ty', sl'⟩ := h'
  cases kd with
  | dict d m =>
    cases kd' with
    | dict d' m' =>
      simp only [updateNode, NodeAll]
      simp only [CladHdr] at hk' hc' ⊢
      have := hk'.1.2.update hc'.1.2
      exact ⟨⟨this.data, this⟩, hk'.2⟩
    | _ => exact hk
  | _ => exact hk

theorem clad_rename {S : Strategies} {n : Node} {new : Str} (h : NodeAll (CladHdr S) n) : NodeAll (CladHdr S) (n.rename new) :=
  nodeAll_renameAux (fun _ _ h => h) h

/-! ### Comparison of dictionaries -/

theorem keys_bare (m : DMeta) : (bareMeta m).keys = m.keys := by
  unfold DMeta.keys bareMeta
  rw [bareData_keys, List.filter_filter]
  simp

/-- The value types without those of the comments. -/
def bareTypes (l : List (Key × List Ty)) : List (Key × List Ty) := l.filter fun kt => !kt.1.hidden

theorem lookup_bareTypes {k : Key} (hk : k.hidden = false) : ∀ l : List (Key × List Ty), lookupKey k (bareTypes l) = lookupKey k l
  | [] => rfl
  | (k', v) :: r => by
    have ih := lookup_bareTypes hk r
    unfold bareTypes at ih ⊢
    cases h : k'.hidden
    · simp [h, lookupKey, ih]
    · have : k' ≠ k := by intro e; rw [e, hk] at h; cases h
      simp [h, lookupKey, this, ih]

theorem setKey_bareTypes {k : Key} (hk : k.hidden = false) (v : List Ty) : ∀ l : List (Key × List Ty), bareTypes (setKey k v l) = setKey k v (bareTypes l)
  | [] => by simp [setKey, bareTypes, hk]
  | (k', v') :: r => by
    have ih := setKey_bareTypes hk v r
    unfold bareTypes at ih ⊢
    by_cases e : k' = k
    · subst e; simp [setKey, hk]
    · cases h : k'.hidden <;> simp [setKey, e, h, ih]

theorem setKey_bareTypes_hidden {k : Key} (hk : k.hidden = true) (v : List Ty) : ∀ l : List (Key × List Ty), bareTypes (setKey k v l) = bareTypes l
  | [] => by simp [setKey, bareTypes, hk]
  | (k', v') :: r => by
    have ih := setKey_bareTypes_hidden hk v r
    unfold bareTypes at ih ⊢
    by_cases e : k' = k
    · subst e; simp [setKey, hk]
    · cases h : k'.hidden <;> simp [setKey, e, h, ih]

theorem addValueType_bare {acc : List (Key × List Ty)} {k : Key} {v : Val} (hk : k.hidden = false) :
    bareTypes (addValueType acc (k, v)) = addValueType (bareTypes acc) (k, withoutComments v) := by
  simp only [addValueType, setKey_bareTypes hk, lookup_bareTypes hk, bare_ty]

/-- Comments all have the type `str`. -/
def TextTypes (l : List (Key × List Ty)) : Prop := ∀ kt ∈ l, kt.1.hidden = true → kt.2 = [Ty.str]

theorem str_ne_float : Ty.str ≠ Ty.float := by decide

theorem addValueType_text {acc : List (Key × List Ty)} {k : Key} {v : Val} (ha : TextTypes acc)
    (hv : k.hidden = true → v.ty = .str) : TextTypes (addValueType acc (k, v)) := by
  intro kt h hh
  simp only [addValueType] at h
  rcases mem_setKey_or h with h | h
  · subst h
    have hk : k.hidden = true := hh
    simp only [hv hk]
    simp only [str_ne_float, false_and, if_false]
    cases hl : lookupKey k acc with
    | none => simp
    | some l =>
      have := ha (k, l) (lookupKey_mem hl) hk
      simp only at this
      simp [this]
  · exact ha kt h hh

theorem foldl_addValueType_bare : ∀ {l : List (Key × Val)} {acc : List (Key × List Ty)}, TextTypes acc →
    (∀ kv ∈ l, kv.1.hidden = true → kv.2.ty = .str) →
    bareTypes (l.foldl addValueType acc) = (bareData l).foldl addValueType (bareTypes acc) ∧ TextTypes (l.foldl addValueType acc)
  | [], acc, ha, _ => ⟨rfl, ha⟩
  | (k, v) :: r, acc, ha, hl => by
    have ha' : TextTypes (addValueType acc (k, v)) := addValueType_text ha (hl (k, v) (by simp))
    obtain ⟨h1, h2⟩ := foldl_addValueType_bare (l := r) ha' (fun kv h => hl kv (by simp [h]))
    refine ⟨?_, h2⟩
    rw [List.foldl_cons, h1]
    cases hk : k.hidden
    · rw [bareData_cons_visible hk, addValueType_bare hk]; rfl
    · rw [bareData_cons_hidden hk]
      congr 1
      simp only [addValueType, setKey_bareTypes_hidden hk]

theorem bareData_flatMap (ms : List DMeta) : bareData (ms.flatMap (·.data)) = (ms.map bareMeta).flatMap (·.data) := by
  induction ms with
  | nil => rfl
  | cons m r ih => simp only [List.flatMap_cons, List.map_cons, bareData_append, ih]; rfl

theorem compareDicts_bare {S : Strategies} {ms : List DMeta} (h : ∀ m ∈ ms, CladMeta S m) : compareDicts (ms.map bareMeta) = compareDicts ms := by
  cases ms with
  | nil => rfl
  | cons m r =>
    have ht : ∀ kv ∈ (m :: r).flatMap (·.data), kv.1.hidden = true → kv.2.ty = .str := by
      intro kv hkv hh
      obtain ⟨m', hm', hkv⟩ := List.mem_flatMap.mp hkv
      obtain ⟨t, e⟩ := (h m' hm').data.text kv hkv hh
      rw [e]; rfl
    have h1 := foldl_addValueType_bare (acc := []) (by intro _ h; simp at h) ht
    rw [bareData_flatMap] at h1
    have e1 : (bareTypes []) = [] := rfl
    rw [e1] at h1
    simp only [List.map_cons] at h1
    simp only [compareDicts, List.map_cons, keys_bare]
    have e2 : (List.flatMap DMeta.keys (bareMeta m :: List.map bareMeta r)) = List.flatMap DMeta.keys (m :: r) := by
      rw [← List.map_cons, List.flatMap_map]
      congr 1
      funext x
      exact keys_bare x
    have e3 : (List.filter (fun k => (List.map bareMeta r).all fun m' => m'.keys.contains k) m.keys) =
        (List.filter (fun k => r.all fun m' => m'.keys.contains k) m.keys) := by
      apply List.filter_congr
      intro k _
      rw [List.all_map]
      congr 1
      funext x
      simp [keys_bare]
    rw [e2, e3, ← h1.1]
    congr 2
    generalize (List.foldl addValueType [] (List.flatMap (fun x => x.data) (m :: r))) = types at h1
    have h2 := h1.2
    clear h1 e2 e3 ht
    induction types with
    | nil => rfl
    | cons kt r ih =>
      have ih := ih (fun x hx => h2 x (by simp [hx]))
      unfold bareTypes at ih ⊢
      cases hk : kt.1.hidden
      · simp only [List.filter_cons, hk, Bool.not_false, if_true, List.all_cons, ih]
      · simp only [List.filter_cons, hk, Bool.not_true, Bool.false_eq_true, if_false, List.all_cons, ih]
        rw [h2 kt (by simp) hk]
        simp

theorem filterMap_nodeMeta_bare (ns : List Node) : (ns.map bareTree).filterMap nodeMeta = (ns.filterMap nodeMeta).map bareMeta := by
  rw [List.filterMap_map, List.map_filterMap]
  congr 1
  funext n
  exact nodeMeta_bare n

theorem shouldMerge_bare {S : Strategies} {ns : List Node} (h : ∀ n ∈ ns, NodeAll (CladHdr S) n) :
    shouldMerge S (ns.map bareTree) = shouldMerge S ns := by
  unfold shouldMerge
  rw [filterMap_nodeMeta_bare, compareDicts_bare (S := S)]
  intro m hm
  obtain ⟨n, hn, e⟩ := List.mem_filterMap.mp hm
  exact clad_nodeMeta (h n hn) e

end Verif
