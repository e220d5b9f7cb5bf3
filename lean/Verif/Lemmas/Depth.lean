import Verif.Spec.Depth
import Verif.Lemmas.FitsBuild
/-
The height of a tree is the nesting depth of the data it was built for.
-/
namespace Verif
open Verif.Spec

theorem le_maxOf {x : Nat} : ∀ {l : List Nat}, x ∈ l → x ≤ maxOf l
  | [], h => by cases h
  | y :: r, h => by
    simp only [maxOf, List.foldr_cons]
    rcases List.mem_cons.mp h with rfl | h
    · exact Nat.le_max_left _ _
    · exact Nat.le_trans (le_maxOf h) (Nat.le_max_right _ _)

theorem maxOf_le {b : Nat} : ∀ {l : List Nat}, (∀ x ∈ l, x ≤ b) → maxOf l ≤ b
  | [], _ => Nat.zero_le _
  | y :: r, h => by
    simp only [maxOf, List.foldr_cons]
    exact Nat.max_le.mpr ⟨h y (by simp), maxOf_le (fun x hx => h x (by simp [hx]))⟩

theorem maxOf_mono {l l' : List Nat} (h : ∀ x ∈ l, ∃ y ∈ l', x ≤ y) : maxOf l ≤ maxOf l' :=
  maxOf_le (fun x hx => let ⟨_, hy, hxy⟩ := h x hx; Nat.le_trans hxy (le_maxOf hy))

theorem foldl_max {α} (f : α → Nat) : ∀ (l : List α) (m : Nat), l.foldl (fun m k => max (f k) m) m = max m (maxOf (l.map f))
  | [], m => by simp [maxOf]
  | a :: r, m => by
    rw [List.foldl_cons, foldl_max f r]
    simp only [List.map_cons, maxOf, List.foldr_cons]
    omega

mutual
/-- Depth of a structural hash. -/
def H.depth : H → Nat
  | .ty _ => 0
  | .str _ => 0
  | .set l => 1 + hdepthList l
  | .tup l => 1 + hdepthList l
  | .mapping _ h => h.depth
  | .typed _ h => h.depth
def hdepthList : List H → Nat
  | [] => 0
  | h :: r => max h.depth (hdepthList r)
end

theorem hdepthList_eq : ∀ l : List H, hdepthList l = maxOf (l.map H.depth)
  | [] => rfl
  | h :: r => by simp only [hdepthList, List.map_cons, maxOf, List.foldr_cons, hdepthList_eq r]

mutual
theorem eqv_depth : ∀ (a b : H), H.eqv a b = true → a.depth = b.depth
  | .ty _, b, h => by cases b <;> simp_all [H.eqv, H.depth]
  | .str _, b, h => by cases b <;> simp_all [H.eqv, H.depth]
  | .set a, b, h => by
    cases b with
    | set b =>
      simp only [H.eqv, Bool.and_eq_true, List.all_eq_true] at h
      simp only [H.depth]
      have h1 := allIn_depth a b h.1
      have h2 : hdepthList b ≤ hdepthList a := by
        rw [hdepthList_eq b]
        refine maxOf_le ?_
        intro x hx
        obtain ⟨y, hy, rfl⟩ := List.mem_map.mp hx
        exact anyEq_depth a y (h.2 y hy)
      omega
    | _ => simp [H.eqv] at h
  | .tup a, b, h => by
    cases b with
    | tup b =>
      simp only [H.eqv] at h
      simp only [H.depth, eqvList_depth a b h]
    | _ => simp [H.eqv] at h
  | .mapping t a, b, h => by
    cases b with
    | mapping t' b =>
      simp only [H.eqv, Bool.and_eq_true] at h
      simp only [H.depth]; exact eqv_depth a b h.2
    | _ => simp [H.eqv] at h
  | .typed t a, b, h => by
    cases b with
    | typed t' b =>
      simp only [H.eqv, Bool.and_eq_true] at h
      simp only [H.depth]; exact eqv_depth a b h.2
    | _ => simp [H.eqv] at h
theorem allIn_depth : ∀ (a b : List H), H.allIn a b = true → hdepthList a ≤ hdepthList b
  | [], b, _ => Nat.zero_le _
  | x :: r, b, h => by
    simp only [H.allIn, Bool.and_eq_true, List.any_eq_true] at h
    obtain ⟨⟨y, hy, he⟩, h2⟩ := h
    simp only [hdepthList]
    have h1 := eqv_depth x y he
    have h3 : y.depth ≤ hdepthList b := by rw [hdepthList_eq]; exact le_maxOf (List.mem_map_of_mem hy)
    have h4 := allIn_depth r b h2
    omega
theorem anyEq_depth : ∀ (a : List H) (y : H), H.anyEq a y = true → y.depth ≤ hdepthList a
  | [], y, h => by simp [H.anyEq] at h
  | x :: r, y, h => by
    simp only [H.anyEq, Bool.or_eq_true] at h
    simp only [hdepthList]
    rcases h with h | h
    · have := eqv_depth x y h; omega
    · have := anyEq_depth r y h; omega
theorem eqvList_depth : ∀ (a b : List H), H.eqvList a b = true → hdepthList a = hdepthList b
  | [], b, h => by cases b <;> simp_all [H.eqvList]
  | x :: r, b, h => by
    cases b with
    | nil => simp [H.eqvList] at h
    | cons y s =>
      simp only [H.eqvList, Bool.and_eq_true] at h
      simp only [hdepthList, eqv_depth x y h.1, eqvList_depth r s h.2]
end

/-- Height of a tree, read off its structural hash. -/
def tall (S : Strategies) (n : Node) : Nat := (n.hash S).depth

theorem tall_eq {S : Strategies} {a b : Node} (h : nodeEq S a b = true) : tall S a = tall S b := by
  simp only [nodeEq, Bool.and_eq_true] at h
  exact eqv_depth _ _ h.2

theorem tall_rename {S : Strategies} {n : Node} {x : Str} : tall S (n.rename x) = tall S n := by
  unfold tall; rw [hash_rename]

mutual
/-- Nodes other than frames, with one slot per child and no `None` keys. -/
def Sane : Node → Prop
  | .mk h kids => h.slots.length = kids.length ∧ (∀ s ∈ h.slots, s.key ≠ .none) ∧ (∀ i, h.kind ≠ .frame i) ∧ SaneList kids
def SaneList : List Node → Prop
  | [] => True
  | k :: r => Sane k ∧ SaneList r
end

theorem saneList_iff : ∀ {l : List Node}, SaneList l ↔ ∀ k ∈ l, Sane k
  | [] => by simp [SaneList]
  | k :: r => by simp [SaneList, saneList_iff (l := r)]

theorem renameList_length {new : Str} {len : Nat} : ∀ {c : Nat} {slots : List Slot} {l : List Node},
    (renameList new len c slots l).length = l.length
  | _, [], [] => by simp [renameList]
  | _, _ :: _, [] => by simp [renameList]
  | c, [], k :: r => by simp [renameList, renameList_length (l := r)]
  | c, s :: ss, k :: r => by simp [renameList, renameList_length (l := r)]

mutual
theorem sane_renameAux {new : Str} {len : Nat} : ∀ (c : Nat) (n : Node), Sane n → Sane (n.renameAux new len c)
  | c, .mk h kids, hs => by
    simp only [Node.renameAux, Sane] at hs ⊢
    refine ⟨?_, hs.2.1, hs.2.2.1, sane_renameList c h.slots kids hs.2.2.2⟩
    rw [hs.1, renameList_length]
theorem sane_renameList {new : Str} {len : Nat} : ∀ (c : Nat) (slots : List Slot) (l : List Node), SaneList l →
    SaneList (renameList new len c slots l)
  | _, [], [], _ => by simp [renameList, SaneList]
  | _, _ :: _, [], _ => by simp [renameList, SaneList]
  | c, [], k :: r, h => by
    simp only [renameList, SaneList] at h ⊢
    exact ⟨sane_renameAux c k h.1, sane_renameList c [] r h.2⟩
  | c, s :: ss, k :: r, h => by
    simp only [renameList, SaneList] at h ⊢
    exact ⟨sane_renameAux _ k h.1, sane_renameList c ss r h.2⟩
end

theorem sane_rename {n : Node} {x : Str} (h : Sane n) : Sane (n.rename x) := sane_renameAux 1 n h

theorem map_depth_zip {f : Key × H → H} (hf : ∀ kh, (f kh).depth = kh.2.depth) : ∀ {keys : List Key} {hs : List H},
    keys.length = hs.length → hdepthList ((keys.zip hs).map f) = hdepthList hs
  | [], hs, h => by
    cases hs with
    | nil => rfl
    | cons => simp at h
  | k :: r, hs, h => by
    cases hs with
    | nil => simp at h
    | cons x xs =>
      simp only [List.zip_cons_cons, List.map_cons, hdepthList, hf]
      rw [map_depth_zip hf (by simpa using h)]

/-- The kinds of nodes that have height. -/
def isContainer : NKind → Bool
  | .seq _ | .dict _ _ | .proxy | .frame _ => true
  | _ => false

theorem tall_mk {S : Strategies} {h : Hdr} {kids : List Node} (hl : h.slots.length = kids.length) (hf : ∀ i, h.kind ≠ .frame i) :
    tall S (.mk h kids) = if isContainer h.kind then 1 + maxOf (kids.map (tall S)) else 0 := by
  have hk : hdepthList (hashList S kids) = maxOf (kids.map (tall S)) := by
    rw [hdepthList_eq, hashList_eq_map, List.map_map]; rfl
  have hz : (h.slots.map (·.key)).length = (hashList S kids).length := by rw [hashList_eq_map]; simp [hl]
  rw [show tall S (.mk h kids) = (hashOf S h (hashList S kids)).depth by rw [tall, Node.hash]]
  cases hkd : h.kind with
  | frame i => exact absurd hkd (hf i)
  | func f =>
    simp only [hashOf, hkd, isContainer, Bool.false_eq_true, if_false, funcHash]
    split
    · split <;> rfl
    · rfl
  | seq k =>
    simp only [hashOf, hkd, isContainer, if_true]
    cases k with
    | tuple => dsimp only; split <;> simp only [H.depth, hk]
    | _ => simp only [H.depth, hk]
  | dict d m =>
    simp only [hashOf, hkd, isContainer, if_true]
    split <;> simp only [H.depth, ← hk]
    · rw [map_depth_zip (f := fun kh => H.typed kh.1 kh.2) (fun kh => rfl) hz]
    · rw [map_depth_zip (f := fun kh => H.mapping kh.1.ty kh.2) (fun kh => rfl) hz]
  | proxy =>
    simp only [hashOf, hkd, isContainer, if_true]
    simp only [H.depth, ← hk]; rw [map_depth_zip (f := fun kh => H.mapping kh.1.ty kh.2) (fun kh => rfl) hz]
  | _ => simp only [hashOf, hkd, isContainer, Bool.false_eq_true, if_false, H.depth]

mutual
/-- The height used for rendering. -/
theorem out_height {E : Env} {im : Str → List Str} : ∀ (n : Node), Sane n → (n.out E im).height = tall E.S n
  | .mk h kids, hs => by
    simp only [Sane] at hs
    have hk := outList_height (E := E) (im := im) kids hs.2.2.2
    rw [tall_mk hs.1 hs.2.2.1, out_mk]
    have hi : iterate h.slots (outList E im kids) = outList E im kids := by
      exact iterate_seq (by rw [outList_length, hs.1]) hs.2.1
    simp only [combine, heightOf, hi]
    have hm := foldl_max (fun o : Out => o.height) (outList E im kids) 0
    rw [hk] at hm
    cases h.kind <;> simp only [isContainer, if_true, Bool.false_eq_true, if_false]
    all_goals rw [hm]; omega
theorem outList_height {E : Env} {im : Str → List Str} : ∀ (l : List Node), SaneList l →
    (outList E im l).map (·.height) = l.map (tall E.S)
  | [], _ => rfl
  | k :: r, h => by
    simp only [SaneList] at h
    simp only [outList, List.map_cons, out_height k h.1, outList_height r h.2]
end

/-! ### Construction -/

theorem nestings_eq {S : Strategies} : ∀ l : List Val, nestings S l = l.map (nesting S)
  | [] => rfl
  | v :: r => by simp only [nestings, List.map_cons, nestings_eq r]

theorem limit_map {α β} {n : Nat} {f : α → β} {l : List α} : limit n (l.map f) = (limit n l).map f := by
  unfold limit
  split
  · rfl
  · rw [List.map_take]

theorem nesting_seq {S : Strategies} {k : SeqKind} {t : Ty} {es : List Val} :
    nesting S (.seq k t es) = 1 + maxOf ((limit S.checkMax es).map (nesting S)) := by
  simp only [nesting, nestings_eq, limit_map]

theorem inspectedItems_map {α β} {S : Strategies} {k : MapKind} {f : α → β} {l : List (Key × α)} :
    inspectedItems S k (l.map (fun kv => (kv.1, f kv.2))) = (inspectedItems S k l).map (fun kv => (kv.1, f kv.2)) := by
  cases k <;> simp only [inspectedItems]
  · split <;> simp only [limit_map, List.filter_map, Function.comp_def]
  · simp only [limit_map, List.filter_map, Function.comp_def]

theorem nesting_map {S : Strategies} {k : MapKind} {t : Ty} {ks : List Key} {vs : List Val} :
    nesting S (.map k t ks vs) = 1 + maxOf ((inspectedItems S k (ks.zip vs)).map (fun kv => nesting S kv.2)) := by
  have : ks.zip (vs.map (nesting S)) = (ks.zip vs).map (fun kv => (kv.1, nesting S kv.2)) := by
    rw [List.zip_map_right]; rfl
  simp only [nesting, nestings_eq, this, inspectedItems_map, List.map_map, Function.comp_def]

/-- What is known of the node `n` built for the value `v`. -/
structure Deep (S : Strategies) (v : Val) (n : Node) : Prop where
  tall : tall S n = nesting S v
  sane : Sane n
  typed : isTypedDict S n = true → IsRecord S v ∧ nodeData n = v.items ∧ ∃ m, nodeMeta n = some m ∧ m.data = v.items

def RecDeep (S : Strategies) (rec : Str → Val → Except Err Node) : Prop :=
  ∀ nm v n, Level S v → rec nm v = .ok n → Deep S v n

/-- Data of a TypedDict node that stands for some of the processed records. -/
structure OfRecords (S : Strategies) (done : List Val) (k : Node) : Prop where
  mem : ∀ kv ∈ nodeData k, ∃ d ∈ done, IsRecord S d ∧ kv ∈ d.items
  le : ∀ kv ∈ nodeData k, kv.1.hidden = false → nesting S kv.2 + 1 ≤ tall S k
  ex : tall S k = 1 ∨ ∃ kv ∈ nodeData k, kv.1.hidden = false ∧ nesting S kv.2 + 1 = tall S k
  info : ∃ m, nodeMeta k = some m ∧ m.data = nodeData k

theorem record_nesting {S : Strategies} {v : Val} (h : IsRecord S v) :
    nesting S v = 1 + maxOf ((v.items.filter (fun kv => !kv.1.hidden)).map (fun kv => nesting S kv.2)) := by
  obtain ⟨t, ks, vs, rfl, hS, _⟩ := record_dict h
  rw [nesting_map]
  simp only [inspectedItems, hS, if_true, Val.items]

theorem maxOf_mem : ∀ {l : List Nat}, maxOf l = 0 ∨ maxOf l ∈ l
  | [] => .inl rfl
  | x :: r => by
    have ih := maxOf_mem (l := r)
    simp only [maxOf, List.foldr_cons] at ih ⊢
    rcases Nat.le_total x (r.foldr max 0) with h | h
    · rw [Nat.max_eq_right h]
      rcases ih with ih | ih
      · exact .inl ih
      · exact .inr (List.mem_cons_of_mem _ ih)
    · rw [Nat.max_eq_left h]; exact .inr (List.mem_cons_self ..)

theorem ofRecords_deep {S : Strategies} {done : List Val} {v : Val} {n : Node} (hv : v ∈ done) (h : Deep S v n)
    (ht : isTypedDict S n = true) : OfRecords S done n := by
  obtain ⟨h1, h2, h3⟩ := h.typed ht
  have hn := record_nesting h1
  rw [← h.tall] at hn
  constructor
  · intro kv hkv; exact ⟨v, hv, h1, h2 ▸ hkv⟩
  · intro kv hkv hh
    rw [h2] at hkv
    have := le_maxOf (List.mem_map_of_mem (f := fun kv : Key × Val => nesting S kv.2) (List.mem_filter (p := fun kv => !kv.1.hidden).mpr ⟨hkv, by simp [hh]⟩))
    omega
  · rcases maxOf_mem (l := (v.items.filter (fun kv => !kv.1.hidden)).map (fun kv => nesting S kv.2)) with h | h
    · left; omega
    · right
      obtain ⟨kv, hkv, e⟩ := List.mem_map.mp h
      rw [List.mem_filter] at hkv
      exact ⟨kv, by rw [h2]; exact hkv.1, by simpa using hkv.2, by omega⟩
  · rw [h2]; exact h3

/-- State of the loop over the elements of a sequence. -/
structure DeepInv (S : Strategies) (done : List Val) (kids : List Node) : Prop where
  up : ∀ e ∈ done, ∃ k ∈ kids, tall S k = nesting S e
  down : ∀ k ∈ kids, ∃ e ∈ done, tall S k = nesting S e
  sane : ∀ k ∈ kids, Sane k
  recs : ∀ k ∈ kids, isTypedDict S k = true → OfRecords S done k

theorem OfRecords.mono {S : Strategies} {done done' : List Val} {k : Node} (h : OfRecords S done k)
    (hd : ∀ d ∈ done, d ∈ done') : OfRecords S done' k where
  mem := fun kv hkv => let ⟨d, h1, h2⟩ := h.mem kv hkv; ⟨d, hd d h1, h2⟩
  le := h.le
  ex := h.ex
  info := h.info

theorem updateNode_same {S : Strategies} {k c : Node} (hk : Sane k) : tall S (updateNode k c) = tall S k ∧ Sane (updateNode k c) := by
  obtain ⟨h, kids⟩ := k
  obtain ⟨h', kids'⟩ := c
  simp only [updateNode]
  split
  · rename_i e e'
    simp only [Sane] at hk ⊢
    refine ⟨?_, hk.1, hk.2.1, by simp, hk.2.2.2⟩
    rw [tall_mk hk.1 hk.2.2.1, tall_mk (by exact hk.1) (by simp)]
    simp [isContainer, e]
  · exact ⟨rfl, hk⟩

theorem ofRecords_update {S : Strategies} {done : List Val} {k c : Node} (hsk : Sane k) (hk : OfRecords S done k)
    (hc : OfRecords S done c) (he : tall S c = tall S k) : OfRecords S done (updateNode k c) := by
  obtain ⟨m, hm, hmd⟩ := hk.info
  obtain ⟨o, ho, hod⟩ := hc.info
  have hsame := updateNode_same (c := c) (S := S) hsk
  have hdata : nodeData (updateNode k c) = (m.update o).data ∧ nodeMeta (updateNode k c) = some (m.update o) := by
    obtain ⟨h, kids⟩ := k
    obtain ⟨h', kids'⟩ := c
    cases hk1 : h.kind with
    | dict d m1 =>
      cases hk2 : h'.kind with
      | dict d' m2 =>
        simp only [nodeMeta, hk1, hk2, Option.some.injEq] at hm ho
        subst hm; subst ho
        simp only [updateNode, hk1, hk2, nodeData, nodeMeta, and_self]
      | _ => simp [nodeMeta, hk2] at ho
    | _ => simp [nodeMeta, hk1] at hm
  have hmem : ∀ kv ∈ nodeData (updateNode k c), kv ∈ nodeData k ∨ kv ∈ nodeData c := by
    intro kv hkv
    rw [hdata.1] at hkv
    rcases mem_update_data hkv with h | h
    · left; rw [← hmd]; exact h
    · right; rw [← hod]; exact h
  constructor
  · intro kv hkv
    rcases hmem kv hkv with h | h
    · exact hk.mem kv h
    · exact hc.mem kv h
  · intro kv hkv hh
    rw [hsame.1]
    rcases hmem kv hkv with h | h
    · exact hk.le kv h hh
    · rw [← he]; exact hc.le kv h hh
  · rw [hsame.1]
    rcases hk.ex with h | ⟨kv, h1, h2, h3⟩
    · exact .inl h
    · refine .inr ⟨kv, ?_, h2, h3⟩
      rw [hdata.1, DMeta.update]
      simp only [List.mem_append]
      left; rw [hmd]; exact h1
  · exact ⟨_, hdata.2, hdata.1.symm⟩

theorem typed_updateNode {S : Strategies} {k c : Node} (h : isTypedDict S (updateNode k c) = true) : isTypedDict S k = true := by
  obtain ⟨h1, kids⟩ := k
  obtain ⟨h2, kids'⟩ := c
  revert h
  simp only [updateNode]
  split
  · rename_i d m d' o e1 e2
    simp only [isTypedDict, e1, DMeta.isTyped, Bool.and_eq_true, allStr, DMeta.update, List.all_append]
    rintro ⟨⟨h, _⟩, h'⟩
    exact ⟨h, h'⟩
  · exact id

theorem setStep_deep {E : Env} {rec : Str → Val → Except Err Node} (hrec : RecDeep E.S rec) {parent : Str}
    {done : List Val} {a : Val} (ha : Level E.S a) {b b' : List Node × List Str} (h : DeepInv E.S done b.1)
    (hs : setStep E rec parent b a = .ok b') : DeepInv E.S (done ++ [a]) b'.1 := by
  unfold setStep at hs
  have hsub : ∀ v ∈ done, v ∈ done ++ [a] := fun v hv => by simp [hv]
  cases hr : rec (freshName (parent ++ E.U.capitalize a.ty.name) b.2) a with
  | error e => simp only [hr] at hs; cases hs
  | ok c =>
    have hg := hrec _ _ _ ha hr
    simp only [hr] at hs
    by_cases he : b.1.any (nodeEq E.S c) = true
    · obtain ⟨k0, hk0, hk0e⟩ := List.any_eq_true.mp he
      have ht0 := tall_eq hk0e
      cases ht : isTypedDict E.S c with
      | true =>
        have hb : b'.1 = b.1.map (fun k => if nodeEq E.S c k then updateNode k c else k) := by
          have : (Except.ok (b.1.map (fun k => if nodeEq E.S c k then updateNode k c else k), b.2) : Except Err _) = .ok b' := by
            rw [← hs]
            show _ = (if b.1.any (nodeEq E.S c) then _ else _)
            rw [if_pos he, ht]; rfl
          injection this with this
          rw [← this]
        have same : ∀ k ∈ b.1, tall E.S (if nodeEq E.S c k then updateNode k c else k) = tall E.S k ∧
            Sane (if nodeEq E.S c k then updateNode k c else k) := by
          intro k hk
          split
          · exact updateNode_same (h.sane k hk)
          · exact ⟨rfl, h.sane k hk⟩
        rw [hb]
        constructor
        · intro e hme
          rcases List.mem_append.mp hme with hme | hme
          · obtain ⟨k, hk, hty⟩ := h.up e hme
            exact ⟨_, List.mem_map_of_mem hk, by rw [(same k hk).1, hty]⟩
          · simp only [List.mem_singleton] at hme
            subst hme
            exact ⟨_, List.mem_map_of_mem hk0, by rw [(same k0 hk0).1, ← ht0, hg.tall]⟩
        · intro k hk
          obtain ⟨k', hk', rfl⟩ := List.mem_map.mp hk
          obtain ⟨e, he, h'⟩ := h.down k' hk'
          exact ⟨e, hsub e he, by rw [(same k' hk').1, h']⟩
        · intro k hk
          obtain ⟨k', hk', rfl⟩ := List.mem_map.mp hk
          exact (same k' hk').2
        · intro k hk htk
          obtain ⟨k', hk', rfl⟩ := List.mem_map.mp hk
          by_cases hek : nodeEq E.S c k' = true
          · rw [if_pos hek] at htk ⊢
            exact ofRecords_update (h.sane k' hk') ((h.recs k' hk' (typed_updateNode htk)).mono hsub)
              (ofRecords_deep (by simp) hg ht) (tall_eq hek)
          · rw [if_neg hek] at htk ⊢
            exact (h.recs k' hk' htk).mono hsub
      | false =>
        have hb : b' = b := by
          have : (Except.ok b : Except Err _) = .ok b' := by
            rw [← hs]
            show _ = (if b.1.any (nodeEq E.S c) then _ else _)
            rw [if_pos he, ht]; rfl
          injection this with this
          exact this.symm
        rw [hb]
        refine ⟨?_, ?_, h.sane, fun k hk htk => (h.recs k hk htk).mono hsub⟩
        · intro e hme
          rcases List.mem_append.mp hme with hme | hme
          · exact h.up e hme
          · simp only [List.mem_singleton] at hme
            subst hme
            exact ⟨k0, hk0, by rw [← ht0, hg.tall]⟩
        · intro k hk
          obtain ⟨e, he, h'⟩ := h.down k hk
          exact ⟨e, hsub e he, h'⟩
    · have hb : b'.1 = b.1 ++ [c] := by
        have : (Except.ok (b.1 ++ [c], b.2 ++ [freshName (parent ++ E.U.capitalize a.ty.name) b.2]) : Except Err _) = .ok b' := by
          rw [← hs]
          show _ = (if b.1.any (nodeEq E.S c) then _ else _)
          rw [if_neg he]; rfl
        injection this with this
        rw [← this]
      rw [hb]
      constructor
      · intro e hme
        rcases List.mem_append.mp hme with hme | hme
        · obtain ⟨k, hk, h'⟩ := h.up e hme
          exact ⟨k, by simp [hk], h'⟩
        · simp only [List.mem_singleton] at hme
          subst hme
          exact ⟨c, by simp, hg.tall⟩
      · intro k hk
        rcases List.mem_append.mp hk with hk | hk
        · obtain ⟨e, he, h'⟩ := h.down k hk
          exact ⟨e, hsub e he, h'⟩
        · simp only [List.mem_singleton] at hk; subst hk; exact ⟨a, by simp, hg.tall⟩
      · intro k hk
        rcases List.mem_append.mp hk with hk | hk
        · exact h.sane k hk
        · simp only [List.mem_singleton] at hk; subst hk; exact hg.sane
      · intro k hk htk
        rcases List.mem_append.mp hk with hk | hk
        · exact (h.recs k hk htk).mono hsub
        · simp only [List.mem_singleton] at hk
          subst hk
          exact ofRecords_deep (by simp) hg htk

/-- Records of one sequence whose shared keys hold equally deep values. -/
def Agreeing (S : Strategies) (done : List Val) : Prop :=
  ∀ d ∈ done, ∀ e ∈ done, IsRecord S d → IsRecord S e → ∀ x ∈ d.items, ∀ y ∈ e.items, x.1 = y.1 → nesting S x.2 = nesting S y.2

theorem record_keys {S : Strategies} {v : Val} (h : IsRecord S v) {kv : Key × Val} (hk : kv ∈ v.items) : kv.1.isStr = true := by
  obtain ⟨t, ks, vs, rfl, _, hs⟩ := record_dict h
  exact hs _ (List.of_mem_zip (show (kv.1, kv.2) ∈ _ from hk)).1

theorem level_items {S : Strategies} {v : Val} (h : Level S v) {kv : Key × Val} (hk : kv ∈ v.items) : Level S kv.2 := by
  cases v with
  | map k t ks vs =>
    exact everyList_iff.mp h.2 _ (List.of_mem_zip (show (kv.1, kv.2) ∈ ks.zip vs from hk)).2
  | _ => simp [Val.items] at hk

theorem mergeDicts_deep {S : Strategies} {rec : Str → Val → Except Err Node} (hrec : RecDeep S rec) (hS : S.dict = .typedDict)
    {done : List Val} (hd : ∀ e ∈ done, Level S e) (hag : Agreeing S done) {ds : List Node}
    (hf : ∀ n ∈ ds, OfRecords S done n) {n : Node} (h : mergeDicts rec ds = .ok n) :
    Sane n ∧ tall S n = maxOf (ds.map (tall S)) := by
  cases ds with
  | nil => cases h
  | cons d0 ds0 =>
    simp only [mergeDicts] at h
    generalize hD : (d0 :: ds0).foldl (fun acc n => updateDict acc (nodeData n)) [] = D at h
    generalize (ds0.foldl (fun acc n => minStr acc n.name) d0.name) = name at h
    cases hr : rec name (.dict D) with
    | error e => rw [hr] at h; cases h
    | ok n0 =>
      rw [hr] at h
      obtain ⟨hh, kids⟩ := n0
      have h : (Except.ok (Node.mk { hh with kind := .dict D _ } kids) : Except Err Node) = .ok n := h
      injection h with h
      subst h
      have hmem : ∀ kv ∈ D, ∃ d ∈ d0 :: ds0, kv ∈ nodeData d := by
        intro kv hkv
        rw [← hD] at hkv
        rcases mem_foldl_updateDict hkv with h | h
        · cases h
        · exact h
      have hkeys : ∀ x, x ∈ D.map (·.1) ↔ ∃ d ∈ d0 :: ds0, x ∈ (nodeData d).map (·.1) := by
        intro x
        rw [← hD, keys_foldl_updateDict]
        simp
      have hnd : (D.map (·.1)).Nodup := by
        rw [← hD]; exact nodup_foldl_updateDict (by simp)
      have hrecd : ∀ kv ∈ D, ∃ e ∈ done, IsRecord S e ∧ kv ∈ e.items := by
        intro kv hkv
        obtain ⟨d, hd', hkd⟩ := hmem kv hkv
        exact (hf d hd').mem kv hkd
      have hlev : Level S (.dict D) := by
        refine ⟨⟨hnd, by simp, ?_⟩, everyList_iff.mpr ?_⟩
        · intro hn
          obtain ⟨kv, hkv, e⟩ := List.mem_map.mp hn
          obtain ⟨d, _, hre, hk⟩ := hrecd kv hkv
          have := record_keys hre hk
          rw [e] at this
          cases this
        · intro v hv
          obtain ⟨kv, hkv, rfl⟩ := List.mem_map.mp hv
          obtain ⟨d, hd', hre, hk⟩ := hrecd kv hkv
          exact level_items (hd d hd') hk
      have hdeep := hrec _ _ _ hlev hr
      have hsane := hdeep.sane
      simp only [Sane] at hsane ⊢
      have hisc : isContainer hh.kind = true := by
        have htl := hdeep.tall
        rw [tall_mk hsane.1 hsane.2.2.1, show Val.dict D = .map .dict .dict (D.map (·.1)) (D.map (·.2)) from rfl, nesting_map] at htl
        split at htl
        · assumption
        · omega
      refine ⟨⟨hsane.1, hsane.2.1, by simp, hsane.2.2.2⟩, ?_⟩
      have htall : tall S (Node.mk hh kids) = nesting S (.dict D) := hdeep.tall
      rw [tall_mk hsane.1 hsane.2.2.1, hisc, if_pos rfl] at htall
      rw [tall_mk (by exact hsane.1) (by simp)]
      simp only [isContainer, if_true]
      rw [htall]
      have hzip : ((D.map (·.1)).zip (D.map (·.2))) = D := by
        rw [List.zip_map']; simp
      have hnest : nesting S (.dict D) = 1 + maxOf ((D.filter (fun kv => !kv.1.hidden)).map (fun kv => nesting S kv.2)) := by
        rw [show Val.dict D = .map .dict .dict (D.map (·.1)) (D.map (·.2)) from rfl, nesting_map]
        simp only [inspectedItems, hS, if_true, hzip]
      apply Nat.le_antisymm
      · rw [hnest]
        have hone : 1 ≤ maxOf ((d0 :: ds0).map (tall S)) := by
          have h1 : tall S d0 ≤ maxOf ((d0 :: ds0).map (tall S)) := le_maxOf (by simp)
          rcases (hf d0 (by simp)).ex with h | ⟨kv, _, _, h⟩ <;> omega
        have : maxOf ((D.filter (fun kv => !kv.1.hidden)).map (fun kv => nesting S kv.2)) ≤ maxOf ((d0 :: ds0).map (tall S)) - 1 := by
          apply maxOf_le
          intro x hx
          obtain ⟨kv, hkv, rfl⟩ := List.mem_map.mp hx
          rw [List.mem_filter] at hkv
          obtain ⟨d, hd', hkd⟩ := hmem kv hkv.1
          have h1 := (hf d hd').le kv hkd (by simpa using hkv.2)
          have h2 : tall S d ≤ maxOf ((d0 :: ds0).map (tall S)) := le_maxOf (List.mem_map_of_mem hd')
          omega
        omega
      · apply maxOf_le
        intro x hx
        obtain ⟨d, hd', rfl⟩ := List.mem_map.mp hx
        rw [hnest]
        rcases (hf d hd').ex with h | ⟨kv, h1, h2, h3⟩
        · omega
        · have hk : kv.1 ∈ D.map (·.1) := (hkeys _).mpr ⟨d, hd', List.mem_map_of_mem h1⟩
          obtain ⟨kw, hkw, e⟩ := List.mem_map.mp hk
          obtain ⟨r1, hr1, hre1, hm1⟩ := hrecd kw hkw
          obtain ⟨r2, hr2, hre2, hm2⟩ := (hf d hd').mem kv h1
          have heq := hag r1 hr1 r2 hr2 hre1 hre2 kw hm1 kv hm2 e
          have := le_maxOf (List.mem_map_of_mem (f := fun kv : Key × Val => nesting S kv.2)
            (List.mem_filter (p := fun kv => !kv.1.hidden).mpr ⟨hkw, by simp [e, h2]⟩))
          omega

theorem limit_agreeing {S : Strategies} {es : List Val} (h : Agreeing S es) : Agreeing S (limit S.checkMax es) :=
  fun d hd e he => h d (limit_subset hd) e (limit_subset he)

theorem isTypedDict_strategy {S : Strategies} {n : Node} (h : isTypedDict S n = true) : S.dict = .typedDict := by
  obtain ⟨_, m, _, hm⟩ := isTypedDict_kind h
  simp only [DMeta.isTyped, Bool.and_eq_true, decide_eq_true_eq] at hm
  exact hm.2

theorem mergeDicts_ne {rec : Str → Val → Except Err Node} {ds : List Node} {n : Node} (h : mergeDicts rec ds = .ok n) : ds ≠ [] := by
  rintro rfl; cases h

theorem setChildren_deep {E : Env} (hE : E.Fair) {rec : Str → Val → Except Err Node} (hrec : RecDeep E.S rec)
    {parent : Str} {es : List Val} (hd : ∀ e ∈ es, Level E.S e) (hs : Agreeing E.S es) {r : List Slot × List Node}
    (h : setChildren E rec parent es = .ok r) :
    r.1 = r.2.map (fun _ => Slot.seq 1) ∧ (∀ k ∈ r.2, Sane k) ∧
    maxOf (r.2.map (tall E.S)) = maxOf ((limit E.S.checkMax es).map (nesting E.S)) := by
  unfold setChildren at h
  have hd' : ∀ e ∈ limit E.S.checkMax es, Level E.S e := fun e he => hd e (limit_subset he)
  have hs' := limit_agreeing hs
  generalize limit E.S.checkMax es = l at h hd' hs' ⊢
  cases hf : foldE (setStep E rec parent) ([], []) l with
  | error e => rw [hf] at h; cases h
  | ok b =>
    have inv : DeepInv E.S l b.1 := foldE_inv_mem (I := fun done b => DeepInv E.S done b.1) ⟨by simp, by simp, by simp, by simp⟩
      (fun done a b b' ha hb hst => setStep_deep hrec (hd' a ha) hb hst) hf
    have hmax : maxOf (b.1.map (tall E.S)) = maxOf (l.map (nesting E.S)) := by
      apply Nat.le_antisymm
      · apply maxOf_mono
        intro x hx
        obtain ⟨k, hk, rfl⟩ := List.mem_map.mp hx
        obtain ⟨e, he, h'⟩ := inv.down k hk
        exact ⟨_, List.mem_map_of_mem he, Nat.le_of_eq h'⟩
      · apply maxOf_mono
        intro x hx
        obtain ⟨e, he, rfl⟩ := List.mem_map.mp hx
        obtain ⟨k, hk, h'⟩ := inv.up e he
        exact ⟨_, List.mem_map_of_mem hk, Nat.le_of_eq h'.symm⟩
    rw [hf] at h
    have h : (if shouldMerge E.S ((E.order 0 b.1).filter (isTypedDict E.S)) then (do
          let merged ← mergeDicts rec ((E.order 1 b.1).filter (isTypedDict E.S))
          let out := E.order 2 (b.1.filter (fun k => !isTypedDict E.S k) ++ [merged])
          pure (out.map (fun _ => Slot.seq 1), out))
        else (pure ((E.order 0 b.1).map (fun _ => Slot.seq 1), E.order 0 b.1) : Except Err (List Slot × List Node))) = .ok r := h
    by_cases hm : shouldMerge E.S ((E.order 0 b.1).filter (isTypedDict E.S)) = true
    · rw [if_pos hm] at h
      cases hg : mergeDicts rec ((E.order 1 b.1).filter (isTypedDict E.S)) with
      | error e => rw [hg] at h; cases h
      | ok n =>
        rw [hg] at h
        have h : (Except.ok ((E.order 2 (b.1.filter (fun k => !isTypedDict E.S k) ++ [n])).map (fun _ => Slot.seq 1),
          E.order 2 (b.1.filter (fun k => !isTypedDict E.S k) ++ [n])) : Except Err _) = .ok r := h
        injection h with h
        subst h
        have hfil : ∀ k ∈ (E.order 1 b.1).filter (isTypedDict E.S), k ∈ b.1 ∧ isTypedDict E.S k = true := by
          intro k hk
          rw [List.mem_filter] at hk
          exact ⟨(hE 1 b.1).mem_iff.mp hk.1, hk.2⟩
        obtain ⟨k1, hk1⟩ := List.exists_mem_of_ne_nil _ (mergeDicts_ne hg)
        obtain ⟨g1, g2⟩ := mergeDicts_deep hrec (isTypedDict_strategy (hfil k1 hk1).2) hd' hs'
          (fun k hk => inv.recs k (hfil k hk).1 (hfil k hk).2) hg
        have hmem : ∀ k, k ∈ E.order 2 (b.1.filter (fun k => !isTypedDict E.S k) ++ [n]) ↔
            (k ∈ b.1 ∧ isTypedDict E.S k = false) ∨ k = n := by
          intro k
          rw [(hE 2 _).mem_iff]
          simp
        refine ⟨rfl, ?_, ?_⟩
        · intro k hk
          rcases (hmem k).mp hk with ⟨hk, _⟩ | rfl
          · exact inv.sane k hk
          · exact g1
        · rw [← hmax]
          apply Nat.le_antisymm
          · apply maxOf_le
            intro x hx
            obtain ⟨k, hk, rfl⟩ := List.mem_map.mp hx
            rcases (hmem k).mp hk with ⟨hk, _⟩ | rfl
            · exact le_maxOf (List.mem_map_of_mem hk)
            · rw [g2]
              apply maxOf_mono
              intro x hx
              obtain ⟨k, hk, rfl⟩ := List.mem_map.mp hx
              exact ⟨_, List.mem_map_of_mem (hfil k hk).1, Nat.le_refl _⟩
          · apply maxOf_le
            intro x hx
            obtain ⟨k, hk, rfl⟩ := List.mem_map.mp hx
            cases ht : isTypedDict E.S k with
            | true =>
              have h1 : tall E.S k ≤ tall E.S n := by
                rw [g2]
                exact le_maxOf (List.mem_map_of_mem (List.mem_filter.mpr ⟨(hE 1 b.1).mem_iff.mpr hk, ht⟩))
              exact Nat.le_trans h1 (le_maxOf (List.mem_map_of_mem ((hmem n).mpr (.inr rfl))))
            | false => exact le_maxOf (List.mem_map_of_mem ((hmem k).mpr (.inl ⟨hk, ht⟩)))
    · rw [if_neg hm] at h
      have h : (Except.ok ((E.order 0 b.1).map (fun _ => Slot.seq 1), E.order 0 b.1) : Except Err _) = .ok r := h
      injection h with h
      subst h
      refine ⟨rfl, fun k hk => inv.sane k ((hE 0 _).mem_iff.mp hk), ?_⟩
      rw [← hmax]
      apply Nat.le_antisymm <;> apply maxOf_mono <;> intro x hx <;> obtain ⟨k, hk, rfl⟩ := List.mem_map.mp hx
      · exact ⟨_, List.mem_map_of_mem ((hE 0 _).mem_iff.mp hk), Nat.le_refl _⟩
      · exact ⟨_, List.mem_map_of_mem ((hE 0 _).mem_iff.mpr hk), Nat.le_refl _⟩

theorem deep_rename {S : Strategies} {v : Val} {n : Node} {x : Str} (h : Deep S v n) : Deep S v (n.rename x) where
  tall := by rw [tall_rename, h.tall]
  sane := sane_rename h.sane
  typed := by
    rw [typed_rename, (nodeMeta_rename (n := n) (new := x)).1, (nodeMeta_rename (n := n) (new := x)).2]
    exact h.typed

theorem tupleChildren_deep {E : Env} {rec : Str → Val → Except Err Node} (hrec : RecDeep E.S rec)
    {parent : Str} {es : List Val} (hd : ∀ e ∈ es, Level E.S e) (hs : Agreeing E.S es) {r : List Slot × List Node}
    (h : tupleChildren E rec parent es = .ok r) :
    r.1.length = r.2.length ∧ (∀ s ∈ r.1, s.key ≠ .none) ∧ (∀ k ∈ r.2, Sane k) ∧
    maxOf (r.2.map (tall E.S)) = maxOf ((limit E.S.checkMax es).map (nesting E.S)) := by
  unfold tupleChildren at h
  have hd' : ∀ e ∈ limit E.S.checkMax es, Level E.S e := fun e he => hd e (limit_subset he)
  have hs' := limit_agreeing hs
  generalize limit E.S.checkMax es = l at h hd' hs' ⊢
  cases hf : foldE (tupleStep E rec parent) ([], []) l with
  | error e => rw [hf] at h; cases h
  | ok b =>
    have inv : All₂ (Deep E.S) l b.1 := foldE_inv_mem (I := fun done b => All₂ (Deep E.S) done b.1) .nil (by
      intro done a b b' ha hb hst
      unfold tupleStep at hst
      dsimp only at hst
      cases hr : rec (freshName (parent ++ E.U.capitalize a.ty.name) (b.2.map (·.2))) a with
      | error e => rw [hr] at hst; cases hst
      | ok c =>
        rw [hr] at hst
        have hg := hrec _ _ _ (hd' a ha) hr
        have hst : (match findEq E.S c b.2 with
            | some old => Except.ok (b.1 ++ [c.rename old], b.2)
            | none => Except.ok (b.1 ++ [c], b.2 ++ [(c, c.name)])) = (Except.ok b' : Except Err _) := hst
        cases hq : findEq E.S c b.2 with
        | some old =>
          rw [hq] at hst
          injection hst with hst
          subst hst
          exact hb.snoc (deep_rename hg)
        | none =>
          rw [hq] at hst
          injection hst with hst
          subst hst
          exact hb.snoc hg) hf
    have hmax : b.1.map (tall E.S) = l.map (nesting E.S) := (inv.map_eq (fun a b h => h.tall.symm)).symm
    rw [hf] at h
    have h : (if shouldMerge E.S (b.1.filter (isTypedDict E.S)) then (do
          let merged ← mergeDicts rec (b.1.filter (isTypedDict E.S))
          pure (b.1.map (fun k => Slot.seq (if isTypedDict E.S k then (b.1.filter (isTypedDict E.S)).length else 1)),
            b.1.map (fun k => if isTypedDict E.S k then merged else k)))
        else (pure (b.1.map (fun _ => Slot.seq 1), b.1) : Except Err (List Slot × List Node))) = .ok r := h
    by_cases hm : shouldMerge E.S (b.1.filter (isTypedDict E.S)) = true
    · rw [if_pos hm] at h
      cases hg : mergeDicts rec (b.1.filter (isTypedDict E.S)) with
      | error e => rw [hg] at h; cases h
      | ok n =>
        rw [hg] at h
        have h : (Except.ok (b.1.map (fun k => Slot.seq (if isTypedDict E.S k then (b.1.filter (isTypedDict E.S)).length else 1)),
          b.1.map (fun k => if isTypedDict E.S k then n else k)) : Except Err _) = .ok r := h
        injection h with h
        subst h
        obtain ⟨k1, hk1⟩ := List.exists_mem_of_ne_nil _ (mergeDicts_ne hg)
        obtain ⟨g1, g2⟩ := mergeDicts_deep hrec (isTypedDict_strategy (List.mem_filter.mp hk1).2) hd' hs'
          (fun k hk => by
            rw [List.mem_filter] at hk
            obtain ⟨a, ha, hga⟩ := inv.mem_right k hk.1
            exact ofRecords_deep ha hga hk.2) hg
        refine ⟨by simp, ?_, ?_, ?_⟩
        · intro s hs
          obtain ⟨k, _, rfl⟩ := List.mem_map.mp hs
          simp [Slot.seq]
        · intro k hk
          obtain ⟨k', hk', rfl⟩ := List.mem_map.mp hk
          split
          · exact g1
          · obtain ⟨a, ha, hga⟩ := inv.mem_right k' hk'
            exact hga.sane
        · rw [← hmax, List.map_map]
          apply Nat.le_antisymm
          · apply maxOf_le
            intro x hx
            obtain ⟨k, hk, rfl⟩ := List.mem_map.mp hx
            simp only [Function.comp]
            split
            · rw [g2]
              apply maxOf_mono
              intro x hx
              obtain ⟨k, hk, rfl⟩ := List.mem_map.mp hx
              exact ⟨_, List.mem_map_of_mem (List.mem_filter.mp hk).1, Nat.le_refl _⟩
            · exact le_maxOf (List.mem_map_of_mem hk)
          · apply maxOf_mono
            intro x hx
            obtain ⟨k, hk, rfl⟩ := List.mem_map.mp hx
            refine ⟨_, List.mem_map_of_mem hk, ?_⟩
            simp only [Function.comp]
            split
            · rename_i ht
              rw [g2]
              exact le_maxOf (List.mem_map_of_mem (List.mem_filter.mpr ⟨hk, ht⟩))
            · exact Nat.le_refl _
    · rw [if_neg hm] at h
      have h : (Except.ok (b.1.map (fun _ => Slot.seq 1), b.1) : Except Err _) = .ok r := h
      injection h with h
      subst h
      refine ⟨by simp, ?_, ?_, by rw [hmax]⟩
      · intro s hs
        obtain ⟨k, _, rfl⟩ := List.mem_map.mp hs
        simp [Slot.seq]
      · intro k hk
        obtain ⟨a, ha, hga⟩ := inv.mem_right k hk
        exact hga.sane

theorem shares_tall {S : Strategies} {kids : List (Key × Node)} {n0 n : Node} (h : Shares S kids n0 n) : tall S n = tall S n0 := by
  obtain ⟨k, m, _, h1, h2⟩ := h
  have : tall S m = tall S n0 := by
    rcases h1 with rfl | h1
    · rfl
    · exact (tall_eq h1).symm
  rcases h2 with rfl | ⟨x, rfl⟩
  · exact this
  · rw [tall_rename]; exact this

/-- Children of a mapping after sharing. -/
theorem mapShared_deep {E : Env} {rec : Str → Val → Except Err Node} (hrec : RecDeep E.S rec) {name : Str} {suffix : Key → Str}
    {items : List (Key × Val)} {kids : List (Key × Node)} (hd : ∀ kv ∈ items, Level E.S kv.2) (hnd : (items.map (·.1)).Nodup)
    (hno : Key.none ∉ items.map (·.1)) (hm : mapKids rec name suffix items = .ok kids) :
    (∀ s ∈ (shareEqual E name kids).1, s.key ≠ .none) ∧ (∀ k ∈ (shareEqual E name kids).2, Sane k) ∧
    (shareEqual E name kids).2.map (tall E.S) = items.map (fun kv => nesting E.S kv.2) := by
  have hk := mapKids_keys hm
  have h1 : All₂ (fun kv kn => kn.1 = kv.1 ∧ (Level E.S kv.2 → Deep E.S kv.2 kn.2)) items kids :=
    mapKids_all₂ (R := fun v n => Level E.S v → Deep E.S v n) (fun kv _ nm n hb hl => hrec nm _ _ hl hb) hm
  have hsh := shareEqual_spec (E := E) (parent := name) (kids := kids) (by rw [hk]; exact hnd)
  refine ⟨?_, ?_, ?_⟩
  · intro s hs e
    apply hno
    rw [← hk, ← shareEqual_keys E name kids]
    exact List.mem_map.mpr ⟨s, hs, e⟩
  · intro k hkk
    obtain ⟨kn, _, k0, m, hm0, _, h2⟩ := hsh.mem_right k hkk
    obtain ⟨kv, hkv, _, hg⟩ := h1.mem_right _ hm0
    have hg := hg (hd kv hkv)
    rcases h2 with rfl | ⟨x, rfl⟩
    · exact hg.sane
    · exact sane_rename hg.sane
  · have e1 : (shareEqual E name kids).2.map (tall E.S) = kids.map (fun kn => tall E.S kn.2) :=
      (All₂.map_eq (f := fun kn : Key × Node => tall E.S kn.2) (g := tall E.S) (fun a b h => (shares_tall h).symm) hsh).symm
    rw [e1]
    clear e1 hsh hm hk hno hnd
    induction h1 with
    | nil => rfl
    | cons hr _ ih =>
      simp only [List.map_cons, List.cons.injEq]
      exact ⟨(hr.2 (hd _ (by simp))).tall, ih (fun kv h => hd kv (by simp [h]))⟩

theorem build_proxy {E : Env} {f : Nat} {root : Bool} {name : Str} {t : Ty} {ks : List Key} {vs : List Val} {n : Node}
    (h : build E (f + 1) root name (.map .proxy t ks vs) = .ok n) :
    ∃ kids, mapKids (build E f false) name (keySuffix E.U) (visibleItems (limit E.S.checkMax (ks.zip vs))) = .ok kids ∧
      n = .mk ⟨.proxy, name, root, t, (shareEqual E name kids).1⟩ (shareEqual E name kids).2 := by
  simp only [build, mapChildren] at h
  split at h
  · cases hm : mapKids (build E f false) name (keySuffix E.U)
        ((limit E.S.checkMax (ks.zip vs)).filter (fun kv => !kv.1.hidden)) with
    | error e => rw [hm] at h; cases h
    | ok kids =>
      rw [hm] at h
      refine ⟨kids, hm, ?_⟩
      injection h with h
      exact h.symm
  · cases h

theorem limit_sublist {α} {n : Nat} {l : List α} : (limit n l).Sublist l := by
  unfold limit
  split
  · exact List.Sublist.refl _
  · exact List.take_sublist _ _

/-- The tree of level data is as high as the data is deep. -/
theorem build_deep {E : Env} (hE : E.Fair) : ∀ (f : Nat) (root : Bool) (name : Str) (v : Val) (n : Node),
    Level E.S v → build E f root name v = .ok n → Deep E.S v n
  | 0, _, _, _, _, _, h => by cases h
  | f + 1, root, name, v, n, ht, h => by
    have hrec : RecDeep E.S (build E f false) := fun nm v n ht h => build_deep hE f false nm v n ht h
    have leaf : ∀ (k : NKind) (t : Ty), isContainer k = false → nesting E.S v = 0 →
        n = .mk { kind := k, name, root, ty := t, slots := [] } [] → Deep E.S v n := by
      rintro k t hk hv rfl
      have hkf : ∀ i, k ≠ .frame i := by rintro i rfl; cases hk
      have hkd : ∀ d m, k ≠ .dict d m := by rintro d m rfl; cases hk
      refine ⟨?_, ?_, ?_⟩
      · rw [tall_mk rfl hkf, hk, hv]; rfl
      · simp [Sane, SaneList, hkf]
      · intro h
        obtain ⟨d, m, h1, _⟩ := isTypedDict_kind h
        exact absurd h1 (hkd d m)
    cases v with
    | inst t x =>
      simp only [build] at h
      split at h
      · injection h with h; exact leaf _ _ rfl rfl h.symm
      · cases h
    | cls t x =>
      simp only [build] at h
      split at h
      · injection h with h; exact leaf _ _ rfl rfl h.symm
      · cases h
    | module t =>
      simp only [build] at h
      split at h
      · injection h with h; exact leaf _ _ rfl rfl h.symm
      · cases h
    | io t =>
      simp only [build] at h
      split at h
      · injection h with h; exact leaf _ _ rfl rfl h.symm
      · cases h
    | ndarray t x =>
      simp only [build] at h
      split at h
      · injection h with h; exact leaf _ _ rfl rfl h.symm
      · cases h
    | func fi =>
      simp only [build] at h
      split at h
      · cases h
      · rename_i e
        split at e
        · injection e with e
          split at h
          · cases h
          · injection h with h
            exact leaf _ _ rfl rfl (by rw [← h, ← e])
        · cases e
    | seq k t es =>
      obtain ⟨hag, hd⟩ := ht
      have hd := everyList_iff.mp hd
      rw [build_seq] at h
      split at h
      · have fin : ∀ (slots : List Slot) (kids : List Node), n = .mk ⟨.seq k, name, root, t, slots⟩ kids → slots.length = kids.length →
            (∀ s ∈ slots, s.key ≠ .none) → (∀ k ∈ kids, Sane k) →
            maxOf (kids.map (tall E.S)) = maxOf ((limit E.S.checkMax es).map (nesting E.S)) → Deep E.S (.seq k t es) n := by
          rintro slots kids rfl h1 h2 h3 h4
          refine ⟨?_, ?_, ?_⟩
          · rw [tall_mk h1 (by simp), nesting_seq, ← h4]; rfl
          · simp only [Sane]; exact ⟨h1, h2, by simp, saneList_iff.mpr h3⟩
          · intro h; simp [isTypedDict] at h
        by_cases hc : k = .tuple ∧ E.S.tuple = .fixed
        · rw [if_pos hc] at h
          cases hr : tupleChildren E (build E f false) name es with
          | error e => rw [hr] at h; cases h
          | ok r =>
            obtain ⟨slots, kids⟩ := r
            rw [hr] at h
            injection h with h
            obtain ⟨h1, h2, h3, h4⟩ := tupleChildren_deep hrec hd hag hr
            exact fin slots kids h.symm h1 h2 h3 h4
        · rw [if_neg hc] at h
          cases hr : setChildren E (build E f false) name es with
          | error e => rw [hr] at h; cases h
          | ok r =>
            obtain ⟨slots, kids⟩ := r
            rw [hr] at h
            injection h with h
            obtain ⟨h1, h2, h3⟩ := setChildren_deep hE hrec hd hag hr
            dsimp only at h1 h2 h3
            refine fin slots kids h.symm (by rw [h1]; simp) ?_ h2 h3
            intro s hs
            rw [h1] at hs
            obtain ⟨_, _, rfl⟩ := List.mem_map.mp hs
            simp [Slot.seq]
      · cases h
    | map k t ks vs =>
      have fin : ∀ (kd : NKind) (items : List (Key × Val)) (kids : List (Key × Node)), isContainer kd = true → (∀ i, kd ≠ .frame i) →
          (∀ i, k ≠ .frame i) → inspectedItems E.S k (ks.zip vs) = items.filter (fun kv => !kv.1.hidden) → items.Sublist (ks.zip vs) →
          mapKids (build E f false) name (keySuffix E.U) (visibleItems items) = .ok kids →
          n = .mk ⟨kd, name, root, t, (shareEqual E name kids).1⟩ (shareEqual E name kids).2 →
          tall E.S n = nesting E.S (.map k t ks vs) ∧ Sane n := by
        rintro kd items kids hkc hkf hk hi hsub hm rfl
        have hks : ks.Nodup ∧ ks.length = vs.length ∧ Key.none ∉ ks := by
          have := ht.1
          cases k with
          | frame i => exact absurd rfl (hk i)
          | dict => exact this
          | proxy => exact this
        have hd := everyList_iff.mp ht.2
        have hsub' : (visibleItems items).Sublist (ks.zip vs) := (List.filter_sublist).trans hsub
        have hkeys : ((ks.zip vs).map (·.1)) = ks := List.map_fst_zip (by omega)
        have hksub : ((visibleItems items).map (·.1)).Sublist ks := by
          have := hsub'.map (·.1)
          rwa [hkeys] at this
        obtain ⟨h1, h2, h3⟩ := mapShared_deep hrec (fun kv hkv => hd _ (List.of_mem_zip (hsub'.subset hkv)).2)
          (hks.1.sublist hksub) (fun hn => hks.2.2 (hksub.subset hn)) hm
        refine ⟨?_, ?_⟩
        · rw [tall_mk (shareEqual_length ..) hkf, h3, nesting_map, hi]
          simp only [hkc, if_true]; rfl
        · simp only [Sane]
          exact ⟨shareEqual_length .., h1, hkf, saneList_iff.mpr h2⟩
      cases k with
      | frame i => exact ht.1.elim
      | proxy =>
        obtain ⟨kids, hm, hn⟩ := build_proxy h
        obtain ⟨h1, h2⟩ := fin .proxy _ kids rfl (by simp) (by simp) rfl limit_sublist hm hn
        refine ⟨h1, h2, ?_⟩
        intro h; rw [hn] at h; simp [isTypedDict] at h
      | dict =>
        obtain ⟨kids, hm, hn⟩ := build_dict h
        have hsub : (dictData E.S (ks.zip vs)).Sublist (ks.zip vs) := by
          unfold dictData; split
          · exact List.Sublist.refl _
          · exact limit_sublist
        obtain ⟨h1, h2⟩ := fin _ _ kids rfl (by simp) (by simp) rfl hsub hm hn
        refine ⟨h1, h2, ?_⟩
        intro hty
        have hS := isTypedDict_strategy hty
        have hdd : dictData E.S (ks.zip vs) = ks.zip vs := by simp [dictData, hS]
        rw [hn] at hty
        simp only [isTypedDict, DMeta.isTyped, DMeta.ofData, hdd, Bool.and_eq_true, allStr, List.all_eq_true] at hty
        rw [hn]
        simp only [nodeData, nodeMeta, hdd, Val.items]
        refine ⟨⟨hS, ?_⟩, trivial, _, rfl, rfl⟩
        intro x hx
        have hkeys : ((ks.zip vs).map (·.1)) = ks := List.map_fst_zip (by have := ht.1.2.1; omega)
        rw [← hkeys] at hx
        obtain ⟨kv, hkv, rfl⟩ := List.mem_map.mp hx
        exact hty.1 kv hkv

end Verif
