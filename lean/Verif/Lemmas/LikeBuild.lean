import Verif.Lemmas.ValueHash
/-
The tree of a value has the hash of the value.
-/
namespace Verif
open Verif.Spec

/-- The metadata of merged dictionaries. -/
def mergedInfo (d0 : Node) (ds : List Node) : DMeta := (ds.filterMap nodeMeta).foldl DMeta.update ((nodeMeta d0).getD (DMeta.ofData []))

theorem mergeDicts_info {rec : Str → Val → Except Err Node} {ds : List Node} {m : Node} (h : mergeDicts rec ds = .ok m) :
    ∃ d0 ∈ ds, ∃ nm hd kids, rec nm (.dict (ds.foldl (fun acc n => updateDict acc (nodeData n)) [])) = .ok (.mk hd kids) ∧
      m = .mk { hd with kind := .dict (ds.foldl (fun acc n => updateDict acc (nodeData n)) []) (mergedInfo d0 ds) } kids := by
  cases ds with
  | nil => cases h
  | cons d ds =>
    simp only [mergeDicts, bind, Except.bind] at h
    split at h
    · cases h
    · rename_i n hn
      cases n with
      | mk hd kids =>
        simp only [pure, Except.pure, Except.ok.injEq] at h
        exact ⟨d, by simp, _, hd, kids, hn, h.symm⟩

theorem typed_meta {S : Strategies} {d : Node} (h : isTypedDict S d = true) : ∃ m, nodeMeta d = some m ∧ m.isTyped S = true := by
  cases d with
  | mk hd kids =>
    simp only [isTypedDict] at h
    split at h
    · rename_i x m e
      exact ⟨m, by simp [nodeMeta, e], h⟩
    · cases h

theorem info_typed {S : Strategies} {ds : List Node} {d0 : Node} (hd0 : d0 ∈ ds) (h : ∀ d ∈ ds, isTypedDict S d = true) :
    (mergedInfo d0 ds).isTyped S = true := by
  unfold mergedInfo
  obtain ⟨m0, hm0, ht0⟩ := typed_meta (h d0 hd0)
  rw [hm0]
  simp only [Option.getD_some, DMeta.isTyped, Bool.and_eq_true, allStr, List.all_eq_true] at ht0 ⊢
  refine ⟨?_, ht0.2⟩
  intro kv hkv
  rcases mem_foldl_update_data hkv with h1 | ⟨o, ho, h1⟩
  · exact ht0.1 kv h1
  · obtain ⟨d, hd, e⟩ := List.mem_filterMap.mp ho
    obtain ⟨m, hm, ht⟩ := typed_meta (h d hd)
    rw [e] at hm
    injection hm with hm
    subst hm
    simp only [DMeta.isTyped, Bool.and_eq_true, allStr, List.all_eq_true] at ht
    exact ht.1 kv h1

theorem src_data {S : Strategies} {e : Val} {d : Node} (h : Src S e d) (ht : isTypedDict S d = true) : nodeData d = itemsOf e := by
  obtain ⟨m, h1, _⟩ := h.data ht
  cases d with
  | mk hd kids =>
    have h1 : hd.kind = _ := h1
    simp [nodeData, h1]

theorem zip_parts {ks : List Key} {vs : List Val} (h : ks.length = vs.length) :
    (ks.zip vs).map (·.1) = ks ∧ (ks.zip vs).map (·.2) = vs :=
  ⟨List.map_fst_zip (by omega), List.map_snd_zip (by omega)⟩

/-- Merging like dictionaries gives a tree equal to theirs. -/
theorem merge_src {E : Env} (hE : E.Fair) {f : Nat} {elems : List Val} {ds : List Node} {m : Node}
    (ih : ∀ (nm : Str) (v : Val) (n : Node), Steady E.S v → Uniform E.S v → v.depth < f → build E f false nm v = .ok n →
      H.eqv (n.hash E.S) (vh E.S v) = true)
    (hel : ∀ e ∈ elems, isRec E.S e = true → Steady E.S e ∧ Uniform E.S e ∧ e.depth < f)
    (hlike : ∀ e ∈ elems, ∀ e' ∈ elems, isRec E.S e = true → isRec E.S e' = true → Like E.S e e')
    (hds : ∀ d ∈ ds, (∃ e ∈ elems, Src E.S e d) ∧ isTypedDict E.S d = true)
    (h : mergeDicts (build E f false) ds = .ok m) : ∀ d ∈ ds, nodeEq E.S d m = true := by
  obtain ⟨d0, hd0, nm, hd, kids, hb, rfl⟩ := mergeDicts_info h
  have hinfo := info_typed hd0 (fun d hd => (hds d hd).2)
  generalize mergedInfo d0 ds = info at hinfo ⊢
  obtain ⟨⟨e0, he0, hs0⟩, ht0⟩ := hds d0 hd0
  have hr0 : isRec E.S e0 = true := by rw [← hs0.typed]; exact ht0
  have data_of : ∀ d ∈ ds, ∃ e ∈ elems, Src E.S e d ∧ isRec E.S e = true ∧ nodeData d = itemsOf e ∧ (nodeData d).map (·.1) = (itemsOf e0).map (·.1) := by
    intro d hd
    obtain ⟨⟨e, he, hs⟩, ht⟩ := hds d hd
    have hr : isRec E.S e = true := by rw [← hs.typed]; exact ht
    refine ⟨e, he, hs, hr, src_data hs ht, ?_⟩
    rw [src_data hs ht]
    exact like_itemKeys (hlike e he e0 he0 hr hr0)
  have hK : ((itemsOf e0).map (·.1)).Nodup := by
    obtain ⟨t, ks, vs, rfl, _⟩ := isRec_dict hr0
    have := (hel _ he0 hr0).1.1
    simp only [itemsOf]
    rw [(zip_parts this.2).1]
    exact this.1
  obtain ⟨dl, hdl, hmer⟩ := merged_last (g := nodeData) hK (l := ds) (d := []) (fun x hx => by obtain ⟨_, _, _, _, _, h⟩ := data_of x hx; exact h)
    (.inl rfl) (List.ne_nil_of_mem hd0)
  rw [hmer] at hb ⊢
  obtain ⟨el, hel', _, hrl, hdata, _⟩ := data_of dl hdl
  rw [hdata] at hb ⊢
  obtain ⟨sl, ul, fl⟩ := hel el hel' hrl
  have hvh : vh E.S (.dict (itemsOf el)) = vh E.S el ∧ Steady E.S (.dict (itemsOf el)) ∧ Uniform E.S (.dict (itemsOf el)) ∧
      (Val.dict (itemsOf el)).depth < f ∧ isRec E.S (.dict (itemsOf el)) = true := by
    obtain ⟨t, ks, vs, rfl, _⟩ := isRec_dict hrl
    have := sl.1
    have e : Val.dict (itemsOf (.map .dict t ks vs)) = .map .dict .dict ks vs := by
      simp only [Val.dict, itemsOf]
      rw [(zip_parts this.2).1, (zip_parts this.2).2]
    rw [e]
    exact ⟨by rw [vh_dict, vh_dict], sl, ul, fl, hrl⟩
  obtain ⟨e1, e2, e3, e4, e5⟩ := hvh
  have hh := ih _ _ _ e2 e3 e4 hb
  rw [e1] at hh
  have hs := src_of hE hb e4 (by rw [e1]; exact hh)
  have hth : (Node.mk { hd with kind := .dict (itemsOf el) info } kids).hash E.S = (Node.mk hd kids).hash E.S := by
    rw [typed_hash (by simp [isTypedDict, hinfo]), typed_hash (n := .mk hd kids) (by rw [hs.typed]; exact e5)]
    rfl
  intro d hd'
  obtain ⟨e, he, hse, hre, _⟩ := data_of d hd'
  rw [nodeEq_iff]
  constructor
  · rw [hse.tag]
    obtain ⟨t, ks, vs, rfl, _⟩ := isRec_dict hre
    rfl
  · rw [hth]
    exact eqv_trans _ _ _ hse.hash (eqv_trans _ _ _ (like_vh (hlike e he el hel' hre hrl)) (eqv_symm _ _ hh))

theorem hash_set {S : Strategies} {h : Hdr} {kids : List Node} {k : SeqKind} (hk : h.kind = .seq k) (hs : ¬ (k = .tuple ∧ S.tuple = .fixed)) :
    (Node.mk h kids).hash S = .set (kids.map (fun n => n.hash S)) := by
  simp only [Node.hash, hashList_eq_map, hashOf, hk]
  cases k with
  | tuple =>
    have : S.tuple = .anySize := by
      cases ht : S.tuple with
      | fixed => exact absurd ⟨rfl, ht⟩ hs
      | anySize => rfl
    simp [this]
  | _ => rfl

theorem hash_tup {S : Strategies} {h : Hdr} {kids : List Node} (hk : h.kind = .seq .tuple) (hs : S.tuple = .fixed) :
    (Node.mk h kids).hash S = .tup (kids.map (fun n => n.hash S)) := by
  simp only [Node.hash, hashList_eq_map, hashOf, hk, hs]
  simp

theorem eqv_of_nodeEq {S : Strategies} {a b : Node} (h : nodeEq S a b = true) : H.eqv (a.hash S) (b.hash S) = true := (nodeEq_iff.mp h).2

/-- The children of a sequence. -/
theorem setChildren_hash {E : Env} (hE : E.Fair) {f : Nat} {parent : Str} {es : List Val} {slots : List Slot} {kids : List Node}
    (ih : ∀ (nm : Str) (v : Val) (n : Node), Steady E.S v → Uniform E.S v → v.depth < f → build E f false nm v = .ok n →
      H.eqv (n.hash E.S) (vh E.S v) = true)
    (hel : ∀ e ∈ es, Steady E.S e ∧ Uniform E.S e ∧ e.depth < f)
    (hlike : ∀ e ∈ limit E.S.checkMax es, ∀ e' ∈ limit E.S.checkMax es, isRec E.S e = true → isRec E.S e' = true → Like E.S e e')
    (h : setChildren E (build E f false) parent es = .ok (slots, kids)) :
    H.eqv (.set (kids.map (fun n => n.hash E.S))) (.set ((limit E.S.checkMax es).map (vh E.S))) = true := by
  have hel' : ∀ e ∈ limit E.S.checkMax es, Steady E.S e ∧ Uniform E.S e ∧ e.depth < f := fun e he => hel e (limit_subset he)
  have hord : ∀ i (l : List Node) x, x ∈ E.order i l ↔ x ∈ l := fun i l x => (hE i l).mem_iff
  have hb : ∀ e ∈ limit E.S.checkMax es, ∀ nm n, build E f false nm e = .ok n → Src E.S e n := by
    intro e he nm n hb
    obtain ⟨a, b, c⟩ := hel' e he
    exact src_of hE hb c (ih _ _ _ a b c hb)
  unfold setChildren at h
  simp only [bind, Except.bind] at h
  cases hf : foldE (setStep E (build E f false) parent) ([], []) (limit E.S.checkMax es) with
  | error e => rw [hf] at h; cases h
  | ok r =>
    rw [hf] at h
    obtain ⟨h1, h2, h3⟩ := setFold_src (P := fun e k => Src E.S e k) hb (by
      intro e0 he0 e he k c hk hc ht _
      refine src_update hk hc ht ?_
      intro hr x hx
      have hre : isRec E.S e = true := by rw [← hc.typed]; exact ht
      rw [like_itemKeys (hlike e0 he0 e he hr hre)]
      exact hx) hf
    obtain ⟨kids0, names⟩ := r
    dsimp only at h h1 h2 h3
    have fin : (∀ k ∈ kids, ∃ k0 ∈ kids0, nodeEq E.S k0 k = true) → (∀ k0 ∈ kids0, ∃ k ∈ kids, nodeEq E.S k0 k = true) →
        H.eqv (.set (kids.map (fun n => n.hash E.S))) (.set ((limit E.S.checkMax es).map (vh E.S))) = true := by
      intro a b
      rw [eqv_set]
      constructor
      · intro x hx
        obtain ⟨k, hk, rfl⟩ := List.mem_map.mp hx
        obtain ⟨k0, hk0, heq⟩ := a k hk
        obtain ⟨e, he, hs⟩ := h1 k0 hk0
        exact ⟨_, List.mem_map_of_mem he, eqv_trans _ _ _ (eqv_symm _ _ (eqv_of_nodeEq heq)) hs.hash⟩
      · intro x hx
        obtain ⟨e, he, rfl⟩ := List.mem_map.mp hx
        obtain ⟨nm, n, hbn, k0, hk0, heq⟩ := h2 e he
        obtain ⟨k, hk, heq'⟩ := b k0 hk0
        refine ⟨_, List.mem_map_of_mem hk, ?_⟩
        have := (hb e he _ _ hbn).hash
        exact eqv_symm _ _ (eqv_trans _ _ _ (eqv_symm _ _ this) (eqv_trans _ _ _ (eqv_of_nodeEq heq) (eqv_of_nodeEq heq')))
    split at h
    · split at h
      · cases h
      · rename_i m hm
        simp only [pure, Except.pure, Except.ok.injEq, Prod.mk.injEq] at h
        obtain ⟨_, rfl⟩ := h
        have hmem : ∀ d, d ∈ (E.order 1 kids0).filter (isTypedDict E.S) ↔ d ∈ kids0 ∧ isTypedDict E.S d = true := by
          intro d
          rw [List.mem_filter, hord]
        have hme := merge_src hE ih (fun e he _ => hel' e he) hlike (fun d hd => ⟨h1 d ((hmem d).mp hd).1, ((hmem d).mp hd).2⟩) hm
        refine fin ?_ ?_
        · intro k hk
          rw [hord] at hk
          rcases List.mem_append.mp hk with hk | hk
          · exact ⟨k, (List.mem_filter.mp hk).1, nodeEq_refl k⟩
          · simp only [List.mem_singleton] at hk
            subst hk
            obtain ⟨d, hd, _⟩ := mergeDicts_info hm
            exact ⟨d, ((hmem d).mp hd).1, hme d hd⟩
        · intro k0 hk0
          by_cases ht : isTypedDict E.S k0 = true
          · exact ⟨m, by rw [hord]; simp, hme k0 ((hmem k0).mpr ⟨hk0, ht⟩)⟩
          · exact ⟨k0, by rw [hord]; simp [hk0, ht], nodeEq_refl k0⟩
    · simp only [pure, Except.pure, Except.ok.injEq, Prod.mk.injEq] at h
      obtain ⟨_, rfl⟩ := h
      exact fin (fun k hk => ⟨k, (hord _ _ _).mp hk, nodeEq_refl k⟩) (fun k hk => ⟨k, (hord _ _ _).mpr hk, nodeEq_refl k⟩)

/-- The loop over the elements of a tuple of fixed size. -/
theorem tupleFold_src {E : Env} {rec : Str → Val → Except Err Node} {parent : Str} {elems : List Val} {P : Val → Node → Prop}
    (hrec : ∀ e ∈ limit E.S.checkMax elems, ∀ nm n, rec nm e = .ok n → P e n)
    (hren : ∀ e k nm, P e k → P e (k.rename nm))
    {r : List Node × List (Node × Str)} (h : foldE (tupleStep E rec parent) ([], []) (limit E.S.checkMax elems) = .ok r) :
    All₂ P (limit E.S.checkMax elems) r.1 := by
  have key := foldE_split (f := tupleStep E rec parent) (Q := fun _ => True) (l := limit E.S.checkMax elems)
    (fun done acc => All₂ P done acc.1) (by
    rintro pre e post ⟨kids, names⟩ hsplit I
    have he : e ∈ limit E.S.checkMax elems := by rw [hsplit]; simp
    unfold tupleStep Ens
    dsimp only at I ⊢
    cases hb : rec (freshName (parent ++ E.U.capitalize e.ty.name) (names.map (·.2))) e with
    | error x => trivial
    | ok c =>
      have hc := hrec e he _ _ hb
      simp only [bind, Except.bind]
      split <;> rename_i hx <;> split at hx <;> simp only [pure, Except.pure, Except.ok.injEq, reduceCtorEq] at hx
      · subst hx
        exact I.snoc (hren _ _ _ hc)
      · subst hx
        exact I.snoc hc)
    [] (limit E.S.checkMax elems) ([], []) rfl .nil
  rw [h] at key
  exact key

theorem tupleChildren_hash {E : Env} (hE : E.Fair) {f : Nat} {parent : Str} {es : List Val} {slots : List Slot} {kids : List Node}
    (ih : ∀ (nm : Str) (v : Val) (n : Node), Steady E.S v → Uniform E.S v → v.depth < f → build E f false nm v = .ok n →
      H.eqv (n.hash E.S) (vh E.S v) = true)
    (hel : ∀ e ∈ es, Steady E.S e ∧ Uniform E.S e ∧ e.depth < f)
    (hlike : ∀ e ∈ limit E.S.checkMax es, ∀ e' ∈ limit E.S.checkMax es, isRec E.S e = true → isRec E.S e' = true → Like E.S e e')
    (h : tupleChildren E (build E f false) parent es = .ok (slots, kids)) :
    H.eqv (.tup (kids.map (fun n => n.hash E.S))) (.tup ((limit E.S.checkMax es).map (vh E.S))) = true := by
  have hel' : ∀ e ∈ limit E.S.checkMax es, Steady E.S e ∧ Uniform E.S e ∧ e.depth < f := fun e he => hel e (limit_subset he)
  unfold tupleChildren at h
  simp only [bind, Except.bind] at h
  cases hf : foldE (tupleStep E (build E f false) parent) ([], []) (limit E.S.checkMax es) with
  | error e => rw [hf] at h; cases h
  | ok r =>
    rw [hf] at h
    have h1 := tupleFold_src (P := fun e k => Src E.S e k) (by
      intro e he nm n hb
      obtain ⟨a, b, c⟩ := hel' e he
      exact src_of hE hb c (ih _ _ _ a b c hb)) (fun e k nm hk => src_rename hk) hf
    obtain ⟨kids0, names⟩ := r
    dsimp only at h h1
    have fin : All₂ (fun e k => H.eqv (vh E.S e) (k.hash E.S) = true) (limit E.S.checkMax es) kids →
        H.eqv (.tup (kids.map (fun n => n.hash E.S))) (.tup ((limit E.S.checkMax es).map (vh E.S))) = true := by
      intro a
      apply eqv_symm
      simp only [H.eqv]
      rw [eqvList_iff]
      exact All₂.map (f := vh E.S) (g := fun (n : Node) => n.hash E.S) (fun _ _ h => h) a
    split at h
    · split at h
      · cases h
      · rename_i m hm
        simp only [pure, Except.pure, Except.ok.injEq, Prod.mk.injEq] at h
        obtain ⟨_, rfl⟩ := h
        have hme := merge_src hE ih (fun e he _ => hel' e he) hlike (fun d hd => ⟨h1.mem_right d (List.mem_filter.mp hd).1, (List.mem_filter.mp hd).2⟩) hm
        refine fin ?_
        have hmem : ∀ {l : List Val} {l' : List Node}, All₂ (fun e k => Src E.S e k) l l' → (∀ k ∈ l', k ∈ kids0) →
            All₂ (fun e k => H.eqv (vh E.S e) (k.hash E.S) = true) l (l'.map fun k => if isTypedDict E.S k then m else k) := by
          intro l l' h
          induction h with
          | nil => intro _; exact .nil
          | cons h _ ih' =>
            intro hs
            refine .cons ?_ (ih' (fun k hk => hs k (by simp [hk])))
            dsimp only
            split
            · rename_i b _ _ _ ht
              exact eqv_trans _ _ _ (eqv_symm _ _ h.hash) (eqv_of_nodeEq (hme b (List.mem_filter.mpr ⟨hs b (by simp), ht⟩)))
            · exact eqv_symm _ _ h.hash
        exact hmem h1 (fun k hk => hk)
    · simp only [pure, Except.pure, Except.ok.injEq, Prod.mk.injEq] at h
      obtain ⟨_, rfl⟩ := h
      exact fin (h1.imp (fun _ _ h => eqv_symm _ _ h.hash))

theorem visible_nodup {l : List (Key × Val)} (h : (l.map (·.1)).Nodup) : ((visibleItems l).map (·.1)).Nodup :=
  List.Nodup.sublist (List.Sublist.map _ List.filter_sublist) h

/-- The children of a mapping. -/
theorem mapChildren_hash {E : Env} {f : Nat} {parent : Str} {items : List (Key × Val)} {kids : List (Key × Node)} {b : Bool}
    (hn : (items.map (·.1)).Nodup)
    (ih : ∀ kv ∈ items, ∀ nm n, build E f false nm kv.2 = .ok n → H.eqv (n.hash E.S) (vh E.S kv.2) = true)
    (h : mapKids (build E f false) parent (keySuffix E.U) items = .ok kids) :
    H.eqv (.set ((((shareEqual E parent kids).1.map (·.key)).zip ((shareEqual E parent kids).2.map (fun n => n.hash E.S))).map
      fun kh => hentry b kh.1 kh.2)) (.set (items.map fun kv => hentry b kv.1 (vh E.S kv.2))) = true := by
  have h1 := mapKids_all₂ (R := fun v n => H.eqv (n.hash E.S) (vh E.S v) = true) ih h
  have hk := mapKids_keys h
  have h2 := shareEqual_spec (E := E) (parent := parent) (by rw [hk]; exact hn)
  rw [shareEqual_keys, zip_map_snd, List.map_map]
  have comp : ∀ {is : List (Key × Val)} {ks : List (Key × Node)} {l : List Node},
      All₂ (fun kv kn => kn.1 = kv.1 ∧ H.eqv (kn.2.hash E.S) (vh E.S kv.2) = true) is ks → All₂ (fun kn n => Shares E.S kids kn.2 n) ks l →
      All₂ (fun (kn : Key × Node) (kv : Key × Val) => kn.1 = kv.1 ∧ H.eqv (kn.2.hash E.S) (vh E.S kv.2) = true) ((ks.map (·.1)).zip l) is := by
    intro is ks l a
    induction a generalizing l with
    | nil => intro b; cases b; exact .nil
    | @cons kv kn _ _ a _ ih' =>
      intro b
      cases b with
      | cons b bs =>
        refine .cons ⟨a.1, ?_⟩ (ih' bs)
        obtain ⟨k, m, _, c1, c2⟩ := b
        have e1 : H.eqv (m.hash E.S) (vh E.S kv.2) = true := by
          rcases c1 with c1 | c1
          · rw [← c1]; exact a.2
          · exact eqv_trans _ _ _ (eqv_symm _ _ (eqv_of_nodeEq c1)) a.2
        rcases c2 with c2 | ⟨x, c2⟩
        · rw [c2]; exact e1
        · rw [c2, hash_rename]; exact e1
  refine set_all₂ ?_ (comp h1 h2)
  intro kn kv hr
  simp only [Function.comp]
  rw [hr.1]
  exact hentry_eqv hr.2

theorem build_hash {E : Env} (hE : E.Fair) : ∀ (f : Nat) (root : Bool) (name : Str) (v : Val) (n : Node), Steady E.S v → Uniform E.S v →
    v.depth < f → build E f root name v = .ok n → H.eqv (n.hash E.S) (vh E.S v) = true
  | 0, _, _, _, _, _, _, hf, _ => by omega
  | f + 1, root, name, v, n, hv, hu, hf, h => by
    obtain ⟨_, hty, hk, _⟩ := build_facts hE h hf
    have ih := fun (nm : Str) (v : Val) (n : Node) => build_hash hE f false nm v n
    have leaf : rich v = false → n.hash E.S = .ty v.ty := by
      intro hr
      have := build_plain hr h
      cases n with
      | mk hd kids =>
        have hk : hd.kind = kindOf E.S v := hk
        have hty : hd.ty = v.ty := hty
        cases v <;> simp only [rich, reduceCtorEq] at hr <;> simp only [Node.hash, hashOf, hk, kindOf, hty]
    cases v with
    | inst t x => rw [leaf rfl]; simp [vh, H.eqv, Val.ty]
    | cls m n => rw [leaf rfl]; simp only [vh]; exact eqv_refl _
    | module t => rw [leaf rfl]; simp [vh, H.eqv, Val.ty]
    | io t => rw [leaf rfl]; simp [vh, H.eqv, Val.ty]
    | ndarray t d => rw [leaf rfl]; simp [vh, H.eqv, Val.ty]
    | func fi =>
      cases n with
      | mk hd kids =>
        have hk : hd.kind = .func fi := hk
        simp only [Node.hash, hashOf, hk, vh]
        exact eqv_refl _
    | seq k t es =>
      have hes : ∀ e ∈ es, Steady E.S e ∧ Uniform E.S e ∧ e.depth < f := by
        intro e he
        refine ⟨everyList_iff.mp hv.2 e he, everyList_iff.mp hu.2 e he, ?_⟩
        have := depth_le_depthList he
        simp only [Val.depth] at hf
        omega
      have hsub : ∀ e ∈ limit E.S.checkMax es, Steady E.S e := fun e he => (hes e (limit_subset he)).1
      rw [build_seq] at h
      split at h
      · split at h
        · rename_i slots kids hr
          injection h with h
          subst h
          rw [vh_seq]
          by_cases hc : k = .tuple ∧ E.S.tuple = .fixed
          · rw [if_pos hc] at hr ⊢
            obtain ⟨rfl, hS⟩ := hc
            rw [hash_tup rfl hS]
            refine tupleChildren_hash hE ih hes ?_ hr
            intro e he e' he' r1 r2
            exact hu.1 ⟨rfl, hS⟩ e he e' he' ((isRec_iff (hsub e he)).mp r1) ((isRec_iff (hsub e' he')).mp r2)
          · rw [if_neg hc] at hr ⊢
            rw [hash_set rfl hc]
            refine setChildren_hash hE ih hes ?_ hr
            intro e he e' he' r1 r2
            rcases hv.1 hc e he e' he' with h | h | h
            · exact absurd h (record_not_inline ((isRec_iff (hsub e he)).mp r1))
            · exact absurd h (record_not_inline ((isRec_iff (hsub e' he')).mp r2))
            · exact h.1
        · cases h
      · cases h
    | map k t ks vs =>
      have hvs : ∀ {items : List (Key × Val)}, (∀ kv ∈ items, kv ∈ ks.zip vs) → ∀ kv ∈ items, ∀ nm n, build E f false nm kv.2 = .ok n →
          H.eqv (n.hash E.S) (vh E.S kv.2) = true := by
        intro items hs kv hkv nm n hb
        have hz := hs kv hkv
        have hm := (List.of_mem_zip hz).2
        refine ih nm _ n (everyList_iff.mp hv.2 _ hm) (everyList_iff.mp hu.2 _ hm) ?_ hb
        have := zip_depth hz
        simp only [Val.depth] at hf
        omega
      have hkeys : ((ks.zip vs).map (·.1)).Nodup := by
        rw [(zip_parts hv.1.2).1]
        exact hv.1.1
      cases k with
      | dict =>
        obtain ⟨kids, hkk, rfl⟩ := build_dict h
        rw [vh_dict]
        have hn : ((visibleItems (dictData E.S (ks.zip vs))).map (·.1)).Nodup := by
          apply visible_nodup
          unfold dictData
          split
          · exact hkeys
          · exact List.Nodup.sublist (List.Sublist.map _ limit_sublist) hkeys
        have := mapChildren_hash (b := (DMeta.ofData (dictData E.S (ks.zip vs))).isTyped E.S) hn
          (hvs (fun kv hkv => dictData_subset (List.mem_filter.mp hkv).1)) hkk
        simp only [Node.hash, hashList_eq_map, hashOf]
        cases hT : (DMeta.ofData (dictData E.S (ks.zip vs))).isTyped E.S <;> rw [hT] at this <;> simpa [hentry, Function.comp] using this
      | proxy =>
        obtain ⟨kids, hkk, rfl⟩ := build_proxy h
        rw [vh_proxy]
        have hn : ((visibleItems (limit E.S.checkMax (ks.zip vs))).map (·.1)).Nodup :=
          visible_nodup (List.Nodup.sublist (List.Sublist.map _ limit_sublist) hkeys)
        have := mapChildren_hash (b := false) hn (hvs (fun kv hkv => limit_subset (List.mem_filter.mp hkv).1)) hkk
        simp only [Node.hash, hashList_eq_map, hashOf]
        simpa [hentry, Function.comp] using this
      | frame i =>
        cases n with
        | mk hd kids =>
          have hk : hd.kind = .frame i := hk
          simp only [Node.hash, hashOf, hk, vh]
          exact eqv_refl _

end Verif
