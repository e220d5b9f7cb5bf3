import Verif.Lemmas.InnerDicts
import Verif.Lemmas.Merge
import Verif.Lemmas.Recursion
/-
The comments of keys in a sequence of dictionaries.
-/
namespace Verif
open Verif.Spec

/-- All keys of the dictionary are known to the node, hidden ones as well. -/
def HasKeys (d : Dct) (n : Node) : Prop := ∃ m, nodeMeta n = some m ∧ ∀ kv ∈ d, Key.str kv.1 ∈ m.data.map (·.1)

/-- Every dictionary that was processed has a node that knows its keys. -/
def KeysKept (E : Env) (pool done : List Dct) (kids : List Node) : Prop :=
  (∀ k ∈ kids, ∃ d ∈ pool, Rep E pool d k) ∧ ∀ d ∈ done, ∃ k ∈ kids, HasKeys d k

theorem updateNode_meta {k c : Node} {m o : DMeta} (hk : nodeMeta k = some m) (hc : nodeMeta c = some o) :
    nodeMeta (updateNode k c) = some (m.update o) := by
  obtain ⟨h1, k1⟩ := k
  obtain ⟨h2, k2⟩ := c
  cases e1 : h1.kind with
  | dict d1 m1 =>
    cases e2 : h2.kind with
    | dict d2 m2 =>
      simp only [nodeMeta, e1, Option.some.injEq] at hk
      simp only [nodeMeta, e2, Option.some.injEq] at hc
      subst hk hc
      simp [updateNode, e1, e2, nodeMeta]
    | _ => simp [nodeMeta, e2] at hc
  | _ => simp [nodeMeta, e1] at hk

theorem hasKeys_update {d : Dct} {k c : Node} {o : DMeta} (hk : HasKeys d k) (hc : nodeMeta c = some o) : HasKeys d (updateNode k c) := by
  obtain ⟨m, hm, h⟩ := hk
  exact ⟨_, updateNode_meta hm hc, fun kv hkv => mem_update_keys.mpr (.inl (h kv hkv))⟩

theorem build_hasKeys {E : Env} {f : Nat} {root : Bool} {name : Str} {d : Dct} {n : Node} (hS : E.S.dict = .typedDict)
    (h : build E f root name (dictOf d) = .ok n) : HasKeys d n := by
  cases f with
  | zero => cases h
  | succ f =>
    obtain ⟨kids, hk, rfl⟩ := build_dict h
    rw [dictOf_items]
    refine ⟨_, rfl, ?_⟩
    intro kv hkv
    simp only [DMeta.ofData, dictData, hS, if_true, List.map_map]
    exact List.mem_map.mpr ⟨kv, hkv, rfl⟩

theorem keysKept_step {E : Env} {pool done : List Dct} {kids : List Node} {names : List Str} {f : Nat} {parent : Str} {d : Dct}
    {r : List Node × List Str} (hS : E.S.dict = .typedDict) (hd : IsDict d) (hp : d ∈ pool) (I : KeysKept E pool done kids)
    (h : setStep E (build E f false) parent (kids, names) (dictOf d) = .ok r) : KeysKept E pool (done ++ [d]) r.1 := by
  unfold setStep at h
  dsimp only at h
  cases hb : build E f false (freshName (parent ++ E.U.capitalize (dictOf d).ty.name) names) (dictOf d) with
  | error e => rw [hb] at h; cases h
  | ok child =>
    obtain ⟨hr, _⟩ := build_rep hS hd hp hb
    have hh := build_hasKeys hS hb
    obtain ⟨o, ho, hoc⟩ := hh
    rw [hb] at h
    simp only [bind, Except.bind, pure, Except.pure] at h
    by_cases ha : kids.any (nodeEq E.S child) = true
    · rw [if_pos ha, if_pos (hr.typed hS)] at h
      injection h with h
      subst h
      dsimp only
      refine ⟨?_, ?_⟩
      · intro k hk
        obtain ⟨k', hk', rfl⟩ := List.mem_map.mp hk
        obtain ⟨d', hd', hr'⟩ := I.1 k' hk'
        by_cases he : nodeEq E.S child k' = true
        · rw [if_pos he]
          exact ⟨d', hd', hr'.update hr (fun s => (hr.eq_keys hS hr' he s).symm)⟩
        · rw [if_neg he]
          exact ⟨d', hd', hr'⟩
      · intro e he
        rcases List.mem_append.mp he with he | he
        · obtain ⟨k, hk, hs⟩ := I.2 e he
          refine ⟨_, List.mem_map_of_mem (f := fun k => if nodeEq E.S child k then updateNode k child else k) hk, ?_⟩
          split
          · exact hasKeys_update hs ho
          · exact hs
        · simp only [List.mem_singleton] at he
          subst he
          obtain ⟨k, hk, hek⟩ := List.any_eq_true.mp ha
          refine ⟨_, List.mem_map_of_mem (f := fun k => if nodeEq E.S child k then updateNode k child else k) hk, ?_⟩
          rw [if_pos hek]
          obtain ⟨d', hd', hr'⟩ := I.1 k hk
          obtain ⟨m, hm, _⟩ := hr'.info
          exact ⟨_, updateNode_meta hm ho, fun kv hkv => mem_update_keys.mpr (.inr (hoc kv hkv))⟩
    · rw [if_neg ha] at h
      injection h with h
      subst h
      dsimp only
      refine ⟨?_, ?_⟩
      · intro k hk
        rcases List.mem_append.mp hk with hk | hk
        · exact I.1 k hk
        · simp only [List.mem_singleton] at hk
          subst hk
          exact ⟨d, hp, hr⟩
      · intro e he
        rcases List.mem_append.mp he with he | he
        · obtain ⟨k, hk, hs⟩ := I.2 e he
          exact ⟨k, by simp [hk], hs⟩
        · simp only [List.mem_singleton] at he
          subst he
          exact ⟨child, by simp, o, ho, hoc⟩

theorem keysKept_all {E : Env} {pool : List Dct} {f : Nat} {parent : Str} (hS : E.S.dict = .typedDict) :
    ∀ {ds done : List Dct} {acc r : List Node × List Str}, (∀ d ∈ ds, IsDict d ∧ d ∈ pool) → KeysKept E pool done acc.1 →
    foldE (setStep E (build E f false) parent) acc (ds.map dictOf) = .ok r → KeysKept E pool (done ++ ds) r.1
  | [], done, acc, r, _, I, h => by
    simp only [List.map_nil, foldE] at h
    injection h with h
    subst h
    simpa using I
  | d :: ds, done, acc, r, hds, I, h => by
    simp only [List.map_cons, foldE] at h
    cases hs : setStep E (build E f false) parent acc (dictOf d) with
    | error e => rw [hs] at h; cases h
    | ok b =>
      rw [hs] at h
      dsimp only at h
      have h1 := keysKept_step hS (hds d (by simp)).1 (hds d (by simp)).2 I hs
      have := keysKept_all hS (done := done ++ [d]) (fun e he => hds e (by simp [he])) h1 h
      simpa using this

/-- A node whose entries come from the rows. -/
structure RowNode (ds : List Dct) (n : Node) (m : DMeta) : Prop where
  kind : ∃ data, n.hdr.kind = .dict data m
  src : ∀ kv ∈ m.data, ∃ e ∈ ds, ∃ s, kv.1 = .str s ∧ (s, kv.2) ∈ e
  slots : ∃ K : List Str, n.hdr.slots.map (·.key) = K.map Key.str
  len : n.hdr.slots.length = n.kids.length

/-- The node knows the row: its keys, and has a slot for those that are visible. -/
def HoldsRow (d : Dct) (n : Node) (m : DMeta) : Prop :=
  (∀ kv ∈ d, Key.str kv.1 ∈ m.data.map (·.1)) ∧ ∀ s ∈ shown d, Key.str s ∈ n.hdr.slots.map (·.key)

theorem nodeMeta_kind {n : Node} {m : DMeta} (h : nodeMeta n = some m) : ∃ data, n.hdr.kind = .dict data m := by
  obtain ⟨hd, kids⟩ := n
  cases e : hd.kind with
  | dict d m' =>
    simp only [nodeMeta, e, Option.some.injEq] at h
    subst h
    exact ⟨d, e⟩
  | _ => simp [nodeMeta, e] at h

theorem rep_rowNode {E : Env} {ds : List Dct} {d : Dct} {n : Node} (h : Rep E ds d n) : ∃ m, nodeMeta n = some m ∧ RowNode ds n m := by
  obtain ⟨m, hm, _, _, _, hsrc, _⟩ := h.info
  exact ⟨m, hm, nodeMeta_kind hm, hsrc, ⟨_, h.slots⟩, h.len⟩

theorem foldl_update_src : ∀ {ms : List DMeta} {m : DMeta} {kv : Key × Val}, kv ∈ (ms.foldl DMeta.update m).data →
    kv ∈ m.data ∨ ∃ o ∈ ms, kv ∈ o.data
  | [], _, _, h => .inl h
  | o :: ms, m, kv, h => by
    rcases foldl_update_src (ms := ms) h with h | ⟨o', ho', h⟩
    · rcases List.mem_append.mp h with h | h
      · exact .inl h
      · exact .inr ⟨o, by simp, (List.mem_filter.mp h).1⟩
    · exact .inr ⟨o', by simp [ho'], h⟩

theorem foldl_update_keys {x : Key} : ∀ {ms : List DMeta} {m : DMeta}, (x ∈ m.data.map (·.1) ∨ ∃ o ∈ ms, x ∈ o.data.map (·.1)) →
    x ∈ (ms.foldl DMeta.update m).data.map (·.1)
  | [], _, h => by
    rcases h with h | ⟨o, ho, _⟩
    · exact h
    · cases ho
  | o :: ms, m, h => by
    simp only [List.foldl_cons]
    apply foldl_update_keys
    rcases h with h | ⟨o', ho', h⟩
    · exact .inl (mem_update_keys.mpr (.inl h))
    · rcases List.mem_cons.mp ho' with rfl | ho'
      · exact .inl (mem_update_keys.mpr (.inr h))
      · exact .inr ⟨o', ho', h⟩

/-- The merged node knows all rows. -/
theorem merged_rows {E : Env} {f : Nat} {ds : List Dct} {ns : List Node} {n : Node}
    (h1 : ∀ k ∈ ns, ∃ d ∈ ds, Rep E ds d k) (h2 : ∀ d ∈ ds, ∃ k ∈ ns, HasKeys d k)
    (hr : RecNode E ds n) (h : mergeDicts (build E f false) ns = .ok n) : ∃ m, RowNode ds n m ∧ ∀ d ∈ ds, HoldsRow d n m := by
  cases ns with
  | nil => cases h
  | cons k ks =>
    simp only [mergeDicts] at h
    obtain ⟨n', _, h⟩ := bind_ok h
    obtain ⟨hd, kids⟩ := n'
    simp only [pure, Except.pure] at h
    injection h with h
    obtain ⟨K, hK, hp⟩ := hr.slots
    refine ⟨_, ⟨by rw [← h]; exact ⟨_, rfl⟩, ?_, ⟨K, hK⟩, hr.len⟩, ?_⟩
    · intro kv hkv
      obtain ⟨d0, _, hr0⟩ := h1 k (by simp)
      obtain ⟨m0, hm0, hrow0⟩ := rep_rowNode hr0
      rcases foldl_update_src hkv with hkv | ⟨o, ho, hkv⟩
      · rw [hm0] at hkv
        exact hrow0.src kv hkv
      · obtain ⟨k', hk', ho⟩ := List.mem_filterMap.mp ho
        obtain ⟨d', _, hr'⟩ := h1 k' hk'
        obtain ⟨m', hm', hrow'⟩ := rep_rowNode hr'
        rw [hm'] at ho
        injection ho with ho
        subst ho
        exact hrow'.src kv hkv
    · intro d hd'
      refine ⟨?_, ?_⟩
      · intro kv hkv
        obtain ⟨k', hk', m', hm', hkeys⟩ := h2 d hd'
        exact foldl_update_keys (.inr ⟨m', List.mem_filterMap.mpr ⟨k', hk', hm'⟩, hkeys kv hkv⟩)
      · intro s hs
        rw [hK]
        refine List.mem_map_of_mem (hp.mem_iff.mpr ?_)
        exact mem_allKeys.mpr ⟨d, hd', hs⟩

/-- The children of a sequence of dictionaries: all of them are made of rows, and every row has its child. -/
theorem rows_children {E : Env} (hE : E.Fair) (hS : E.S.dict = .typedDict) {ds : List Dct} {f : Nat} {parent : Str}
    {slots : List Slot} {kids : List Node} (hd : ∀ d ∈ ds, IsDict d) (hl : limit E.S.checkMax (ds.map dictOf) = ds.map dictOf)
    (h : setChildren E (build E f false) parent (ds.map dictOf) = .ok (slots, kids)) :
    slots = kids.map (fun _ => Slot.seq 1) ∧ (∀ k ∈ kids, ∃ m, RowNode ds k m) ∧
    ∀ d ∈ ds, ∃ k ∈ kids, ∃ m, RowNode ds k m ∧ HoldsRow d k m := by
  unfold setChildren at h
  rw [hl] at h
  cases hf : foldE (setStep E (build E f false) parent) ([], []) (ds.map dictOf) with
  | error e => rw [hf] at h; cases h
  | ok acc =>
    obtain ⟨ks, names⟩ := acc
    rw [hf] at h
    have I : FoldInv E ds ds ks names := by
      have := foldInv_all (pool := ds) (done := []) (r := (ks, names)) hS (fun d hd' => ⟨hd d hd', hd'⟩)
        (acc := ([], [])) ⟨by simp, by simp, rfl, by simp, by simp, by simp⟩ hf
      simpa using this
    have J : KeysKept E ds ds ks := by
      have := keysKept_all (pool := ds) (done := []) (r := (ks, names)) hS (fun d hd' => ⟨hd d hd', hd'⟩)
        (acc := ([], [])) ⟨by simp, by simp⟩ hf
      simpa using this
    have hfil : ∀ i, (E.order i ks).filter (isTypedDict E.S) = E.order i ks := by
      intro i
      rw [List.filter_eq_self]
      intro k hk
      obtain ⟨d, _, hr⟩ := I.rep k ((hE i ks).mem_iff.mp hk)
      exact hr.typed hS
    have hrep : ∀ i, ∀ k ∈ E.order i ks, ∃ d ∈ ds, Rep E ds d k := fun i k hk => I.rep k ((hE i ks).mem_iff.mp hk)
    have hcov : ∀ i, ∀ d ∈ ds, ∃ k ∈ E.order i ks, ∃ d' ∈ ds, Rep E ds d' k ∧ ∀ s, s ∈ shown d ↔ s ∈ shown d' := by
      intro i d hd'
      obtain ⟨k, hk, h⟩ := I.cover d hd'
      exact ⟨k, (hE i ks).mem_iff.mpr hk, h⟩
    have hhas : ∀ i, ∀ d ∈ ds, ∃ k ∈ E.order i ks, HasKeys d k := by
      intro i d hd'
      obtain ⟨k, hk, h⟩ := J.2 d hd'
      exact ⟨k, (hE i ks).mem_iff.mpr hk, h⟩
    simp only [bind, Except.bind, hfil] at h
    generalize shouldMerge E.S (E.order 0 ks) = b at h
    by_cases hc : b = true
    · simp only [hc, if_true] at h
      cases hmd : mergeDicts (build E f false) (E.order 1 ks) with
      | error e => rw [hmd] at h; cases h
      | ok n =>
        obtain ⟨hr, _⟩ := mergeDicts_spec hS (hrep 1) (hcov 1) hmd
        obtain ⟨m, hm1, hm2⟩ := merged_rows (hrep 1) (hhas 1) hr hmd
        rw [hmd] at h
        have hnil : ks.filter (fun k => !isTypedDict E.S k) = [] := by
          rw [List.filter_eq_nil_iff]
          intro k hk
          obtain ⟨d, _, hr⟩ := I.rep k hk
          simp [hr.typed hS]
        have hone : E.order 2 [n] = [n] := List.perm_singleton.mp (hE 2 [n])
        simp only [pure, Except.pure, hnil, List.nil_append, hone] at h
        injection h with h
        injection h with h1 h2
        subst h1 h2
        refine ⟨rfl, ?_, fun d hd' => ⟨n, by simp, m, hm1, hm2 d hd'⟩⟩
        intro k hk
        simp only [List.mem_singleton] at hk
        subst hk
        exact ⟨m, hm1⟩
    · simp only [hc, Bool.false_eq_true, if_false, pure, Except.pure] at h
      injection h with h
      injection h with h1 h2
      subst h1 h2
      refine ⟨rfl, ?_, ?_⟩
      · intro k hk
        obtain ⟨d, _, hr⟩ := hrep 0 k hk
        obtain ⟨m, _, h⟩ := rep_rowNode hr
        exact ⟨m, h⟩
      · intro d hd'
        obtain ⟨k, hk, m, hm, hkeys⟩ := hhas 0 d hd'
        obtain ⟨d', _, hr⟩ := hrep 0 k hk
        obtain ⟨m', hm', hrow⟩ := rep_rowNode hr
        obtain ⟨m'', hm'', _, hg, _⟩ := hr.info
        rw [hm] at hm' hm''
        injection hm' with hm'
        injection hm'' with hm''
        subst hm' hm''
        refine ⟨k, hk, m, hrow, hkeys, ?_⟩
        intro s hs
        have hmem := hs
        rw [shown, mem_visible] at hmem
        obtain ⟨kv, hkv, e⟩ := List.mem_map.mp hmem.1
        have := (hg.data s hmem.2).mp (e ▸ hkeys kv hkv)
        rw [hr.slots]
        exact List.mem_map_of_mem this

/-- The declaration of such a node. -/
theorem row_text {E : Env} {im : Str → List Str} (hS : E.S.dict = .typedDict) {ds : List Dct} {n : Node} {m : DMeta} (h : RowNode ds n m) :
    (n.out E im).perm = true ∧ ∃ doc entries, (n.out E im).top.text = recordText n.name (isFunctional E.U m) doc entries ∧
      entries.map (fun e => Key.str e.key) = n.hdr.slots.map (·.key) ∧ ∀ e ∈ entries, e.doc = entryDoc m e.key := by
  obtain ⟨data, hk⟩ := h.kind
  obtain ⟨K, hK⟩ := h.slots
  have hlen := h.len
  have hsrc := h.src
  obtain ⟨hd, kids⟩ := n
  have hk : hd.kind = .dict data m := hk
  have hK : hd.slots.map (·.key) = K.map Key.str := hK
  have hlen : hd.slots.length = kids.length := hlen
  have hty : m.isTyped E.S = true := by
    simp only [DMeta.isTyped, Bool.and_eq_true, decide_eq_true_eq]
    refine ⟨?_, hS⟩
    unfold allStr
    rw [List.all_eq_true]
    intro kv hkv
    obtain ⟨_, _, s, hs, _⟩ := hsrc kv hkv
    rw [hs]; rfl
  rw [out_mk]
  refine ⟨?_, recordDoc E m data, rawEntries E m ((hd.slots.map (·.key)).zip (outList E im kids)), ?_, ?_, ?_⟩
  · simp only [combine, permOf, hk, hty, Bool.true_or]
  · simp only [combine, topOf, hk, hty, if_true]
    exact typed_raw
  · show _ = hd.slots.map (·.key)
    rw [hK]
    have := rawEntries_keys (E := E) (m := m) (ks := K) (os := outList E im kids) (by
      rw [outList_length, ← hlen]
      have := congrArg List.length hK
      simp only [List.length_map] at this
      omega)
    conv => rhs; rw [← this]
    simp
  · intro e he
    obtain ⟨x, _, rfl⟩ := List.mem_map.mp he
    rfl

end Verif
