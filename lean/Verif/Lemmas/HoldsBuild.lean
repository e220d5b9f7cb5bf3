import Verif.Lemmas.Holds
import Verif.Lemmas.Depth
/-
The tree built from coherent data describes the data.
-/
namespace Verif
open Verif.Spec

def RecFor (S : Strategies) (rec : Str → Val → Except Err Node) : Prop :=
  ∀ nm v n, Coherent S v → rec nm v = .ok n → NodeFor S [v] v n

theorem hash_updateNode {S : Strategies} {k c : Node} (tk : isTypedDict S k = true) (tc : isTypedDict S c = true)
    (hd : ∃ m, nodeMeta k = some m ∧ m.data = nodeData k) : (updateNode k c).hash S = k.hash S := by
  obtain ⟨d, m, ek, hm⟩ := isTypedDict_kind tk
  obtain ⟨d', m', ec, hm'⟩ := isTypedDict_kind tc
  cases k with
  | mk h kids =>
    cases c with
    | mk h' kids' =>
      simp only [Node.hdr] at ek ec
      have hu := update_typed hm hm'
      simp only [updateNode, ek, ec, Node.hash, hashOf, hm, hu]

theorem HashOf.items {S : Strategies} {h : H} {v : Val} (hh : HashOf S h v) (hv : Filled S v) :
    ∃ l, h = .set l ∧ l ≠ [] ∧ (∀ kv ∈ v.items, ∃ g, .typed kv.1 g ∈ l) ∧
      ∀ i ∈ l, ∃ k g x, i = .typed k g ∧ (k, x) ∈ v.items ∧ HashOf S g x := by
  obtain ⟨t, ks, vs, rfl, _, _⟩ := record_dict hv.1
  cases hh with
  | leaf hl => exact hl.elim
  | empty he => exact absurd he.2 hv.2
  | mapping R _ hn => exact absurd hv.1 hn
  | record R _ hR hne h1 h2 =>
    refine ⟨_, rfl, hne, ?_, ?_⟩
    · intro kv hkv
      obtain ⟨g, hg, _⟩ := h1 kv hkv
      exact ⟨g, hg⟩
    · intro i hi
      obtain ⟨k, g, x, e, hm, hr⟩ := h2 i hi
      exact ⟨k, g, x, e, hm, hR _ _ hr⟩

theorem HashOf.recHash {S : Strategies} {h : H} {v : Val} {es : List Val} (hh : HashOf S h v) (hv : Filled S v) (he : v ∈ es) :
    RecHash S (HashOf S) es h := by
  obtain ⟨l, e, hne, _, h2⟩ := hh.items hv
  refine ⟨l, e, hne, ?_⟩
  intro i hi
  obtain ⟨k, g, x, e, hm, hr⟩ := h2 i hi
  exact ⟨k, g, x, e, ⟨v, he, hv.1, hm⟩, hr⟩

/-! ### Sets and sequences -/

/-- State of the loop after the elements `done` of `es`. -/
structure LoopInv (S : Strategies) (es done : List Val) (kids : List Node) : Prop where
  src : ∀ k ∈ kids, ∃ e ∈ es, NodeFor S es e k
  cov : ∀ e ∈ done, ∃ k ∈ kids, ∃ e' ∈ es, NodeFor S es e' k ∧ Covers S e' e ∧ HashOf S (k.hash S) e

theorem coherent_at {S : Strategies} {v : Val} (h : Coherent S v) : CoherentAt S v := every_self h

theorem covers_refl_leaf {t x} {S : Strategies} : Covers S (.inst t x) (.inst t x) := .leaf rfl

mutual
theorem covers_refl {S : Strategies} : ∀ (v : Val), Coherent S v → Covers S v v
  | .inst _ _, _ => .leaf rfl
  | .seq k t es, h => by
    have ih := coversList_refl (S := S) es h.2
    by_cases hk : Placed S k
    · obtain ⟨rfl, hS⟩ := hk
      refine .tuple hS rfl ?_
      intro p hp
      obtain ⟨i, hi, rfl⟩ := List.mem_iff_getElem.mp hp
      simp only [List.getElem_zip]
      exact ih _ (List.getElem_mem _)
    · exact .seq (fun a b => a = b ∧ Covers S a a) hk (fun a b r => r.1 ▸ r.2) (fun e he => ⟨e, he, rfl, ih e he⟩)
  | .map k t ks vs, h => by
    have ih := coversList_refl (S := S) vs h.2
    obtain ⟨hk, _, _, hl, _⟩ := h.1
    by_cases hr : IsRecord S (.map k t ks vs)
    · cases k with
      | dict =>
        exact .record (fun a b => a = b ∧ Covers S a a) hr hl (fun _ => Iff.rfl) (fun a b r => r.1 ▸ r.2)
          (fun kv hkv => ⟨kv.2, hkv, rfl, ih _ (List.of_mem_zip (show (kv.1, kv.2) ∈ _ from hkv)).2⟩)
      | _ => exact hr.elim
    · cases k with
      | frame i =>
        exact .frame (fun a b => a = b ∧ Covers S a a) hl (fun _ => Iff.rfl) (fun a b r => r.1 ▸ r.2)
          (fun kv hkv => ⟨kv.2, hkv, rfl, ih _ (List.of_mem_zip (show (kv.1, kv.2) ∈ _ from hkv)).2⟩)
      | _ =>
        exact .mapping (fun a b => a = b ∧ Covers S a a) (by simp [Lookup]) hr hl (fun a b r => r.1 ▸ r.2)
          (fun kv hkv => ⟨kv, hkv, rfl, rfl, ih _ (List.of_mem_zip (show (kv.1, kv.2) ∈ _ from hkv)).2⟩)
  | .func f, h => .leaf (v := .func f) (w := .func f) ⟨h, h, rfl⟩
  | .cls _ _, _ => .leaf rfl
  | .module _, _ => .leaf trivial
  | .io _, _ => .leaf trivial
  | .ndarray _ _, _ => .leaf rfl
theorem coversList_refl {S : Strategies} : ∀ (l : List Val), EveryList (CoherentAt S) l → ∀ v ∈ l, Covers S v v
  | [], _ => by simp
  | v :: l, h => by
    intro w hw
    rcases List.mem_cons.mp hw with e | hw
    · rw [e]
      exact covers_refl (S := S) v h.1
    · exact coversList_refl (S := S) l h.2 w hw
end

theorem setStep_loop {E : Env} {rec : Str → Val → Except Err Node} (hrec : RecFor E.S rec) {parent : Str} {es : List Val}
    (hd : ∀ e ∈ es, Coherent E.S e) (ht : ToldApart E.S es)
    {done : List Val} {a : Val} (ha : a ∈ es) {b b' : List Node × List Str} (h : LoopInv E.S es done b.1)
    (hs : setStep E rec parent b a = .ok b') : LoopInv E.S es (done ++ [a]) b'.1 := by
  unfold setStep at hs
  cases hr : rec (freshName (parent ++ E.U.capitalize a.ty.name) b.2) a with
  | error e => simp only [hr] at hs; cases hs
  | ok c =>
    have hc := (hrec _ _ _ (hd a ha) hr).mono (pool' := es) (by simpa using ha)
    simp only [hr] at hs
    -- equal nodes
    have heq : ∀ {e : Val} {k : Node}, e ∈ es → NodeFor E.S es e k → nodeEq E.S c k = true →
        Covers E.S e a ∧ Covers E.S a e ∧ HashOf E.S (k.hash E.S) a := by
      intro e k he hk hek
      obtain ⟨⟨s1, a1⟩, s2, a2⟩ := hc.equal hk (coherent_at (hd a ha)) (coherent_at (hd e he)) hek
      refine ⟨ht e he a ha s2 a2, ht a ha e he s1 a1, hc.hash.eqv ?_⟩
      unfold nodeEq at hek
      rw [Bool.and_eq_true] at hek
      exact hek.2
    by_cases he : b.1.any (nodeEq E.S c) = true
    · obtain ⟨k0, hk0, hk0e⟩ := List.any_eq_true.mp he
      cases hty : isTypedDict E.S c with
      | true =>
        have hra := hc.typed.mp hty
        have hb : b'.1 = b.1.map (fun k => if nodeEq E.S c k then updateNode k c else k) := by
          have : (Except.ok (b.1.map (fun k => if nodeEq E.S c k then updateNode k c else k), b.2) : Except Err _) = .ok b' := by
            rw [← hs]
            show _ = (if b.1.any (nodeEq E.S c) then _ else _)
            rw [if_pos he, hty]; rfl
          injection this with this
          rw [← this]
        have up : ∀ {e : Val} {k : Node}, e ∈ es → NodeFor E.S es e k → nodeEq E.S c k = true →
            NodeFor E.S es e (updateNode k c) ∧ (updateNode k c).hash E.S = k.hash E.S := by
          intro e k he hk hek
          obtain ⟨_, h2, _⟩ := heq he hk hek
          obtain ⟨hre, hkeys⟩ := covers_record (coherent_at (hd a ha)) hra h2
          obtain ⟨m, _, hm1, hm2, _⟩ := (hk.record hre).info
          exact ⟨hk.update hc hre hra (fun x => (hkeys x).symm), hash_updateNode (hk.typed.mpr hre) hty ⟨m, hm1, hm2⟩⟩
        rw [hb]
        constructor
        · intro k hk
          obtain ⟨k', hk', rfl⟩ := List.mem_map.mp hk
          obtain ⟨e, hee, hne⟩ := h.src k' hk'
          refine ⟨e, hee, ?_⟩
          try dsimp only
          split
          · rename_i hek; exact (up hee hne hek).1
          · exact hne
        · intro e hme
          have key : ∃ k ∈ b.1, ∃ e' ∈ es, NodeFor E.S es e' k ∧ Covers E.S e' e ∧ HashOf E.S (k.hash E.S) e := by
            rcases List.mem_append.mp hme with hme | hme
            · exact h.cov e hme
            · simp only [List.mem_singleton] at hme
              subst hme
              obtain ⟨e', he', hn'⟩ := h.src k0 hk0
              obtain ⟨c1, _, c3⟩ := heq he' hn' hk0e
              exact ⟨k0, hk0, e', he', hn', c1, c3⟩
          obtain ⟨k, hk, e', he', hn', hco, hha⟩ := key
          refine ⟨_, List.mem_map_of_mem hk, e', he', ?_⟩
          try dsimp only
          split
          · rename_i hek
            obtain ⟨u1, u2⟩ := up he' hn' hek
            exact ⟨u1, hco, by rw [u2]; exact hha⟩
          · exact ⟨hn', hco, hha⟩
      | false =>
        have hb : b' = b := by
          have : (Except.ok b : Except Err _) = .ok b' := by
            rw [← hs]
            show _ = (if b.1.any (nodeEq E.S c) then _ else _)
            rw [if_pos he, hty]; rfl
          injection this with this
          exact this.symm
        rw [hb]
        refine ⟨h.src, ?_⟩
        intro e hme
        rcases List.mem_append.mp hme with hme | hme
        · exact h.cov e hme
        · simp only [List.mem_singleton] at hme
          subst hme
          obtain ⟨e', he', hn'⟩ := h.src k0 hk0
          obtain ⟨c1, _, c3⟩ := heq he' hn' hk0e
          exact ⟨k0, hk0, e', he', hn', c1, c3⟩
    · have hb : b'.1 = b.1 ++ [c] := by
        have : (Except.ok (b.1 ++ [c], b.2 ++ [freshName (parent ++ E.U.capitalize a.ty.name) b.2]) : Except Err _) = .ok b' := by
          rw [← hs]
          show _ = (if b.1.any (nodeEq E.S c) then _ else _)
          rw [if_neg he]; rfl
        injection this with this
        rw [← this]
      rw [hb]
      constructor
      · intro k hk
        rcases List.mem_append.mp hk with hk | hk
        · exact h.src k hk
        · simp only [List.mem_singleton] at hk; subst hk; exact ⟨a, ha, hc⟩
      · intro e hme
        rcases List.mem_append.mp hme with hme | hme
        · obtain ⟨k, hk, h'⟩ := h.cov e hme
          exact ⟨k, by simp [hk], h'⟩
        · simp only [List.mem_singleton] at hme
          subst hme
          exact ⟨c, by simp, e, ha, hc, covers_refl _ (hd _ ha), hc.hash⟩

/-! ### Merging -/

theorem percent_none {t : Nat} : percentSimilarity 0 t = 0 := by
  rcases Nat.eq_zero_or_pos t with rfl | h
  · exact percentSimilarity_zero
  · have := percent_upper (Nat.zero_le t) h
    cases hp : percentSimilarity 0 t with
    | zero => rfl
    | succ n =>
      rw [hp, Nat.succ_mul] at this
      omega

/-- Dictionaries are merged only if none is empty. -/
theorem shouldMerge_filled {S : Strategies} (hm : 0 < S.merge) {ds : List Node} (h : shouldMerge S ds = true) :
    ∀ n ∈ ds, ∀ m, nodeMeta n = some m → m.data ≠ [] := by
  intro n hn m hnm he
  have hk : m.keys = [] := by simp [DMeta.keys, he, dedup]
  have hmem : m ∈ ds.filterMap nodeMeta := List.mem_filterMap.mpr ⟨n, hn, hnm⟩
  unfold shouldMerge at h
  have hc : (compareDicts (ds.filterMap nodeMeta)).1 = 0 := by
    cases hl : ds.filterMap nodeMeta with
    | nil => rfl
    | cons a r =>
      rw [hl] at hmem
      simp only [compareDicts, List.length_eq_zero_iff, List.filter_eq_nil_iff]
      intro k hka hall
      rcases List.mem_cons.mp hmem with rfl | hmr
      · rw [hk] at hka; cases hka
      · have := List.all_eq_true.mp hall m hmr
        rw [hk] at this
        cases this
  dsimp only at h
  rw [hc, percent_none, Bool.and_eq_true, decide_eq_true_eq] at h
  omega

theorem mem_keys {m : DMeta} {x : Key} : x ∈ m.keys ↔ x ∈ m.data.map (·.1) ∧ x.hidden = false := by
  simp only [DMeta.keys, mem_dedup, List.mem_filter, Bool.not_eq_true']

/-- Dictionaries with too few common keys are not merged. -/
theorem shouldMerge_apart {S : Strategies} (hm : 0 < S.merge) {e e' : Val} (hd : Dissimilar S e e') {a b : Node} {l : List Node}
    (hla : a ∈ l) (hlb : b ∈ l) {m1 m2 : DMeta} (e1 : nodeMeta a = some m1) (e2 : nodeMeta b = some m2)
    (f1 : ∀ x, x ∈ m1.keys ↔ x ∈ fieldsOf e) (f2 : ∀ x, x ∈ m2.keys ↔ x ∈ fieldsOf e') : shouldMerge S l = false := by
  have i1 : m1 ∈ l.filterMap nodeMeta := List.mem_filterMap.mpr ⟨_, hla, e1⟩
  have i2 : m2 ∈ l.filterMap nodeMeta := List.mem_filterMap.mpr ⟨_, hlb, e2⟩
  unfold shouldMerge
  generalize l.filterMap nodeMeta = ms at i1 i2
  have key : (compareDicts ms).1 ≤ (sharedFields e e').length ∧ (allFields e e').length ≤ (compareDicts ms).2.1 ∧
      (compareDicts ms).1 ≤ (compareDicts ms).2.1 := by
    cases ms with
    | nil => cases i1
    | cons m r =>
      simp only [compareDicts]
      refine ⟨?_, ?_, ?_⟩
      · apply length_le_of_nodup_subset ((nodup_dedup _).filter _)
        intro x hx
        obtain ⟨hx1, hx2⟩ := List.mem_filter.mp hx
        have hall : ∀ m' ∈ m :: r, x ∈ m'.keys := by
          intro m' hm'
          rcases List.mem_cons.mp hm' with rfl | hm'
          · exact hx1
          · have := List.all_eq_true.mp hx2 m' hm'
            simpa using this
        simp only [sharedFields, mem_dedup, List.mem_filter, List.contains_eq_mem, decide_eq_true_eq]
        exact ⟨(f1 x).mp (hall _ i1), (f2 x).mp (hall _ i2)⟩
      · apply length_le_of_nodup_subset (nodup_dedup _)
        intro x hx
        rw [mem_dedup, List.mem_append] at hx
        rw [mem_dedup, List.mem_flatMap]
        rcases hx with hx | hx
        · exact ⟨m1, i1, (f1 x).mpr hx⟩
        · exact ⟨m2, i2, (f2 x).mpr hx⟩
      · apply length_le_of_nodup_subset ((nodup_dedup _).filter _)
        intro x hx
        rw [mem_dedup, List.mem_flatMap]
        exact ⟨m, by simp, (List.mem_filter.mp hx).1⟩
  obtain ⟨k1, k2, k3⟩ := key
  obtain ⟨⟨c, t, same⟩, hcd⟩ : ∃ x, compareDicts ms = x := ⟨_, rfl⟩
  rw [hcd] at k1 k2 k3 ⊢
  dsimp only at k1 k2 k3 ⊢
  have : ¬ (S.merge ≤ percentSimilarity c t) := by
    intro hle
    rcases Nat.eq_zero_or_pos t with rfl | h0
    · have : c = 0 := by omega
      subst this
      rw [percent_none] at hle
      omega
    · have hu := percent_upper k3 h0
      unfold Dissimilar at hd
      have a1 : (S.merge - 1) * (allFields e e').length ≤ (S.merge - 1) * t := Nat.mul_le_mul_left _ k2
      have a2 : S.merge * t ≤ percentSimilarity c t * t := Nat.mul_le_mul_right _ hle
      have a3 : (S.merge - 1) * t + t = S.merge * t := by
        obtain ⟨x, hx⟩ : ∃ x, S.merge = x + 1 := ⟨S.merge - 1, by omega⟩
        rw [hx, Nat.add_sub_cancel, Nat.add_mul, Nat.one_mul]
      omega
  simp [this]

theorem NodeFor.filled {S : Strategies} {p : List Val} {v : Val} {n : Node} (h : NodeFor S p v n) (ht : isTypedDict S n = true)
    (hm : ∀ m, nodeMeta n = some m → m.data ≠ []) : Filled S v := by
  have hr := h.typed.mp ht
  refine ⟨hr, ?_⟩
  intro e
  have rn := h.record hr
  obtain ⟨d, m, ek, _⟩ := isTypedDict_kind ht
  cases n with
  | mk hd kids =>
    simp only [Node.hdr] at ek
    have t1 := h.trim.1
    unfold TrimHdr at t1
    rw [ek] at t1
    refine hm m (by simp only [nodeMeta, ek]) (t1.2.1 ?_)
    cases hs : hd.slots with
    | nil => rfl
    | cons s r =>
      have := (rn.slots s.key).mp (by simp [Node.hdr, hs])
      rw [e] at this
      cases this

/-- What merging gives for the dictionaries among `es`. -/
structure MergedNode (S : Strategies) (es : List Val) (n : Node) : Prop where
  trim : Trim S n
  typed : isTypedDict S n = true
  hash : RecHash S (HashOf S) es (n.hash S)
  keys : ∀ k x, Holding S es k x → ∃ l g, n.hash S = .set l ∧ .typed k g ∈ l
  holds : ∀ e ∈ es, Filled S e → ∀ w, Covers S e w → Holds S n w
  only : ∀ w, Means S n w → Assembled S (Matches S) es w

theorem record_item {S : Strategies} {v : Val} (hc : Coherent S v) (hv : IsRecord S v) {kv : Key × Val} (h : kv ∈ v.items) :
    kv.1 ≠ .none ∧ kv.1.hidden = false ∧ kv.1.isStr = true ∧ (S.keyDoc = [] ∨ kv.1 ≠ .str S.keyDoc) ∧ Coherent S kv.2 := by
  obtain ⟨t, ks, vs, rfl, _, hstr⟩ := record_dict hv
  obtain ⟨⟨_, _, _, _, h4, h5, _, h7, _⟩, hvs⟩ := hc
  have hm := List.of_mem_zip (show (kv.1, kv.2) ∈ ks.zip vs from h)
  refine ⟨fun e => h4 (e ▸ hm.1), h5 _ hm.1, hstr _ hm.1, ?_, everyList_iff.mp hvs _ hm.2⟩
  rcases h7 rfl with h7 | h7
  · exact .inl h7
  · exact .inr (fun e => h7 (e ▸ hm.1))

/-- The keys of the node of a dictionary are its fields. -/
theorem NodeFor.keys {S : Strategies} {p : List Val} {v : Val} {n : Node} (h : NodeFor S p v n) (hc : Coherent S v) (hr : IsRecord S v) :
    ∃ m, nodeMeta n = some m ∧ ∀ x, x ∈ m.keys ↔ x ∈ v.items.map (·.1) := by
  obtain ⟨m, K, hm, _, hmeta, hK⟩ := (h.record hr).info
  refine ⟨m, hm, fun x => ?_⟩
  rw [mem_keys, hK]
  constructor
  · rintro ⟨hx, hh⟩
    obtain ⟨kv, hkv, rfl⟩ := List.mem_map.mp hx
    obtain ⟨s, e⟩ := hmeta.strs kv hkv
    rw [e] at hx hh ⊢
    exact ⟨s, (hmeta.data s hh).mp hx, rfl⟩
  · rintro ⟨s, hs, rfl⟩
    exact ⟨(hmeta.data s (hmeta.hid s hs)).mpr hs, hmeta.hid s hs⟩

theorem mem_fieldsOf {S : Strategies} {v : Val} (hc : Coherent S v) (hr : IsRecord S v) (x : Key) : x ∈ fieldsOf v ↔ x ∈ v.items.map (·.1) := by
  obtain ⟨t, ks, vs, rfl, _, _⟩ := record_dict hr
  obtain ⟨⟨_, _, _, hl, _, h5, _⟩, _⟩ := hc
  have hks : (ks.zip vs).map (·.1) = ks := List.map_fst_zip (by omega)
  show x ∈ ks.filter (fun k => !k.hidden) ↔ x ∈ (ks.zip vs).map (·.1)
  rw [hks, List.mem_filter]
  exact ⟨fun h => h.1, fun h => ⟨h, by simp [h5 x h]⟩⟩

theorem mergeDicts_for {S : Strategies} {rec : Str → Val → Except Err Node} (hrec : RecFor S rec)
    {es : List Val} (hd : ∀ e ∈ es, Coherent S e)
    (h3 : ∀ k x k' y, Holding S es k x → Holding S es k' y → SameKind x y → Alike S x y → Covers S x y)
    (h4 : ∀ k x y, Holding S es k x → Holding S es k y → Covers S x y) {ds : List Node}
    (hf : ∀ n ∈ ds, ∃ e ∈ es, Filled S e ∧ NodeFor S es e n)
    (hc : ∀ e ∈ es, Filled S e → ∃ k ∈ ds, ∃ e' ∈ es, Filled S e' ∧ NodeFor S es e' k ∧
      ∀ x, x ∈ e'.items.map (·.1) ↔ x ∈ e.items.map (·.1))
    {ds' : List Node} (hsub : ∀ k ∈ ds, k ∈ ds') (hpos : 0 < S.merge) (hsm : shouldMerge S ds' = true)
    {n : Node} (h : mergeDicts rec ds = .ok n) : MergedNode S es n := by
  have hsim : ∀ e ∈ es, ∀ e' ∈ es, Filled S e → Filled S e' → ¬ Dissimilar S e e' := by
    intro e he e' he' hf hf' hdis
    obtain ⟨k, hk, e1, he1, hre1, hn1, hkk1⟩ := hc e he hf
    obtain ⟨k', hk', e2, he2, hre2, hn2, hkk2⟩ := hc e' he' hf'
    obtain ⟨m1, hm1, hx1⟩ := hn1.keys (hd e1 he1) hre1.1
    obtain ⟨m2, hm2, hx2⟩ := hn2.keys (hd e2 he2) hre2.1
    have := shouldMerge_apart hpos hdis (hsub k hk) (hsub k' hk') hm1 hm2 (fun x => by rw [hx1, hkk1, mem_fieldsOf (hd e he) hf.1])
      (fun x => by rw [hx2, hkk2, mem_fieldsOf (hd e' he') hf'.1])
    rw [this] at hsm
    cases hsm
  cases ds with
  | nil => simp [mergeDicts] at h
  | cons d ds =>
    have hdata : ∀ kv ∈ (d :: ds).foldl (fun acc n => updateDict acc (nodeData n)) [], Holding S es kv.1 kv.2 := by
      intro kv hkv
      rcases mem_foldl_updateDict hkv with h | ⟨n, hn, h⟩
      · cases h
      · obtain ⟨e, _, hr, hn⟩ := hf n hn
        exact (hn.record hr.1).data kv h
    have hinfo : ∀ kv ∈ (((d :: ds).filterMap nodeMeta).foldl DMeta.update ((nodeMeta d).getD (DMeta.ofData []))).data,
        Holding S es kv.1 kv.2 := by
      have : ∀ n ∈ d :: ds, ∀ m, nodeMeta n = some m → ∀ kv ∈ m.data, Holding S es kv.1 kv.2 := by
        intro n hn m hm kv hkv
        obtain ⟨e, _, hr, hn⟩ := hf n hn
        obtain ⟨m', _, hm', e, _⟩ := (hn.record hr.1).info
        rw [hm] at hm'
        cases hm'
        exact (hn.record hr.1).data kv (e ▸ hkv)
      intro kv hkv
      rcases mem_foldl_update_data hkv with h | ⟨o, ho, h⟩
      · obtain ⟨e, _, hr, hn⟩ := hf d (by simp)
        obtain ⟨m', _, hm', _⟩ := (hn.record hr.1).info
        rw [hm', Option.getD_some] at h
        exact this d (by simp) m' hm' kv h
      · obtain ⟨n, hn, hm⟩ := List.mem_filterMap.mp ho
        exact this n hn o hm kv h
    have hkeys : ∀ x, x ∈ ((d :: ds).foldl (fun acc n => updateDict acc (nodeData n)) []).map (·.1) →
        x ∈ (((d :: ds).filterMap nodeMeta).foldl DMeta.update ((nodeMeta d).getD (DMeta.ofData []))).data.map (·.1) := by
      intro x hx
      rcases keys_foldl_updateDict.mp hx with h | ⟨n, hn, h⟩
      · simp at h
      · obtain ⟨_, _, hr, hn'⟩ := hf n hn
        obtain ⟨m, _, hm, e, _⟩ := (hn'.record hr.1).info
        exact keys_foldl_update.mpr (.inr ⟨m, List.mem_filterMap.mpr ⟨n, hn, hm⟩, e ▸ h⟩)
    have hnd : (((d :: ds).foldl (fun acc n => updateDict acc (nodeData n)) []).map (·.1)).Nodup :=
      nodup_foldl_updateDict (by simp)
    -- the keys of every record are among the merged ones
    have hall : ∀ e ∈ es, IsRecord S e → ∀ x ∈ e.items.map (·.1),
        x ∈ ((d :: ds).foldl (fun acc n => updateDict acc (nodeData n)) []).map (·.1) := by
      intro e he hre x hx
      have hne : e.items ≠ [] := by
        intro h0
        rw [h0] at hx
        cases hx
      obtain ⟨k, hk, e', he', hre', hn', hkk⟩ := hc e he ⟨hre, hne⟩
      obtain ⟨m, K, hm, hmd, hmeta, hK⟩ := (hn'.record hre'.1).info
      refine keys_foldl_updateDict.mpr (.inr ⟨k, hk, ?_⟩)
      rw [← hmd]
      obtain ⟨s, hs, rfl⟩ := (hK x).mp ((hkk x).mpr hx)
      exact (hmeta.data s (hmeta.hid s hs)).mpr hs
    -- required keys are in every record
    have hreq : ∀ s, Key.str s ∈ ((d :: ds).foldl (fun acc n => updateDict acc (nodeData n)) []).map (·.1) →
        (lookupKey (.str s) (((d :: ds).filterMap nodeMeta).foldl DMeta.update ((nodeMeta d).getD (DMeta.ofData []))).req).getD true = true →
        ∀ e ∈ es, Filled S e → Key.str s ∈ e.items.map (·.1) := by
      intro s hs hr e he hre
      obtain ⟨e0, _, hre0, hn0⟩ := hf d (by simp)
      obtain ⟨m0, K0, hm0, _, hmeta0, hK0⟩ := (hn0.record hre0.1).info
      have hmm : ∀ m ∈ (d :: ds).filterMap nodeMeta, ∃ L, Meta L m := by
        intro m hm
        obtain ⟨n', hn', e⟩ := List.mem_filterMap.mp hm
        obtain ⟨e1, _, hre1, hn1⟩ := hf n' hn'
        obtain ⟨m1, K1, hm1, _, hmeta1, _⟩ := (hn1.record hre1.1).info
        rw [e] at hm1
        injection hm1 with hm1
        subst hm1
        exact ⟨K1, hmeta1⟩
      obtain ⟨Ls, hLs⟩ := all₂_of_forall hmm
      have hA := MetaAll.foldl hmeta0.all hLs
      rw [hm0, Option.getD_some, hA.req] at hr
      obtain ⟨n', hn', hx⟩ := (keys_foldl_updateDict.mp hs).resolve_left (by simp)
      obtain ⟨e1, _, hre1, hn1⟩ := hf n' hn'
      obtain ⟨m1, K1, hm1, hmd1, hmeta1, hK1⟩ := (hn1.record hre1.1).info
      rw [← hmd1] at hx
      have hhid : (Key.str s).hidden = false := by
        obtain ⟨kv, hkv, ek⟩ := List.mem_map.mp hs
        obtain ⟨d', hd', hrd, hmd⟩ := hdata kv hkv
        rw [← ek]
        exact (record_item (hd d' hd') hrd (kv := (kv.1, kv.2)) hmd).2.1
      have hex : ∃ K ∈ [K0] ++ Ls, s ∈ K := by
        obtain ⟨L, hL, hmL⟩ := hLs.mem_left m1 (List.mem_filterMap.mpr ⟨n', hn', hm1⟩)
        exact ⟨L, by simp [hL], (hmL.data s hhid).mp hx⟩
      rw [if_pos hex, Option.getD_some, decide_eq_true_eq] at hr
      obtain ⟨k, hk, e', he', hre', hn', hkk⟩ := hc e he hre
      obtain ⟨m, K, hm, hmd, hmeta, hK⟩ := (hn'.record hre'.1).info
      obtain ⟨L, hL, hmL⟩ := hLs.mem_left m (List.mem_filterMap.mpr ⟨k, hk, hm⟩)
      have := hr L (by simp [hL])
      rw [← hkk, hK]
      exact ⟨s, (hmeta.data s hhid).mp ((hmL.data s hhid).mpr this), rfl⟩
    -- keys of all records are required
    have hreq' : ∀ s, Key.str s ∈ ((d :: ds).foldl (fun acc n => updateDict acc (nodeData n)) []).map (·.1) →
        (∀ e ∈ es, Filled S e → Key.str s ∈ e.items.map (·.1)) →
        (lookupKey (.str s) (((d :: ds).filterMap nodeMeta).foldl DMeta.update ((nodeMeta d).getD (DMeta.ofData []))).req).getD true = true := by
      intro s hs hev
      obtain ⟨e0, he0, hre0, hn0⟩ := hf d (by simp)
      obtain ⟨m0, K0, hm0, _, hmeta0, hK0⟩ := (hn0.record hre0.1).info
      have hs0 : s ∈ K0 := by
        obtain ⟨s', hs', e⟩ := (hK0 _).mp (hev e0 he0 hre0)
        cases e
        exact hs'
      have hmm : ∀ m ∈ (d :: ds).filterMap nodeMeta, ∃ L, Meta L m ∧ s ∈ L := by
        intro m hm
        obtain ⟨n', hn', e⟩ := List.mem_filterMap.mp hm
        obtain ⟨e1, he1, hre1, hn1⟩ := hf n' hn'
        obtain ⟨m1, K1, hm1, _, hmeta1, hK1⟩ := (hn1.record hre1.1).info
        rw [e] at hm1
        injection hm1 with hm1
        subst hm1
        obtain ⟨s', hs', e⟩ := (hK1 _).mp (hev e1 he1 hre1)
        cases e
        exact ⟨K1, hmeta1, hs'⟩
      obtain ⟨Ls, hLs⟩ := all₂_of_forall hmm
      have hA := MetaAll.foldl hmeta0.all (All₂.imp (fun _ _ h => h.1) hLs)
      rw [hm0, Option.getD_some, hA.req, if_pos ⟨K0, by simp, hs0⟩, Option.getD_some, decide_eq_true_eq]
      intro K hK
      simp only [List.cons_append, List.nil_append, List.mem_cons] at hK
      rcases hK with rfl | hK
      · exact hs0
      · obtain ⟨_, _, _, h⟩ := hLs.mem_right K hK
        exact h
    have hne : (d :: ds).foldl (fun acc n => updateDict acc (nodeData n)) [] ≠ [] := by
      obtain ⟨e0, he0, hre0, _⟩ := hf d (by simp)
      have := hall e0 he0 hre0.1
      intro e
      rw [e] at this
      obtain ⟨kv, hkv⟩ := List.exists_mem_of_ne_nil _ hre0.2
      exact absurd (this kv.1 (List.mem_map_of_mem hkv)) (by simp)
    obtain ⟨d0, hd0, rd0, _⟩ := hf d (by simp)
    obtain ⟨_, _, _, _, hS, _⟩ := record_dict rd0.1
    clear hf hc
    unfold mergeDicts at h
    dsimp only at h
    generalize hD : (d :: ds).foldl (fun acc n => updateDict acc (nodeData n)) [] = D at *
    generalize ((d :: ds).filterMap nodeMeta).foldl DMeta.update ((nodeMeta d).getD (DMeta.ofData [])) = I at *
    have hrk : ∀ {k : Key} {x : Val}, Holding S es k x → k ≠ .none ∧ k.hidden = false ∧ k.isStr = true ∧
        (S.keyDoc = [] ∨ k ≠ .str S.keyDoc) ∧ Coherent S x := by
      rintro k x ⟨e, he, hre, hm⟩
      exact record_item (hd e he) hre hm
    have hzip : ((D.map (·.1)).zip (D.map (·.2))) = D := by
      rw [List.zip_map']; simp
    have hcoh : Coherent S (.dict D) := by
      refine ⟨⟨trivial, by simp [Ty.dict], hnd, by simp, ?_, ?_, .inl ⟨rfl, hS⟩, ?_, ?_⟩, ?_⟩
      · intro hm
        obtain ⟨kv, hkv, e⟩ := List.mem_map.mp hm
        exact (hrk (hdata kv hkv)).1 e
      · intro k hk
        obtain ⟨kv, hkv, rfl⟩ := List.mem_map.mp hk
        exact (hrk (hdata kv hkv)).2.1
      · intro _
        by_cases e : S.keyDoc = []
        · exact .inl e
        · refine .inr ?_
          intro hm
          obtain ⟨kv, hkv, e'⟩ := List.mem_map.mp hm
          exact ((hrk (hdata kv hkv)).2.2.2.1.resolve_left e) e'
      · intro _ x hx y hy
        obtain ⟨kv, hkv, rfl⟩ := List.mem_map.mp hx
        obtain ⟨kw, hkw, rfl⟩ := List.mem_map.mp hy
        exact h3 _ _ _ _ (hdata kv hkv) (hdata kw hkw)
      · refine everyList_iff.mpr ?_
        intro v hv
        obtain ⟨kv, hkv, rfl⟩ := List.mem_map.mp hv
        exact (hrk (hdata kv hkv)).2.2.2.2
    have hrec' : IsRecord S (.dict D) := by
      refine ⟨hS, ?_⟩
      intro k hk
      obtain ⟨kv, hkv, rfl⟩ := List.mem_map.mp hk
      exact (hrk (hdata kv hkv)).2.2.1
    have hitems : Val.items (.dict D) = D := hzip
    cases hr : rec (ds.foldl (fun acc n => minStr acc n.name) d.name) (.dict D) with
    | error e => rw [hr] at h; cases h
    | ok n0 =>
      rw [hr] at h
      cases n0 with
      | mk hd0' kids =>
        have e : Node.mk { hd0' with kind := .dict D I } kids = n := by
          have : (Except.ok (Node.mk { hd0' with kind := .dict D I } kids) : Except Err Node) = .ok n := h
          injection this
        subst e
        have hg := hrec _ _ _ hcoh hr
        have ht := hg.typed.mpr hrec'
        obtain ⟨dd, m, hk, hm⟩ := isTypedDict_kind ht
        simp only [Node.hdr] at hk
        have hgr := hg.record hrec'
        have hI : I.isTyped S = true := by
          unfold DMeta.isTyped allStr
          rw [Bool.and_eq_true, List.all_eq_true, decide_eq_true_eq]
          exact ⟨fun kv hkv => (hrk (hinfo kv hkv)).2.2.1, hS⟩
        have hhash : (Node.mk { hd0' with kind := .dict D I } kids).hash S = (Node.mk hd0' kids).hash S := by
          simp only [Node.hash, hashOf, hk, hm, hI]
        obtain ⟨l, hl, hlne, hl1, hl2⟩ := hg.hash.items ⟨hrec', by rw [hitems]; exact hne⟩
        rw [hitems] at hl1 hl2
        obtain ⟨t1, t2, t3⟩ := hg.trim
        unfold TrimHdr at t1
        rw [hk] at t1
        obtain ⟨a0, a1, a2, a3, a4, a5⟩ := t1
        have hslot : ∀ s ∈ hd0'.slots, s.key ∈ D.map (·.1) := by
          intro s hs
          have := (hgr.slots s.key).mp (List.mem_map_of_mem hs)
          rw [hitems] at this
          exact this
        refine ⟨⟨?_, t2, t3⟩, by simpa [isTypedDict] using hI, ?_, ?_, ?_, ?_⟩
        · unfold TrimHdr
          refine ⟨a0, ?_, a2, fun s hs => ⟨(a3 s hs).1, hkeys _ (hslot s hs)⟩, fun kv hkv => (hrk (hdata kv hkv)).2.2.2.1, ?_⟩
          · intro e0
            have e0 : hd0'.slots = [] := e0
            obtain ⟨kv, hkv⟩ := List.exists_mem_of_ne_nil _ hne
            have := (hgr.slots kv.1).mpr (by rw [hitems]; exact List.mem_map_of_mem hkv)
            simp [Node.hdr, e0] at this
          · intro kv hkv
            exact (hrk (hinfo kv hkv)).2.1
        · rw [hhash]
          refine ⟨l, hl, hlne, ?_⟩
          intro i hi
          obtain ⟨k, g, x, e, hm, hh⟩ := hl2 i hi
          exact ⟨k, g, x, e, hdata _ hm, hh⟩
        · intro k x hx
          rw [hhash]
          obtain ⟨e, he, hre, hm⟩ := hx
          have := hall e he hre k (List.mem_map_of_mem hm)
          obtain ⟨kv, hkv, rfl⟩ := List.mem_map.mp this
          obtain ⟨g, hg⟩ := hl1 kv hkv
          exact ⟨l, g, hl, hg⟩
        · intro e he hre w hw
          obtain ⟨hrw, hkw⟩ := covers_record (coherent_at (hd e he)) hre.1 hw
          have hsub := hall e he hre.1
          have hHe : ∀ kv ∈ e.items, Holding S es kv.1 kv.2 := fun kv hkv => ⟨e, he, hre.1, hkv⟩
          have hreqe : ∀ s, Key.str s ∈ D.map (·.1) → (lookupKey (.str s) I.req).getD true = true → Key.str s ∈ e.items.map (·.1) :=
            fun s h1 h2 => hreq s h1 h2 e he hre
          obtain ⟨t, ks, vs, rfl, _, _⟩ := record_dict hre.1
          cases hw with
          | leaf hl => exact (sameLeaf_map hl).elim
          | mapping R _ hn => exact absurd hre.1 hn
          | @record _ t' _ _ ks' vs' R _ l' hk' hR hz =>
            have hks' : (ks'.zip vs').map (·.1) = ks' := List.map_fst_zip (by omega)
            refine .record (Holds S) rfl hI l' (fun _ _ h => h) ?_ ?_
            · intro s hs hreqs
              have h1 := hslot s hs
              obtain ⟨kv, hkv, ek⟩ := List.mem_map.mp h1
              have hstr := (hrk (hdata kv hkv)).2.2.1
              rw [ek] at hstr
              cases hsk : s.key with
              | str x =>
                rw [hsk] at hreqs h1
                have := (hkw _).mp (hreqe x h1 hreqs)
                simp only [Val.items] at this
                rw [hks'] at this
                exact this
              | _ => rw [hsk] at hstr; cases hstr
            · intro kw hkw'
              obtain ⟨v, hv, hRv⟩ := hz kw hkw'
              obtain ⟨kv, hkv, ek⟩ := List.mem_map.mp (hsub kw.1 (List.mem_map_of_mem (f := (·.1)) (show (kw.1, v) ∈ _ from hv)))
              obtain ⟨c, hcm, hch⟩ := hgr.fields kv (by rw [hitems]; exact hkv)
              refine ⟨c, ek ▸ hcm, hch _ ?_⟩
              exact Covers.trans (h4 kw.1 kv.2 v (ek ▸ hdata kv hkv) (hHe _ hv)) (hR _ _ hRv)
        · intro w hw
          cases hw with
          | leaf ht => simp [nodeType] at ht
          | noElements e => cases e
          | tuple e => cases e
          | seq R e => cases e
          | frame R e => cases e
          | mapping R e =>
            rcases e with ⟨e, _⟩ | ⟨_, dd, mm, e, e'⟩
            · cases e
            · cases e
              rw [hI] at e'; cases e'
          | @record _ _ _ _ t' ks' vs' R e _ hR h5 h6 h7 =>
            cases e
            refine ⟨t', ks', vs', rfl, ?_, ?_, ?_, ⟨d0, hd0, rd0⟩, hsim⟩
            · intro k hk
              obtain ⟨s, hs, e⟩ := List.mem_map.mp (h6 k hk)
              obtain ⟨kv, hkv, e'⟩ := List.mem_map.mp (hslot s hs)
              exact ⟨kv.2, e ▸ e' ▸ hdata kv hkv⟩
            · intro kw hkw
              obtain ⟨c, hcm, hr'⟩ := h7 kw hkw
              obtain ⟨y, hy, hyw⟩ := hgr.entries _ hcm
              rw [hitems] at hy
              exact ⟨y, hdata _ hy, hyw _ (hR _ _ hr')⟩
            · intro k x hx hev
              have hstr := (hrk hx).2.2.1
              obtain ⟨e, he, hre, hm⟩ := hx
              have hkD := hall e he hre k (List.mem_map_of_mem hm)
              obtain ⟨s, hs, e'⟩ := List.mem_map.mp ((hgr.slots k).mpr (by rw [hitems]; exact hkD))
              cases k with
              | str x =>
                have := h5 s hs
                rw [e'] at this
                exact this (hreq' x hkD hev)
              | _ => cases hstr

/-! ### Children of sequences -/

/-- Children of a sequence that is not described place by place. -/
structure SetKids (S : Strategies) (es : List Val) (kids : List Node) : Prop where
  trim : ∀ k ∈ kids, Trim S k
  some : ∀ e ∈ es, ¬ Filled S e → ∃ k ∈ kids, HashOf S (k.hash S) e
  each : ∀ k ∈ kids, (∃ e ∈ es, ¬ Filled S e ∧ HashOf S (k.hash S) e) ∨ RecHash S (HashOf S) es (k.hash S)
  keys : ∀ k x, Holding S es k x → ∃ c ∈ kids, ∃ l g, c.hash S = .set l ∧ .typed k g ∈ l
  holds : ∀ e ∈ es, ∃ k ∈ kids, ∀ w, Covers S e w → Holds S k w
  only : ∀ k ∈ kids, (∃ e ∈ es, ∀ w, Means S k w → Matches S e w) ∨ ∀ w, Means S k w → Assembled S (Matches S) es w

theorem setChildren_for {E : Env} (hE : E.Fair) (hpos : 0 < E.S.merge) {rec : Str → Val → Except Err Node} (hrec : RecFor E.S rec)
    {parent : Str} {es : List Val} {k : SeqKind} {t : Ty} (hco : Coherent E.S (.seq k t es)) {r : List Slot × List Node}
    (h : setChildren E rec parent es = .ok r) : r.1 = r.2.map (fun _ => Slot.seq 1) ∧ SetKids E.S es r.2 := by
  obtain ⟨⟨hi, hta, h3, h4⟩, hd⟩ := hco
  have hd := everyList_iff.mp hd
  unfold setChildren at h
  rw [inspected_limit hi] at h
  cases hf : foldE (setStep E rec parent) ([], []) es with
  | error e => rw [hf] at h; cases h
  | ok b =>
    have inv : LoopInv E.S es es b.1 := foldE_inv_mem (I := fun done b => LoopInv E.S es done b.1) ⟨by simp, by simp⟩
      (fun done a b b' ha hb hst => setStep_loop hrec hd hta ha hb hst) hf
    rw [hf] at h
    have h : (if shouldMerge E.S ((E.order 0 b.1).filter (isTypedDict E.S)) then (do
          let merged ← mergeDicts rec ((E.order 1 b.1).filter (isTypedDict E.S))
          let out := E.order 2 (b.1.filter (fun k => !isTypedDict E.S k) ++ [merged])
          pure (out.map (fun _ => Slot.seq 1), out))
        else (pure ((E.order 0 b.1).map (fun _ => Slot.seq 1), E.order 0 b.1) : Except Err (List Slot × List Node))) = .ok r := h
    by_cases hm : shouldMerge E.S ((E.order 0 b.1).filter (isTypedDict E.S)) = true
    · rw [if_pos hm] at h
      cases hg : mergeDicts rec ((E.order 1 b.1).filter (isTypedDict E.S)) with
      | error e => rw [hg] at h; cases h
      | ok n =>
        rw [hg] at h
        have h : (Except.ok ((E.order 2 (b.1.filter (fun k => !isTypedDict E.S k) ++ [n])).map (fun _ => Slot.seq 1),
          E.order 2 (b.1.filter (fun k => !isTypedDict E.S k) ++ [n])) : Except Err _) = .ok r := h
        injection h with h
        subst h
        have hfill : ∀ {k e}, k ∈ b.1 → isTypedDict E.S k = true → NodeFor E.S es e k → Filled E.S e := fun hk ht hn =>
          hn.filled ht (shouldMerge_filled hpos hm _ (List.mem_filter.mpr ⟨(hE 0 b.1).mem_iff.mpr hk, ht⟩))
        have g := mergeDicts_for hrec hd h3 h4 (ds := (E.order 1 b.1).filter (isTypedDict E.S)) (by
          intro k hk
          rw [List.mem_filter] at hk
          obtain ⟨e, he, hn⟩ := inv.src k ((hE 1 b.1).mem_iff.mp hk.1)
          exact ⟨e, he, hfill ((hE 1 b.1).mem_iff.mp hk.1) hk.2 hn, hn⟩) (by
          intro e he hre
          obtain ⟨k, hk, e', he', hn, hc, hh⟩ := inv.cov e he
          have ht : isTypedDict E.S k = true := by
            obtain ⟨l, hl, hne, h1, h2⟩ := hh.items hre
            rw [hn.typed]
            obtain ⟨i, hi⟩ := List.exists_mem_of_ne_nil _ hne
            obtain ⟨k1, g, x, rfl, _, _⟩ := h2 i hi
            have hh' := hn.hash
            rw [hl] at hh'
            obtain ⟨t, ks, vs, rfl, _, _⟩ := record_dict hre.1
            cases hc with
            | leaf hl => exact (sameLeaf_map' hl).elim
            | record R hr => exact hr
            | mapping R _ hn' =>
              cases hh' with
              | empty => cases hi
              | record R' hr => exact hr
              | mapping R' _ _ _ _ _ h5 =>
                obtain ⟨_, _, _, e, _⟩ := h5 _ hi
                cases e
          have hre' := hn.typed.mp ht
          refine ⟨k, ?_, e', he', hfill hk ht hn, hn, (covers_record (coherent_at (hd e' he')) hre' hc).2⟩
          rw [List.mem_filter]
          exact ⟨(hE 1 b.1).mem_iff.mpr hk, ht⟩) (by
          intro k hk
          rw [List.mem_filter] at hk ⊢
          exact ⟨(hE 0 b.1).mem_iff.mpr ((hE 1 b.1).mem_iff.mp hk.1), hk.2⟩) hpos hm hg
        have hmem : ∀ k, k ∈ E.order 2 (b.1.filter (fun k => !isTypedDict E.S k) ++ [n]) ↔
            (k ∈ b.1 ∧ isTypedDict E.S k = false) ∨ k = n := by
          intro k
          rw [(hE 2 _).mem_iff]
          simp
        have hcov : ∀ e ∈ es, ¬ Filled E.S e → ∃ k ∈ E.order 2 (b.1.filter (fun k => !isTypedDict E.S k) ++ [n]), ∃ e' ∈ es,
            NodeFor E.S es e' k ∧ Covers E.S e' e ∧ HashOf E.S (k.hash E.S) e := by
          intro e he hre
          obtain ⟨k, hk, e', he', hn, hc, hh⟩ := inv.cov e he
          refine ⟨k, (hmem k).mpr (.inl ⟨hk, ?_⟩), e', he', hn, hc, hh⟩
          rw [Bool.eq_false_iff]
          intro ht
          obtain ⟨c1, c2⟩ := covers_record (coherent_at (hd e' he')) (hn.typed.mp ht) hc
          refine hre ⟨c1, ?_⟩
          intro e0
          obtain ⟨kv, hkv⟩ := List.exists_mem_of_ne_nil _ (hfill hk ht hn).2
          have := (c2 kv.1).mp (List.mem_map_of_mem hkv)
          rw [e0] at this
          cases this
        refine ⟨rfl, ?_, ?_, ?_, ?_, ?_, ?_⟩
        · intro k hk
          rcases (hmem k).mp hk with ⟨hk, _⟩ | rfl
          · obtain ⟨e, _, hn⟩ := inv.src k hk
            exact hn.trim
          · exact g.trim
        · intro e he hre
          obtain ⟨k, hk, _, _, _, _, hh⟩ := hcov e he hre
          exact ⟨k, hk, hh⟩
        · intro k hk
          rcases (hmem k).mp hk with ⟨hk, ht⟩ | rfl
          · obtain ⟨e, he, hn⟩ := inv.src k hk
            refine .inl ⟨e, he, ?_, hn.hash⟩
            intro hre
            rw [hn.typed.mpr hre.1] at ht
            cases ht
          · exact .inr g.hash
        · intro k x hx
          exact ⟨n, (hmem n).mpr (.inr rfl), g.keys k x hx⟩
        · intro e he
          by_cases hre : Filled E.S e
          · exact ⟨n, (hmem n).mpr (.inr rfl), g.holds e he hre⟩
          · obtain ⟨k, hk, e', he', hn, hc, hh⟩ := hcov e he hre
            exact ⟨k, hk, fun w hw => hn.holds w (Covers.trans hc hw)⟩
        · intro k hk
          rcases (hmem k).mp hk with ⟨hk, ht⟩ | rfl
          · obtain ⟨e, he, hn⟩ := inv.src k hk
            exact .inl ⟨e, he, fun w hw => hn.exact (coherent_at (hd e he)) hw⟩
          · exact .inr g.only
    · rw [if_neg hm] at h
      have h : (Except.ok ((E.order 0 b.1).map (fun _ => Slot.seq 1), E.order 0 b.1) : Except Err _) = .ok r := h
      injection h with h
      subst h
      have hmem : ∀ k, k ∈ E.order 0 b.1 ↔ k ∈ b.1 := fun k => (hE 0 _).mem_iff
      refine ⟨rfl, ?_, ?_, ?_, ?_, ?_, ?_⟩
      · intro k hk
        obtain ⟨e, _, hn⟩ := inv.src k ((hmem k).mp hk)
        exact hn.trim
      · intro e he hre
        obtain ⟨k, hk, _, _, _, _, hh⟩ := inv.cov e he
        exact ⟨k, (hmem k).mpr hk, hh⟩
      · intro k hk
        obtain ⟨e, he, hn⟩ := inv.src k ((hmem k).mp hk)
        by_cases hre : Filled E.S e
        · exact .inr (hn.hash.recHash hre he)
        · exact .inl ⟨e, he, hre, hn.hash⟩
      · rintro k x ⟨e, he, hre, hx⟩
        obtain ⟨c, hk, _, _, _, _, hh⟩ := inv.cov e he
        obtain ⟨l, hl, _, h1, _⟩ := hh.items ⟨hre, List.ne_nil_of_mem hx⟩
        obtain ⟨g, hg⟩ := h1 _ hx
        exact ⟨c, (hmem c).mpr hk, l, g, hl, hg⟩
      · intro e he
        obtain ⟨k, hk, e', he', hn, hc, hh⟩ := inv.cov e he
        exact ⟨k, (hmem k).mpr hk, fun w hw => hn.holds w (Covers.trans hc hw)⟩
      · intro k hk
        obtain ⟨e, he, hn⟩ := inv.src k ((hmem k).mp hk)
        exact .inl ⟨e, he, fun w hw => hn.exact (coherent_at (hd e he)) hw⟩

theorem All₂.with_mem {α β} {R : α → β → Prop} {l : List α} {l' : List β} (h : All₂ R l l') : All₂ (fun a b => R a b ∧ b ∈ l') l l' := by
  have : ∀ {l : List α} {r : List β}, All₂ R l r → (∀ b ∈ r, b ∈ l') → All₂ (fun a b => R a b ∧ b ∈ l') l r := by
    intro l r h
    induction h with
    | nil => intro _; exact .nil
    | cons h _ ih => intro hm; exact .cons ⟨h, hm _ (by simp)⟩ (ih (fun b hb => hm b (by simp [hb])))
  exact this h (fun _ hb => hb)

/-- Child of a tuple that is described place by place. -/
structure PlaceKid (S : Strategies) (es : List Val) (e : Val) (k : Node) : Prop where
  trim : Trim S k
  plain : ¬ Filled S e → HashOf S (k.hash S) e
  rec' : Filled S e → RecHash S (HashOf S) es (k.hash S)
  keys : Filled S e → ∀ kx ∈ e.items, ∃ l g, k.hash S = .set l ∧ .typed kx.1 g ∈ l
  holds : ∀ w, Covers S e w → Holds S k w
  only : ∀ w, Means S k w → Matches S e w ∨ (Filled S e ∧ Assembled S (Matches S) es w)

theorem tupleChildren_for {E : Env} (hpos : 0 < E.S.merge) {rec : Str → Val → Except Err Node} (hrec : RecFor E.S rec)
    {parent : Str} {es : List Val} {k : SeqKind} {t : Ty} (hco : Coherent E.S (.seq k t es)) {r : List Slot × List Node}
    (h : tupleChildren E rec parent es = .ok r) :
    r.1.length = r.2.length ∧ (∀ s ∈ r.1, s.key ≠ .none) ∧ All₂ (PlaceKid E.S es) es r.2 := by
  obtain ⟨⟨hi, hta, h3, h4⟩, hd⟩ := hco
  have hd := everyList_iff.mp hd
  unfold tupleChildren at h
  rw [inspected_limit hi] at h
  cases hf : foldE (tupleStep E rec parent) ([], []) es with
  | error e => rw [hf] at h; cases h
  | ok b =>
    have inv : All₂ (NodeFor E.S es) es b.1 := foldE_inv_mem (I := fun done b => All₂ (NodeFor E.S es) done b.1) .nil (by
      intro done a b b' ha hb hst
      unfold tupleStep at hst
      dsimp only at hst
      cases hr : rec (freshName (parent ++ E.U.capitalize a.ty.name) (b.2.map (·.2))) a with
      | error e => rw [hr] at hst; cases hst
      | ok c =>
        rw [hr] at hst
        have hg := (hrec _ _ _ (hd a ha) hr).mono (pool' := es) (by simpa using ha)
        cases hq : findEq E.S c b.2 with
        | some old =>
          have hst : (match findEq E.S c b.2 with
            | some old => Except.ok (b.1 ++ [c.rename old], b.2)
            | none => Except.ok (b.1 ++ [c], b.2 ++ [(c, c.name)])) = (Except.ok b' : Except Err _) := hst
          rw [hq] at hst
          injection hst with hst
          subst hst
          exact hb.snoc hg.rename
        | none =>
          have hst : (match findEq E.S c b.2 with
            | some old => Except.ok (b.1 ++ [c.rename old], b.2)
            | none => Except.ok (b.1 ++ [c], b.2 ++ [(c, c.name)])) = (Except.ok b' : Except Err _) := hst
          rw [hq] at hst
          injection hst with hst
          subst hst
          exact hb.snoc hg) hf
    rw [hf] at h
    have h : (if shouldMerge E.S (b.1.filter (isTypedDict E.S)) then (do
          let merged ← mergeDicts rec (b.1.filter (isTypedDict E.S))
          pure (b.1.map (fun k => Slot.seq (if isTypedDict E.S k then (b.1.filter (isTypedDict E.S)).length else 1)),
            b.1.map (fun k => if isTypedDict E.S k then merged else k)))
        else (pure (b.1.map (fun _ => Slot.seq 1), b.1) : Except Err (List Slot × List Node))) = .ok r := h
    by_cases hm : shouldMerge E.S (b.1.filter (isTypedDict E.S)) = true
    · rw [if_pos hm] at h
      cases hg : mergeDicts rec (b.1.filter (isTypedDict E.S)) with
      | error e => rw [hg] at h; cases h
      | ok n =>
        rw [hg] at h
        have h : (Except.ok (b.1.map (fun k => Slot.seq (if isTypedDict E.S k then (b.1.filter (isTypedDict E.S)).length else 1)),
          b.1.map (fun k => if isTypedDict E.S k then n else k)) : Except Err _) = .ok r := h
        injection h with h
        subst h
        have hfill : ∀ {k e}, k ∈ b.1 → isTypedDict E.S k = true → NodeFor E.S es e k → Filled E.S e := fun hk ht hn =>
          hn.filled ht (shouldMerge_filled hpos hm _ (List.mem_filter.mpr ⟨hk, ht⟩))
        have g := mergeDicts_for hrec hd h3 h4 (ds := b.1.filter (isTypedDict E.S)) (by
          intro k hk
          rw [List.mem_filter] at hk
          obtain ⟨a, ha, hga⟩ := inv.mem_right k hk.1
          exact ⟨a, ha, hfill hk.1 hk.2 hga, hga⟩) (by
          intro e he hre
          obtain ⟨k, hk, hn⟩ := inv.mem_left e he
          exact ⟨k, List.mem_filter.mpr ⟨hk, hn.typed.mpr hre.1⟩, e, he, hre, hn, fun _ => Iff.rfl⟩) (fun _ h => h) hpos hm hg
        refine ⟨by simp, ?_, ?_⟩
        · intro s hs
          obtain ⟨k, _, rfl⟩ := List.mem_map.mp hs
          simp [Slot.seq]
        · refine inv.with_mem.map_right ?_
          rintro a ha k ⟨hgk, hkm⟩
          have hex : ∀ w, Means E.S k w → Matches E.S a w := fun w hw => hgk.exact (coherent_at (hd a ha)) hw
          split
          · rename_i ht
            have hre := hfill hkm ht hgk
            exact ⟨g.trim, fun hn => absurd hre hn, fun _ => g.hash, fun _ kx hkx => g.keys kx.1 kx.2 ⟨a, ha, hre.1, hkx⟩, g.holds a ha hre,
              fun w hw => .inr ⟨hre, g.only w hw⟩⟩
          · rename_i ht
            have hre : ¬ Filled E.S a := fun hre => ht (hgk.typed.mpr hre.1)
            exact ⟨hgk.trim, fun _ => hgk.hash, fun h => absurd h hre, fun h => absurd h hre, hgk.holds, fun w hw => .inl (hex w hw)⟩
    · rw [if_neg hm] at h
      have h : (Except.ok (b.1.map (fun _ => Slot.seq 1), b.1) : Except Err _) = .ok r := h
      injection h with h
      subst h
      refine ⟨by simp, ?_, ?_⟩
      · intro s hs
        obtain ⟨k, _, rfl⟩ := List.mem_map.mp hs
        simp [Slot.seq]
      · have : ∀ {l : List Val} {l' : List Node}, (∀ a ∈ l, a ∈ es) → All₂ (NodeFor E.S es) l l' → All₂ (PlaceKid E.S es) l l' := by
          intro l l' hl ha
          induction ha with
          | nil => exact .nil
          | cons hn _ ih =>
            refine .cons ⟨hn.trim, fun _ => hn.hash, fun hre => hn.hash.recHash hre (hl _ (by simp)), ?_, hn.holds,
              fun w hw => .inl (hn.exact (coherent_at (hd _ (hl _ (by simp)))) hw)⟩
              (ih (fun a ha => hl a (by simp [ha])))
            intro hre kx hkx
            obtain ⟨l, hl, _, h1, _⟩ := hn.hash.items hre
            obtain ⟨g, hg⟩ := h1 _ hkx
            exact ⟨l, g, hl, hg⟩
        exact this (fun _ h => h) inv

/-! ### Mappings -/

/-- Child of a mapping: the node of the value or of an equal one. -/
structure SharedKid (S : Strategies) (v : Val) (n : Node) : Prop where
  trim : Trim S n
  hash : HashOf S (n.hash S) v
  holds : ∀ w, Covers S v w → Holds S n w
  only : ∀ w, Means S n w → Matches S v w

theorem mapKids_for {E : Env} {rec : Str → Val → Except Err Node} (hrec : RecFor E.S rec) {name : Str}
    {ks : List Key} {vs : List Val} (hnd : ks.Nodup) (hl : ks.length = vs.length) (hta : ToldApart E.S vs)
    (hd : ∀ v ∈ vs, Coherent E.S v) {kids : List (Key × Node)}
    (hm : mapKids rec name (keySuffix E.U) (ks.zip vs) = .ok kids) :
    (shareEqual E name kids).1.map (·.key) = ks ∧ All₂ (SharedKid E.S) vs (shareEqual E name kids).2 := by
  have hkeys : (ks.zip vs).map (·.1) = ks := List.map_fst_zip (by omega)
  have hvals : (ks.zip vs).map (·.2) = vs := List.map_snd_zip (by omega)
  have hall := mapKids_all₂ (R := fun v n => v ∈ vs ∧ NodeFor E.S [v] v n) (fun kv hkv nm n h => by
    have hv := (List.of_mem_zip (show (kv.1, kv.2) ∈ _ from hkv)).2
    exact ⟨hv, hrec nm _ n (hd _ hv) h⟩) hm
  have hkk : kids.map (·.1) = ks := by rw [mapKids_keys hm, hkeys]
  have hsh := shareEqual_spec (E := E) (parent := name) (kids := kids) (by rw [hkk]; exact hnd)
  refine ⟨by rw [shareEqual_keys, hkk], ?_⟩
  have key : ∀ {v : Val} {k0 n : Node}, v ∈ vs ∧ NodeFor E.S [v] v k0 → Shares E.S kids k0 n → SharedKid E.S v n := by
    rintro v k0 n ⟨hv, hn0⟩ ⟨k, m, hm, h1, h2⟩
    obtain ⟨kv, _, _, hv', hnm⟩ := hall.mem_right _ hm
    have hnm : NodeFor E.S [kv.2] kv.2 m := hnm
    have hsm : SharedKid E.S v m := by
      rcases h1 with rfl | h1
      · exact ⟨hn0.trim, hn0.hash, hn0.holds, fun w hw => hn0.exact (coherent_at (hd _ hv)) hw⟩
      · obtain ⟨⟨s1, a1⟩, s2, a2⟩ := hn0.equal hnm (coherent_at (hd _ hv)) (coherent_at (hd _ hv')) h1
        refine ⟨hnm.trim, hn0.hash.eqv ?_, fun w hw => hnm.holds w (Covers.trans (hta _ hv' _ hv s2 a2) hw),
          fun w hw => .swap (hta _ hv _ hv' s1 a1) (hta _ hv' _ hv s2 a2) (hnm.exact (coherent_at (hd _ hv')) hw)⟩
        unfold nodeEq at h1
        rw [Bool.and_eq_true] at h1
        exact h1.2
    rcases h2 with rfl | ⟨x, rfl⟩
    · exact hsm
    · exact ⟨trim_rename hsm.trim, by rw [hash_rename]; exact hsm.hash, fun w hw => holds_rename (hsm.holds w hw),
        fun w hw => hsm.only w (means_rename hw)⟩
  rw [← hvals]
  clear hm hkk hvals hkeys
  generalize (shareEqual E name kids).2 = out at hsh
  generalize ks.zip vs = items at hall
  have : ∀ {items : List (Key × Val)} {K : List (Key × Node)} {out : List Node},
      All₂ (fun kv kn => kn.1 = kv.1 ∧ kv.2 ∈ vs ∧ NodeFor E.S [kv.2] kv.2 kn.2) items K →
      All₂ (fun kn n => Shares E.S kids kn.2 n) K out → All₂ (SharedKid E.S) (items.map (·.2)) out := by
    intro items K out h1
    induction h1 generalizing out with
    | nil => intro h2; cases h2; exact .nil
    | cons hr _ ih =>
      intro h2
      cases h2 with
      | cons hs h2 => exact .cons (key hr.2 hs) (ih h2)
  exact this hall hsh

theorem visible_all {items : List (Key × Val)} (h : ∀ kv ∈ items, kv.1.hidden = false) : visibleItems items = items := by
  unfold visibleItems
  rw [List.filter_eq_self]
  intro kv hkv
  simp [h kv hkv]

theorem meta_ofData {d : List (Key × Val)} (hs : ∀ kv ∈ d, kv.1.isStr = true) (hh : ∀ kv ∈ d, kv.1.hidden = false) :
    ∃ K, Meta K (DMeta.ofData d) ∧ ∀ x, x ∈ d.map (·.1) ↔ ∃ s ∈ K, x = .str s := by
  obtain ⟨D, hD⟩ : ∃ D : Dct, d = D.map (fun kv => (Key.str kv.1, kv.2)) := by
    clear hh
    induction d with
    | nil => exact ⟨[], rfl⟩
    | cons a r ih =>
      obtain ⟨D, hD⟩ := ih (fun kv hkv => hs kv (by simp [hkv]))
      obtain ⟨k, v⟩ := a
      cases k with
      | str s => exact ⟨(s, v) :: D, by rw [hD, List.map_cons]⟩
      | _ => have := hs _ (List.mem_cons_self ..); cases this
  subst hD
  refine ⟨shown D, Meta.ofData D, ?_⟩
  intro x
  simp only [List.map_map, shown, mem_visible]
  constructor
  · intro hx
    obtain ⟨kv, hkv, rfl⟩ := List.mem_map.mp hx
    exact ⟨kv.1, ⟨List.mem_map_of_mem hkv, hh _ (List.mem_map_of_mem hkv)⟩, rfl⟩
  · rintro ⟨s, ⟨h1, _⟩, rfl⟩
    obtain ⟨kv, hkv, rfl⟩ := List.mem_map.mp h1
    exact List.mem_map.mpr ⟨kv, hkv, rfl⟩

/-! ### Construction -/

theorem means_leaf {S : Strategies} {v w : Val} {h : Hdr} {kids : List Node} {t : TExpr} (ht : nodeType h = some t)
    (hv : leafType v = some t) (hf : ∀ i, h.kind ≠ .frame i) (hw : Means S (.mk h kids) w) : Matches S v w := by
  cases hw with
  | leaf ht' hw =>
    rw [ht] at ht'
    injection ht' with e
    subst e
    exact .leaf hv hw
  | noElements e => simp [nodeType, e] at ht
  | tuple e => simp [nodeType, e] at ht
  | seq R e => simp [nodeType, e] at ht
  | record R e => simp [nodeType, e] at ht
  | mapping R e =>
    rcases e with ⟨e, _⟩ | ⟨_, dd, mm, e, e'⟩ <;> simp [nodeType, e] at ht
  | frame R e => exact absurd e (hf _)

theorem frame_for {E : Env} {f : Nat} (hrec : RecFor E.S (build E f false)) {root : Bool} {name : Str} {i : FrameInfo} {t : Ty}
    {ks : List Key} {vs : List Val} {n : Node} (hc : Coherent E.S (.map (.frame i) t ks vs))
    (h : build E (f + 1) root name (.map (.frame i) t ks vs) = .ok n) :
    NodeFor E.S [.map (.frame i) t ks vs] (.map (.frame i) t ks vs) n := by
  obtain ⟨⟨⟨h1, h2, h3⟩, _, d2, d3, _⟩, hd⟩ := hc
  have hd := everyList_iff.mp hd
  obtain ⟨kids, hm, rfl⟩ := build_frame h
  have hkeys : (ks.zip vs).map (·.1) = ks := List.map_fst_zip (by omega)
  have hall := mapKids_all₂ (R := fun v n => NodeFor E.S [v] v n) (fun kv hkv nm n h =>
    hrec nm _ n (hd _ (List.of_mem_zip (show (kv.1, kv.2) ∈ _ from hkv)).2) h) hm
  have hkk : kids.map (·.1) = ks := by rw [mapKids_keys hm, hkeys]
  have hsk : (kids.map (fun kn => (⟨kn.1, 1⟩ : Slot))).map (·.key) = ks := by
    rw [List.map_map]; exact hkk
  have hz : ks.zip (kids.map (·.2)) = kids := by
    rw [← hkk, List.zip_map']; simp
  refine ⟨⟨⟨h1, by rw [hsk]; exact d2, ?_⟩, by simp, trimList_iff.mpr ?_⟩, ?_, ?_, rfl, by simp [isTypedDict, IsRecord], fun h => h.elim, ?_⟩
  · intro s hs
    exact h3 _ (hsk ▸ List.mem_map_of_mem hs)
  · intro k hk
    obtain ⟨kn, hkn, rfl⟩ := List.mem_map.mp hk
    obtain ⟨_, _, _, hk⟩ := hall.mem_right kn hkn
    exact hk.trim
  · intro w hw
    cases hw with
    | leaf hl => exact (sameLeaf_map hl).elim
    | mapping R hL => rcases hL with e | e <;> cases e
    | frame R hl hk' hR hzz =>
      refine .frame (Holds E.S) rfl hl (fun _ _ h => h) ?_ ?_
      · intro s hs
        rw [← hk', ← hsk]
        exact List.mem_map_of_mem hs
      · intro kw hkw
        obtain ⟨v, hv, hRv⟩ := hzz kw hkw
        obtain ⟨kn, hkn, e, hn⟩ := hall.mem_left _ hv
        dsimp only at e hn ⊢
        rw [hsk, hz, ← e]
        exact ⟨kn.2, hkn, hn.holds _ (hR _ _ hRv)⟩
  · simp only [Node.hash, hashOf]
    split
    · exact .frame (by decide) (fun hp => absurd (by assumption) hp)
    · exact .frame h2 (fun _ => rfl)
  · intro _ w hw
    generalize hout : kids.map (·.2) = out at hw
    cases hw with
    | leaf ht hw =>
      simp only [nodeType] at ht
      split at ht
      · rename_i he
        have : ks = [] := by rw [← hsk]; exact congrArg _ he
        subst this
        exact .leaf ht hw
      · cases ht
    | noElements e => cases e
    | tuple e => cases e
    | seq R e => cases e
    | record R e => cases e
    | mapping R e => rcases e with ⟨e, _⟩ | ⟨_, dd, mm, e, e'⟩ <;> cases e
    | frame R e hR h5 h6 =>
      dsimp only at h5 h6
      rw [hsk] at h5 h6
      refine .frame (Matches E.S) h5 (fun _ _ h => h) ?_
      intro kw hkw
      obtain ⟨c, hcm, hr⟩ := h6 kw hkw
      rw [← hout, hz] at hcm
      obtain ⟨kv, hkv, e, hn⟩ := hall.mem_right _ hcm
      dsimp only at e hn
      refine ⟨kv.2, by rw [e]; exact hkv, hn.exact (coherent_at (hd _ (List.of_mem_zip (show (kv.1, kv.2) ∈ _ from hkv)).2)) (hR _ _ hr)⟩

theorem build_for {E : Env} (hE : E.Fair) (hpos : 0 < E.S.merge) : ∀ (f : Nat) (root : Bool) (name : Str) (v : Val) (n : Node),
    Coherent E.S v → build E f root name v = .ok n → NodeFor E.S [v] v n
  | 0, _, _, _, _, _, h => by cases h
  | f + 1, root, name, .inst t x, n, hc, h => by
    have h : (if nameOk E.U name then .ok (.mk { kind := .inst, name, root, ty := t, slots := [] } []) else .error (.badName name)) =
      (.ok n : Except Err Node) := h
    split at h
    · injection h with h
      subst h
      refine ⟨⟨rfl, rfl, trivial⟩, ?_, ?_, rfl, by simp [isTypedDict, IsRecord], fun h => h.elim,
        fun _ w hw => means_leaf rfl rfl (fun _ h => by cases h) hw⟩
      · intro w hw
        cases hw with
        | leaf hl =>
          cases w with
          | inst t' x' => exact .leaf ⟨rfl, hl⟩
          | _ => exact hl.elim
      · exact .leaf (v := .inst t x) trivial
    · cases h
  | f + 1, root, name, .seq k t es, n, hc, h => by
    have hrec : RecFor E.S (build E f false) := fun nm v n ht h => build_for hE hpos f false nm v n ht h
    rw [build_seq] at h
    split at h
    · by_cases hp : k = .tuple ∧ E.S.tuple = .fixed
      · rw [if_pos hp] at h
        cases hr : tupleChildren E (build E f false) name es with
        | error e => rw [hr] at h; cases h
        | ok r =>
          obtain ⟨slots, kids⟩ := r
          rw [hr] at h
          injection h with h
          subst h
          obtain ⟨h1, h2, h3⟩ := tupleChildren_for hpos hrec hc hr
          dsimp only at h1 h2 h3
          obtain ⟨rfl, htup⟩ := hp
          have hlen := h3.length_eq
          have hns : ¬ E.S.tuple = .anySize := by rw [htup]; simp
          refine ⟨⟨h2, h1, trimList_iff.mpr ?_⟩, ?_, ?_, rfl, by simp [isTypedDict, IsRecord], fun h => h.elim, ?_⟩
          · intro k hk
            obtain ⟨_, _, hk⟩ := h3.mem_right k hk
            exact hk.trim
          · intro w hw
            cases hw with
            | leaf hl => exact (sameLeaf_seq hl).elim
            | seq R hnp => exact absurd ⟨rfl, htup⟩ hnp
            | @tuple _ t' _ es' _ hl hz =>
              refine .tuple rfl htup (by omega) ?_
              intro p hp
              obtain ⟨i, hi, rfl⟩ := List.mem_iff_getElem.mp hp
              simp only [List.length_zip] at hi
              simp only [List.getElem_zip]
              refine (h3.get i (by omega) (by omega)).holds _ ?_
              refine hz (es[i]'(by omega), es'[i]'(by omega)) ?_
              rw [List.mem_iff_getElem]
              exact ⟨i, by simp only [List.length_zip]; omega, by simp⟩
          · simp only [Node.hash, hashOf, if_neg hns, hashList_eq_map]
            have hz : ∀ p ∈ (kids.map (fun k => k.hash E.S)).zip es, ∃ k, p.1 = k.hash E.S ∧ PlaceKid E.S es p.2 k := by
              intro p hp
              obtain ⟨i, hi, rfl⟩ := List.mem_iff_getElem.mp hp
              simp only [List.length_zip, List.length_map] at hi
              simp only [List.getElem_zip, List.getElem_map]
              exact ⟨_, rfl, h3.get i (by omega) (by omega)⟩
            refine .tuple (HashOf E.S) htup (fun _ _ h => h) (by simp [hlen]) ?_ ?_ ?_
            · intro p hp hn
              obtain ⟨k, e, hk⟩ := hz p hp
              rw [e]; exact hk.plain hn
            · intro p hp hn
              obtain ⟨k, e, hk⟩ := hz p hp
              rw [e]; exact hk.rec' hn
            · rintro k x ⟨e, he, hre, hx⟩
              obtain ⟨c, hcm, hk⟩ := h3.mem_left e he
              obtain ⟨l, g, e1, e2⟩ := hk.keys ⟨hre, List.ne_nil_of_mem hx⟩ _ hx
              exact ⟨l, g, e1 ▸ List.mem_map_of_mem (f := fun k => Node.hash E.S k) hcm, e2⟩
          · intro _ w hw
            cases hw with
            | leaf ht => simp [nodeType] at ht
            | noElements e hlk =>
              cases e
              have : es = [] := List.length_eq_zero_iff.mp hlen
              subst this
              exact .noElements hlk
            | @tuple _ _ t' es' e _ hl hz =>
              refine .tuple (Matches E.S) htup (by omega) (fun _ _ h => h) ?_
              intro p hp
              obtain ⟨i, hi, rfl⟩ := List.mem_iff_getElem.mp hp
              simp only [List.length_zip] at hi
              simp only [List.getElem_zip]
              refine (h3.get i (by omega) (by omega)).only _ ?_
              refine hz (kids[i]'(by omega), es'[i]'(by omega)) ?_
              rw [List.mem_iff_getElem]
              exact ⟨i, by simp only [List.length_zip]; omega, by simp⟩
            | seq R e hnp => cases e; exact absurd ⟨rfl, htup⟩ hnp
            | record R e => cases e
            | mapping R e => rcases e with ⟨e, _⟩ | ⟨_, dd, mm, e, e'⟩ <;> cases e
            | frame R e => cases e
      · rw [if_neg hp] at h
        cases hr : setChildren E (build E f false) name es with
        | error e => rw [hr] at h; cases h
        | ok r =>
          obtain ⟨slots, kids⟩ := r
          rw [hr] at h
          injection h with h
          subst h
          obtain ⟨h1, h2⟩ := setChildren_for hE hpos hrec hc hr
          dsimp only at h1 h2
          subst h1
          refine ⟨⟨?_, by simp, trimList_iff.mpr h2.trim⟩, ?_, ?_, rfl, by simp [isTypedDict, IsRecord], fun h => h.elim, ?_⟩
          · intro s hs
            obtain ⟨_, _, rfl⟩ := List.mem_map.mp hs
            simp [Slot.seq]
          · intro w hw
            cases hw with
            | leaf hl => exact (sameLeaf_seq hl).elim
            | tuple hS => exact absurd ⟨rfl, hS⟩ hp
            | seq R hnp hR hz =>
              refine .seq (Holds E.S) rfl hnp (fun _ _ h => h) ?_
              intro e' he'
              obtain ⟨e, he, hr⟩ := hz e' he'
              obtain ⟨k, hk, hh⟩ := h2.holds e he
              exact ⟨k, hk, hh _ (hR _ _ hr)⟩
          · have : ∀ (sl : List Slot), (Node.mk ⟨.seq k, name, root, t, sl⟩ kids).hash E.S = .set (kids.map (fun k => k.hash E.S)) := by
              intro sl
              simp only [Node.hash, hashList_eq_map]
              cases k with
              | tuple =>
                have : E.S.tuple = .anySize := by
                  cases ht : E.S.tuple with
                  | fixed => exact absurd ⟨rfl, ht⟩ hp
                  | anySize => rfl
                simp [hashOf, this]
              | _ => rfl
            rw [this]
            refine .seq (HashOf E.S) hp (fun _ _ h => h) ?_ ?_ ?_
            · intro e he hn
              obtain ⟨k, hk, hh⟩ := h2.some e he hn
              exact ⟨_, List.mem_map_of_mem hk, hh⟩
            · intro h hh
              obtain ⟨k, hk, rfl⟩ := List.mem_map.mp hh
              exact h2.each k hk
            · intro k x hx
              obtain ⟨c, hcm, l, g, e1, e2⟩ := h2.keys k x hx
              exact ⟨l, g, e1 ▸ List.mem_map_of_mem (f := fun k => Node.hash E.S k) hcm, e2⟩
          · intro _ w hw
            cases hw with
            | leaf ht => simp [nodeType] at ht
            | noElements e hlk =>
              cases e
              have : es = [] := by
                cases es with
                | nil => rfl
                | cons e r =>
                  obtain ⟨k, hk, _⟩ := h2.holds e (by simp)
                  cases hk
              subst this
              exact .noElements hlk
            | tuple e hS => cases e; exact absurd ⟨rfl, hS⟩ hp
            | seq R e hnp hlk hR h5 =>
              cases e
              refine .seq (Matches E.S) hnp hlk (fun _ _ h => h) ?_
              intro e' he'
              obtain ⟨n, hn, hr⟩ := h5 e' he'
              rcases h2.only n hn with ⟨e, he, h⟩ | h
              · exact .inl ⟨e, he, h _ (hR _ _ hr)⟩
              · exact .inr (h _ (hR _ _ hr))
            | record R e => cases e
            | mapping R e => rcases e with ⟨e, _⟩ | ⟨_, dd, mm, e, e'⟩ <;> cases e
            | frame R e => cases e
    · cases h
  | f + 1, root, name, .map k t ks vs, n, hc, h => by
    have hrec : RecFor E.S (build E f false) := fun nm v n ht h => build_for hE hpos f false nm v n ht h
    by_cases d0 : Lookup k
    case neg =>
      cases k with
      | frame i => exact frame_for hrec hc h
      | _ => exact absurd (by simp [Lookup]) d0
    obtain ⟨⟨_, dt, d2, d3, d4, d5, d6, d7, d9⟩, hd⟩ := hc
    have d8 := d9 d0
    have hd := everyList_iff.mp hd
    have hkeys : (ks.zip vs).map (·.1) = ks := List.map_fst_zip (by omega)
    have hmem : ∀ kv ∈ ks.zip vs, kv.1 ∈ ks ∧ kv.2 ∈ vs := fun kv hkv => List.of_mem_zip (show (kv.1, kv.2) ∈ _ from hkv)
    have hvis : visibleItems (ks.zip vs) = ks.zip vs := visible_all (fun kv hkv => d5 _ (hmem kv hkv).1)
    -- items of the mapping and children
    have item : ∀ {out : List Node} {kv : Key × Val}, All₂ (SharedKid E.S) vs out → kv ∈ ks.zip vs →
        ∃ c, (kv.1, c) ∈ ks.zip out ∧ SharedKid E.S kv.2 c := by
      intro out kv ha hkv
      obtain ⟨i, hi, rfl⟩ := List.mem_iff_getElem.mp hkv
      have hl := ha.length_eq
      simp only [List.length_zip] at hi
      simp only [List.getElem_zip]
      refine ⟨out[i]'(by omega), ?_, ha.get i (by omega) (by omega)⟩
      rw [List.mem_iff_getElem]
      exact ⟨i, by simp only [List.length_zip]; omega, by simp⟩
    have item' : ∀ {out : List Node} {kn : Key × Node}, All₂ (SharedKid E.S) vs out → kn ∈ ks.zip out →
        ∃ v, (kn.1, v) ∈ ks.zip vs ∧ SharedKid E.S v kn.2 := by
      intro out kn ha hkn
      obtain ⟨i, hi, rfl⟩ := List.mem_iff_getElem.mp hkn
      have hl := ha.length_eq
      simp only [List.length_zip] at hi
      simp only [List.getElem_zip]
      refine ⟨vs[i]'(by omega), ?_, ha.get i (by omega) (by omega)⟩
      rw [List.mem_iff_getElem]
      exact ⟨i, by simp only [List.length_zip]; omega, by simp⟩
    have hzne : ks ≠ [] → ∀ {out : List Node}, All₂ (SharedKid E.S) vs out → ks.zip (out.map (fun k => k.hash E.S)) ≠ [] := by
      intro d1 out ha e
      have hl := ha.length_eq
      have := congrArg List.length e
      simp only [List.length_zip, List.length_map, List.length_nil] at this
      have : ks.length ≠ 0 := by
        intro e
        exact d1 (List.length_eq_zero_iff.mp e)
      omega
    have zmem : ∀ {k : Key} {nd : Node} {out : List Node}, (k, nd) ∈ ks.zip out →
        (k, nd.hash E.S) ∈ ks.zip (out.map (fun k => k.hash E.S)) := by
      intro k nd out h
      rw [List.zip_map_right]
      exact List.mem_map.mpr ⟨_, h, rfl⟩
    have zmem' : ∀ {kh : Key × H} {out : List Node}, kh ∈ ks.zip (out.map (fun k => k.hash E.S)) →
        ∃ nd, kh.2 = nd.hash E.S ∧ (kh.1, nd) ∈ ks.zip out := by
      intro kh out h
      rw [List.zip_map_right] at h
      obtain ⟨kn, hkn, rfl⟩ := List.mem_map.mp h
      exact ⟨kn.2, rfl, hkn⟩
    have hmapping : ∀ {out : List Node}, All₂ (SharedKid E.S) vs out → ¬ IsRecord E.S (.map k t ks vs) →
        HashOf E.S (.set ((ks.zip (out.map (fun k => k.hash E.S))).map fun kh => .mapping kh.1.ty kh.2)) (.map k t ks vs) := by
      intro out ha hn
      by_cases d1 : ks = []
      · subst d1
        exact .empty ⟨d0, rfl⟩
      refine .mapping (HashOf E.S) d0 hn (fun _ _ h => h) (by simpa using hzne d1 ha) ?_ ?_
      · intro kv hkv
        obtain ⟨c, hcm, hsc⟩ := item ha hkv
        exact ⟨_, List.mem_map.mpr ⟨_, zmem hcm, rfl⟩, hsc.hash⟩
      · intro h hh
        obtain ⟨kh, hkh, rfl⟩ := List.mem_map.mp hh
        obtain ⟨nd, e, hm⟩ := zmem' hkh
        obtain ⟨v, hv, hsc⟩ := item' ha hm
        exact ⟨_, hv, kh.2, rfl, e ▸ hsc.hash⟩
    have hholds : ∀ {hdr : Hdr} {out : List Node} {w : Val}, All₂ (SharedKid E.S) vs out → hdr.slots.map (·.key) = ks →
        ¬ IsRecord E.S (.map k t ks vs) → MapNode E.S hdr k → Covers E.S (.map k t ks vs) w → Holds E.S (.mk hdr out) w := by
      intro hdr out w ha hsk hn hmn hw
      cases hw with
      | leaf hl => exact (sameLeaf_map hl).elim
      | record R hr => exact absurd hr hn
      | frame => rcases d0 with e | e <;> cases e
      | mapping R _ _ hl hR hz =>
        refine .mapping (Holds E.S) hmn hl (fun _ _ h => h) ?_
        intro kw hkw
        obtain ⟨kv, hkv, e, hr⟩ := hz kw hkw
        obtain ⟨c, hcm, hsc⟩ := item ha hkv
        exact ⟨(kv.1, c), hsk ▸ hcm, e, hsc.holds _ (hR _ _ hr)⟩
    have honly : ∀ {hdr : Hdr} {out : List Node} {w : Val}, All₂ (SharedKid E.S) vs out → hdr.slots.map (·.key) = ks →
        ¬ IsRecord E.S (.map k t ks vs) → MapNode E.S hdr k → Means E.S (.mk hdr out) w → Matches E.S (.map k t ks vs) w := by
      intro hdr out w ha hsk hn hmn hw
      have hkind : (hdr.kind = .proxy) ∨ ∃ data m, hdr.kind = .dict data m ∧ m.isTyped E.S = false := by
        rcases hmn with ⟨e, _⟩ | ⟨_, h⟩
        · exact .inl e
        · exact .inr h
      cases hw with
      | leaf ht => rcases hkind with e | ⟨_, _, e, _⟩ <;> simp [nodeType, e] at ht
      | noElements e' => rcases hkind with e | ⟨_, _, e, _⟩ <;> rw [e] at e' <;> cases e'
      | tuple e' => rcases hkind with e | ⟨_, _, e, _⟩ <;> rw [e] at e' <;> cases e'
      | seq R e' => rcases hkind with e | ⟨_, _, e, _⟩ <;> rw [e] at e' <;> cases e'
      | record R e' et =>
        rcases hkind with e | ⟨_, _, e, ef⟩
        · rw [e] at e'; cases e'
        · rw [e] at e'; cases e'
          rw [et] at ef; cases ef
      | frame R e' => rcases hkind with e | ⟨_, _, e, _⟩ <;> rw [e] at e' <;> cases e'
      | @mapping _ _ k1 k' t' ks' vs' R hk1 hlike hR h5 h6 =>
        have hkk : k1 = k := by
          rcases hmn with ⟨e, e1⟩ | ⟨e1, _, _, e, _⟩
          · rcases hk1 with ⟨_, e2⟩ | ⟨_, _, _, e3, _⟩
            · rw [e1, e2]
            · rw [e] at e3; cases e3
          · rcases hk1 with ⟨e3, _⟩ | ⟨e2, _⟩
            · rw [e] at e3; cases e3
            · rw [e1, e2]
        subst hkk
        refine .mapping (Matches E.S) d0 hn hlike (fun _ _ h => h) ?_ ?_
        · intro hne x hx
          obtain ⟨s, hs, h⟩ := h5 (by intro e; rw [e] at hsk; exact hne hsk.symm) x hx
          exact ⟨s.key, hsk ▸ List.mem_map_of_mem hs, h⟩
        · intro hne w hw
          have hlen := ha.length_eq
          obtain ⟨c, hcm, hr⟩ := h6 (by
            rintro rfl
            refine hne (List.length_eq_zero_iff.mp ?_)
            rw [d3]; exact hlen) w hw
          obtain ⟨v, hv, hsc⟩ := ha.mem_right c hcm
          exact ⟨v, hv, hsc.only _ (hR _ _ hr)⟩
    rcases d0 with rfl | rfl
    · obtain ⟨kids, hm, rfl⟩ := build_dict h
      have hdata : dictData E.S (ks.zip vs) = ks.zip vs := by
        unfold dictData
        split
        · rfl
        · rename_i hne
          apply inspected_limit
          rw [List.length_zip, ← d3, Nat.min_self]
          exact (d6.resolve_left (fun h => hne h.2)).resolve_right (fun h => h (.inl rfl))
      rw [hdata, hvis] at hm
      rw [hdata]
      obtain ⟨hsk, hch⟩ := mapKids_for hrec d2 d3 d8 hd hm
      have hmt : (DMeta.ofData (ks.zip vs)).isTyped E.S = true ↔ IsRecord E.S (.map .dict t ks vs) := by
        simp only [DMeta.isTyped, DMeta.ofData, allStr, Bool.and_eq_true, List.all_eq_true, decide_eq_true_eq, IsRecord]
        constructor
        · rintro ⟨h1, h2⟩
          refine ⟨h2, ?_⟩
          intro k hk
          rw [← hkeys] at hk
          obtain ⟨kv, hkv, rfl⟩ := List.mem_map.mp hk
          exact h1 kv hkv
        · rintro ⟨h1, h2⟩
          exact ⟨fun kv hkv => h2 _ (hmem kv hkv).1, h1⟩
      have hit : Val.items (.map .dict t ks vs) = ks.zip vs := rfl
      refine ⟨⟨?_, shareEqual_length .., trimList_iff.mpr ?_⟩, ?_, ?_, rfl, hmt, ?_, ?_⟩
      · unfold TrimHdr
        refine ⟨(fun e => nomatch (dt.mp e)), ?_, by rw [hsk]; exact d2, ?_, ?_, ?_⟩
        · intro e
          dsimp only at e
          rw [e] at hsk
          rw [← hsk]
          rfl
        · intro s hs
          have : s.key ∈ ks := by rw [← hsk]; exact List.mem_map_of_mem hs
          refine ⟨fun e => d4 (e ▸ this), ?_⟩
          simp only [DMeta.ofData, hkeys]
          exact this
        · intro kv hkv
          rcases d7 rfl with d7 | d7
          · exact .inl d7
          · exact .inr (fun e => d7 (e ▸ (hmem kv hkv).1))
        · intro kv hkv
          exact d5 _ (hmem kv hkv).1
      · intro k hk
        obtain ⟨_, _, hk⟩ := hch.mem_right k hk
        exact hk.trim
      · intro w hw
        by_cases hr : IsRecord E.S (.map .dict t ks vs)
        · cases hw with
          | leaf hl => exact (sameLeaf_map hl).elim
          | mapping R _ hn => exact absurd hr hn
          | record R _ hl hk' hR hz =>
            refine .record (Holds E.S) rfl (hmt.mpr hr) hl (fun _ _ h => h) ?_ ?_
            · intro s hs _
              rw [← hk', ← hsk]
              exact List.mem_map_of_mem hs
            · intro kw hkw
              obtain ⟨v, hv, hRv⟩ := hz kw hkw
              obtain ⟨c, hcm, hsc⟩ := item hch hv
              dsimp only
              rw [hsk]
              exact ⟨c, hcm, hsc.holds _ (hR _ _ hRv)⟩
        · refine hholds hch hsk hr (.inr ⟨rfl, _, _, rfl, ?_⟩) hw
          rw [Bool.eq_false_iff]
          exact fun h => hr (hmt.mp h)
      · rw [dict_hash (κ := .list) rfl]
        simp only [Node.hdr, Node.kids, hsk]
        split
        · rename_i hty
          have hr := hmt.mp hty
          by_cases d1 : ks = []
          · subst d1
            exact .empty ⟨.inl rfl, rfl⟩
          refine .record (HashOf E.S) hr (fun _ _ h => h) (by simpa using hzne d1 hch) ?_ ?_
          · intro kv hkv
            obtain ⟨c, hcm, hsc⟩ := item hch hkv
            exact ⟨_, List.mem_map.mpr ⟨_, zmem hcm, rfl⟩, hsc.hash⟩
          · intro h hh
            obtain ⟨kh, hkh, rfl⟩ := List.mem_map.mp hh
            obtain ⟨nd, e, hm⟩ := zmem' hkh
            obtain ⟨v, hv, hsc⟩ := item' hch hm
            exact ⟨_, _, v, rfl, hv, e ▸ hsc.hash⟩
        · rename_i hty
          exact hmapping hch (fun hr => hty (hmt.mpr hr))
      · intro hr
        obtain ⟨K, hK1, hK2⟩ := meta_ofData (d := ks.zip vs) (fun kv hkv => hr.2 _ (hmem kv hkv).1) (fun kv hkv => d5 _ (hmem kv hkv).1)
        refine ⟨?_, ⟨_, K, rfl, rfl, hK1, hK2⟩, ?_, ?_, ?_⟩
        · intro kv hkv
          exact ⟨_, by simp, hr, hkv⟩
        · intro x
          simp only [Node.hdr, hit, hsk, hkeys]
        · intro kv hkv
          obtain ⟨c, hcm, hsc⟩ := item hch hkv
          simp only [Node.hdr, Node.kids, hsk]
          exact ⟨c, hcm, hsc.holds⟩
        · intro kn hkn
          simp only [Node.hdr, Node.kids, hsk] at hkn
          obtain ⟨v, hv, hsc⟩ := item' hch hkn
          exact ⟨v, hv, hsc.only⟩
      · intro hr w hw
        refine honly hch hsk hr (.inr ⟨rfl, _, _, rfl, ?_⟩) hw
        rw [Bool.eq_false_iff]
        exact fun h => hr (hmt.mp h)
    · obtain ⟨kids, hm, rfl⟩ := build_proxy h
      have hlim : limit E.S.checkMax (ks.zip vs) = ks.zip vs := by
        apply inspected_limit
        rw [List.length_zip, ← d3, Nat.min_self]
        exact (d6.resolve_left (fun h => by cases h.1)).resolve_right (fun h => h (.inr rfl))
      rw [hlim, hvis] at hm
      obtain ⟨hsk, hch⟩ := mapKids_for hrec d2 d3 d8 hd hm
      have hn : ¬ IsRecord E.S (.map .proxy t ks vs) := fun h => h
      refine ⟨⟨⟨dt.mpr rfl, ?_⟩, shareEqual_length .., trimList_iff.mpr ?_⟩, ?_, ?_, rfl, by simp [isTypedDict, IsRecord], fun h => absurd h hn,
        fun _ w hw => honly hch hsk hn (.inl ⟨rfl, rfl⟩) hw⟩
      · intro s hs
        have : s.key ∈ ks := by rw [← hsk]; exact List.mem_map_of_mem hs
        exact fun e => d4 (e ▸ this)
      · intro k hk
        obtain ⟨_, _, hk⟩ := hch.mem_right k hk
        exact hk.trim
      · intro w hw
        exact hholds hch hsk hn (.inl ⟨rfl, rfl⟩) hw
      · have := hmapping hch hn
        simp only [Node.hash, hashOf, hashList_eq_map, hsk]
        exact this
  | f + 1, root, name, .func g, n, hc, h => by
    have h : (match (if nameOk E.U name then .ok (.mk { kind := .func g, name, root, ty := g.ty, slots := [] } []) else .error (.badName name) :
        Except Err Node) with
      | .error e => .error e
      | .ok n => if !root && decide (g.sig = .typeError) then .error .signature else .ok n) = (.ok n : Except Err Node) := h
    split at h
    · cases h
    · rename_i n' hn'
      split at h
      · cases h
      · injection h with h
        subst h
        split at hn'
        · injection hn' with hn'
          subst hn'
          refine ⟨⟨⟨rfl, hc⟩, rfl, trivial⟩, ?_, ?_, rfl, by simp [isTypedDict, IsRecord], fun h => h.elim,
        fun _ w hw => means_leaf rfl rfl (fun _ h => by cases h) hw⟩
          · intro w hw
            cases hw with
            | leaf hl =>
              cases w with
              | func g' => exact .leaf ⟨g, rfl, hl.1, hl.2.2⟩
              | _ => exact hl.elim
          · obtain ⟨s, hs⟩ := counted_hash_str (f := g)
            simp only [Node.hash, hashOf]
            rw [hs]
            exact .func hc hs
        · cases hn'
  | f + 1, root, name, .cls m c, n, hc, h => by
    have h : (if nameOk E.U name then .ok (.mk { kind := .cls c, name, root, ty := m, slots := [] } []) else .error (.badName name)) =
      (.ok n : Except Err Node) := h
    split at h
    · injection h with h
      subst h
      refine ⟨⟨⟨rfl, hc⟩, rfl, trivial⟩, ?_, ?_, rfl, by simp [isTypedDict, IsRecord], fun h => h.elim,
        fun _ w hw => means_leaf rfl rfl (fun _ h => by cases h) hw⟩
      · intro w hw
        cases hw with
        | leaf hl =>
          cases w with
          | cls m' c' => exact .leaf (congrArg NKind.cls hl)
          | _ => exact hl.elim
      · exact .leaf (v := .cls m c) trivial
    · cases h
  | f + 1, root, name, .module t, n, hc, h => by
    have h : (if nameOk E.U name then .ok (.mk { kind := .module, name, root, ty := t, slots := [] } []) else .error (.badName name)) =
      (.ok n : Except Err Node) := h
    split at h
    · injection h with h
      subst h
      refine ⟨⟨rfl, rfl, trivial⟩, ?_, ?_, rfl, by simp [isTypedDict, IsRecord], fun h => h.elim,
        fun _ w hw => means_leaf rfl rfl (fun _ h => by cases h) hw⟩
      · intro w hw
        cases hw with
        | leaf hl =>
          cases w with
          | module t' => exact .leaf rfl
          | _ => exact hl.elim
      · exact .leaf (v := .module t) trivial
    · cases h
  | f + 1, root, name, .io t, n, hc, h => by
    have h : (if nameOk E.U name then .ok (.mk { kind := .io, name, root, ty := t, slots := [] } []) else .error (.badName name)) =
      (.ok n : Except Err Node) := h
    split at h
    · injection h with h
      subst h
      refine ⟨⟨rfl, rfl, trivial⟩, ?_, ?_, rfl, by simp [isTypedDict, IsRecord], fun h => h.elim,
        fun _ w hw => means_leaf rfl rfl (fun _ h => by cases h) hw⟩
      · intro w hw
        cases hw with
        | leaf hl =>
          cases w with
          | io t' => exact .leaf rfl
          | _ => exact hl.elim
      · exact .leaf (v := .io t) trivial
    · cases h
  | f + 1, root, name, .ndarray t d, n, hc, h => by
    have h : (if nameOk E.U name then .ok (.mk { kind := .ndarray d, name, root, ty := t, slots := [] } []) else .error (.badName name)) =
      (.ok n : Except Err Node) := h
    split at h
    · injection h with h
      subst h
      refine ⟨⟨⟨rfl, hc⟩, rfl, trivial⟩, ?_, ?_, rfl, by simp [isTypedDict, IsRecord], fun h => h.elim,
        fun _ w hw => means_leaf rfl rfl (fun _ h => by cases h) hw⟩
      · intro w hw
        cases hw with
        | leaf hl =>
          cases w with
          | ndarray t' d' => exact .leaf (congrArg NKind.ndarray hl)
          | _ => exact hl.elim
      · exact .leaf (v := .ndarray t d) trivial
    · cases h

end Verif
