import Verif.Lemmas.ClearTree
/-
Which slots nodes have: none for values without elements, and for dictionaries only slots of keys that the metadata knows.
-/
namespace Verif
open Verif.Spec

/-- The slots fit the kind of the node. -/
def KeyedHdr (L : Key → Prop) (h : Hdr) : Prop :=
  match h.kind with
  | .inst | .func _ | .cls _ | .module | .io | .ndarray _ => h.slots = []
  | .dict data m => (∀ s ∈ h.slots, s.key ∈ data.map (·.1)) ∧ ∀ k ∈ data.map (·.1), k ∈ m.data.map (·.1)
  | .seq _ => ∀ s ∈ h.slots, s.key = .str []
  | .frame _ => ∀ s ∈ h.slots, L s.key
  | .proxy => True

/-- The labels of a frame satisfy `L`. -/
def LabelsOk (L : Key → Prop) : Val → Prop
  | .map (.frame _) _ ks _ => ∀ k ∈ ks, L k
  | _ => True

variable {L : Key → Prop}

theorem updateKeys_sub {m o : DMeta} {k : Key} (h : k ∈ m.data.map (·.1)) : k ∈ (m.update o).data.map (·.1) := by
  obtain ⟨kv, hkv, rfl⟩ := List.mem_map.mp h
  exact List.mem_map_of_mem (by simp [DMeta.update, hkv])

theorem updateKeys_other {m o : DMeta} {k : Key} (h : k ∈ o.data.map (·.1)) : k ∈ (m.update o).data.map (·.1) := by
  obtain ⟨kv, hkv, rfl⟩ := List.mem_map.mp h
  by_cases hl : (lookupKey kv.1 m.data).isNone = true
  · exact List.mem_map_of_mem (by simp only [DMeta.update, List.mem_append, List.mem_filter]; exact .inr ⟨hkv, hl⟩)
  · refine updateKeys_sub ?_
    exact lookupKey_isSome.mp (by simpa [Option.isSome_iff_ne_none] using hl)

theorem foldUpdate_keys : ∀ {ms : List DMeta} {m : DMeta} {k : Key}, (k ∈ m.data.map (·.1) ∨ ∃ o ∈ ms, k ∈ o.data.map (·.1)) →
    k ∈ (ms.foldl DMeta.update m).data.map (·.1)
  | [], m, k, h => by simpa using h
  | o :: ms, m, k, h => by
    refine foldUpdate_keys (ms := ms) ?_
    rcases h with h | ⟨o', ho, h⟩
    · exact .inl (updateKeys_sub h)
    · rcases List.mem_cons.mp ho with e | ho
      · exact .inl (updateKeys_other (e ▸ h))
      · exact .inr ⟨o', ho, h⟩

theorem keyed_rename {n : Node} {new : Str} (h : NodeAll (KeyedHdr L) n) : NodeAll (KeyedHdr L) (n.rename new) :=
  nodeAll_renameAux (fun _ _ h => h) h

theorem keyed_updateNode {k c : Node} (h : NodeAll (KeyedHdr L) k) : NodeAll (KeyedHdr L) (updateNode k c) := by
  cases k with
  | mk h1 k1 =>
    cases c with
    | mk h2 k2 =>
      simp only [updateNode]
      split
      · rename_i d m d' m' e1 e2
        simp only [NodeAll] at h ⊢
        refine ⟨?_, h.2⟩
        have h1 := h.1
        unfold KeyedHdr at h1 ⊢
        rw [e1] at h1
        exact ⟨fun s hs => updateKeys_sub (h1.2 _ (h1.1 s hs)), fun k hk => hk⟩
      · exact h

theorem keyed_merge {rec : Str → Val → Except Err Node} {ds : List Node} {n : Node} (h : mergeDicts rec ds = .ok n)
    (hds : ∀ d ∈ ds, NodeAll (KeyedHdr L) d)
    (hrec : ∀ d ∈ ds, ∀ n, rec d.name (.dict (ds.foldl (fun acc n => updateDict acc (nodeData n)) [])) = .ok n →
      NodeAll (KeyedHdr L) n ∧ ∀ s ∈ n.hdr.slots, s.key ∈ (ds.foldl (fun acc n => updateDict acc (nodeData n)) []).map (·.1)) :
    NodeAll (KeyedHdr L) n := by
  cases ds with
  | nil => cases h
  | cons d ds =>
    have hname : ∃ d' ∈ d :: ds, ds.foldl (fun acc n => minStr acc n.name) d.name = d'.name := by
      rcases foldl_minStr_mem (ns := ds) (s := d.name) with h | ⟨n, hn, h⟩
      · exact ⟨d, by simp, h⟩
      · exact ⟨n, by simp [hn], h⟩
    obtain ⟨d', hd', hname⟩ := hname
    unfold mergeDicts at h
    dsimp only at h
    rw [hname] at h
    cases hr : rec d'.name (.dict ((d :: ds).foldl (fun acc n => updateDict acc (nodeData n)) [])) with
    | error e => rw [hr] at h; cases h
    | ok n' =>
      rw [hr] at h
      obtain ⟨h1, h2⟩ := hrec d' hd' n' hr
      cases n' with
      | mk hd kids =>
        injection h with h
        subst h
        refine ⟨⟨h2, ?_⟩, h1.2⟩
        intro k hk
        obtain ⟨kv, hkv, rfl⟩ := List.mem_map.mp hk
        rcases mem_foldl_updateDict hkv with h | ⟨o, ho, h⟩
        · simp at h
        · have ho' := hds o ho
          cases o with
          | mk ho1 ko =>
            have ho' := ho'.1
            unfold KeyedHdr at ho'
            cases hk : ho1.kind with
            | dict data m =>
              rw [hk] at ho'
              simp only [nodeData, hk] at h
              refine foldUpdate_keys (.inr ⟨m, List.mem_filterMap.mpr ⟨_, ho, by simp [nodeMeta, hk]⟩, ?_⟩)
              exact ho'.2 _ (List.mem_map_of_mem h)
            | _ => simp [nodeData, hk] at h

theorem keyed_build {E : Env} (hE : E.Fair) : ∀ (f : Nat) {root : Bool} {name : Str} {v : Val} {n : Node}, Every (LabelsOk L) v → v.depth < f →
    build E f root name v = .ok n → NodeAll (KeyedHdr L) n
  | 0, _, _, _, _, _, hf, _ => by omega
  | f + 1, root, name, v, n, hv, hf, h => by
    cases v with
    | seq k t es =>
      have hes := everyList_iff.mp hv.2
      have hd : ∀ e ∈ es, e.depth < f ∧ e.depth ≤ depthList es ∧ depthList es < f := by
        intro e he
        have := depth_le_depthList he
        simp only [Val.depth] at hf
        omega
      have spec : RecSpec E (build E f false) name es (fun n => NodeAll (KeyedHdr L) n ∧ DataOk (EntryOf es) (depthList es) n) (fun _ => True) := by
        refine ⟨?_, fun k c hk hc => ⟨keyed_updateNode hk.1, hk.2.updateNode hc.2⟩, ?_⟩
        · intro e he nm _
          unfold Ens
          split
          · rename_i n' hb
            exact ⟨keyed_build hE f (hes e he) (hd e he).1 hb, dataOk_build hE he hb (hd e he).1⟩
          · trivial
        · intro ds hds _
          unfold Ens
          split
          · rename_i n' hb
            refine ⟨?_, ?_⟩
            · refine keyed_merge hb (fun d hd => (hds d hd).1.1) ?_
              intro d hdm n1 hb1
              have hne : ∃ m, nodeMeta d = some m := Option.isSome_iff_exists.mp (nodeMeta_of_isTypedDict (hds d hdm).2)
              obtain ⟨m, hm⟩ := hne
              have h1 := ((hds d hdm).1.2 m hm).1
              have hdep := depth_dict (items := ds.foldl (fun acc n => updateDict acc (nodeData n)) []) h1 (by
                intro kv hkv
                rcases mem_foldl_updateDict hkv with h | ⟨o, ho, h⟩
                · simp at h
                · obtain ⟨m', hm'⟩ := Option.isSome_iff_exists.mp (nodeMeta_of_isTypedDict (hds o ho).2)
                  exact (((hds o ho).1.2 m' hm').2.1 kv h).2)
              have hlt : depthList es < f := by simp only [Val.depth] at hf; omega
              have hev : Every (LabelsOk L) (.dict (ds.foldl (fun acc n => updateDict acc (nodeData n)) [])) := by
                refine ⟨trivial, everyList_iff.mpr ?_⟩
                intro w hw
                obtain ⟨kv, hkv, rfl⟩ := List.mem_map.mp hw
                rcases mem_foldl_updateDict hkv with h | ⟨o, ho, h⟩
                · simp at h
                · obtain ⟨m', hm'⟩ := Option.isSome_iff_exists.mp (nodeMeta_of_isTypedDict (hds o ho).2)
                  obtain ⟨t', ks, vs, hmem, hz⟩ := (((hds o ho).1.2 m' hm').2.1 kv h).1
                  exact everyList_iff.mp (hes _ hmem).2 _ (List.of_mem_zip hz).2
              have hk := keyed_build hE f hev (Nat.lt_of_le_of_lt hdep hlt) hb1
              refine ⟨hk, ?_⟩
              obtain ⟨_, _, hkind, _⟩ := build_facts hE hb1 (Nat.lt_of_le_of_lt hdep hlt)
              have hkh := nodeAll_hdr hk
              unfold KeyedHdr at hkh
              rw [hkind] at hkh
              intro s hs
              have := hkh.1 s hs
              obtain ⟨kv, hkv, e⟩ := List.mem_map.mp this
              rw [← e]
              have := dictData_subset hkv
              rw [zip_fst_snd] at this
              exact List.mem_map_of_mem this
            · have := mergeDicts_ens (rec := build E f false) (ds := ds) (P := DataOk (EntryOf es) (depthList es)) (R := fun _ => True)
                (Q := fun _ => True) (q := EntryOf es) (D := depthList es) (.inr trivial)
                (fun d hd => ⟨(hds d hd).1.2, nodeMeta_of_isTypedDict (hds d hd).2⟩)
                (fun d _ items _ _ => by unfold Ens; split <;> trivial)
                (fun h kids data info _ h1 hdata hinfo => by
                  intro m hm
                  simp only [nodeMeta, Option.some.injEq] at hm
                  subst hm
                  exact ⟨h1, hdata, hinfo⟩)
              rw [hb] at this
              exact this
          · trivial
      rw [build_seq] at h
      split at h
      · split at h
        · rename_i slots kids hr'
          injection h with h
          subst h
          by_cases hc : k = .tuple ∧ E.S.tuple = .fixed
          · rw [if_pos hc] at hr'
            have := tupleChildren_ens spec (fun k c _ hc => ⟨keyed_rename hc.1, hc.2.rename⟩)
            rw [hr'] at this
            refine ⟨?_, nodeAllList_iff.mpr (fun k hk => (this.1 k hk).1)⟩
            intro s hs
            obtain ⟨m, _, e⟩ := this.2.2 s hs
            rw [e]; rfl
          · rw [if_neg hc] at hr'
            have := setChildren_ens hE spec
            rw [hr'] at this
            refine ⟨?_, nodeAllList_iff.mpr (fun k hk => (this.1 k hk).1)⟩
            intro s hs
            have h2 : slots = kids.map (fun _ => Slot.seq 1) := this.2
            rw [h2] at hs
            obtain ⟨_, _, e⟩ := List.mem_map.mp hs
            rw [← e]; rfl
        · cases h
      · cases h
    | map k t ks vs =>
      have maps : ∀ {items : List (Key × Val)} {kids : List (Key × Node)} {suffix : Key → Str}, (∀ kv ∈ items, kv ∈ ks.zip vs) →
          mapKids (build E f false) name suffix items = .ok kids → kids.map (·.1) = items.map (·.1) ∧ ∀ kn ∈ kids, NodeAll (KeyedHdr L) kn.2 := by
        intro items kids suffix hsub hk
        have := mapKids_ens (rec := build E f false) (parent := name) (suffix := suffix)
          (R := fun _ _ n => NodeAll (KeyedHdr L) n) (Q := fun _ => True) (items := items) (by
            intro kv hkv
            have hz := hsub kv hkv
            unfold Ens
            split
            · rename_i n' hb
              refine keyed_build hE f (everyList_iff.mp hv.2 _ (List.of_mem_zip hz).2) ?_ hb
              have := zip_depth hz
              simp only [Val.depth] at hf
              omega
            · trivial)
        rw [hk] at this
        exact ⟨this.1, fun kn hkn => by obtain ⟨_, _, h⟩ := this.2 kn hkn; exact h⟩
      have share : ∀ {kids : List (Key × Node)}, (∀ kn ∈ kids, NodeAll (KeyedHdr L) kn.2) → NodeAllList (KeyedHdr L) (shareEqual E name kids).2 := by
        intro kids hk
        exact nodeAllList_iff.mpr (shareEqual_all hk (fun n nm hn _ => keyed_rename hn))
      cases k with
      | frame i =>
        simp only [build, frameChildren] at h
        split at h
        · cases hm : mapKids (build E f false) name (labelSuffix E.U) (ks.zip vs) with
          | error e => rw [hm] at h; cases h
          | ok kids =>
            rw [hm] at h
            injection h with h
            subst h
            obtain ⟨h1, h2⟩ := maps (fun kv hkv => hkv) hm
            refine ⟨?_, nodeAllList_iff.mpr ?_⟩
            · intro s hs
              obtain ⟨kn, hkn, rfl⟩ := List.mem_map.mp hs
              have hm : kn.1 ∈ kids.map (·.1) := List.mem_map_of_mem hkn
              rw [h1] at hm
              obtain ⟨kv, hkv, e⟩ := List.mem_map.mp hm
              show L kn.1
              rw [← e]
              exact hv.1 _ (List.of_mem_zip hkv).1
            intro k hk
            obtain ⟨kn, hkn, rfl⟩ := List.mem_map.mp hk
            exact h2 kn hkn
        · cases h
      | dict =>
        obtain ⟨kids, hkk, rfl⟩ := build_dict h
        obtain ⟨h1, h2⟩ := maps (fun kv hkv => dictData_subset (List.mem_filter.mp hkv).1) hkk
        refine ⟨⟨?_, fun k hk => hk⟩, share h2⟩
        intro s hs
        have hm : s.key ∈ (shareEqual E name kids).1.map (·.key) := List.mem_map_of_mem hs
        rw [shareEqual_keys, h1] at hm
        obtain ⟨kv, hkv, hkey⟩ := List.mem_map.mp hm
        rw [← hkey]
        exact List.mem_map_of_mem (List.mem_filter.mp hkv).1
      | proxy =>
        obtain ⟨kids, hkk, rfl⟩ := build_proxy h
        obtain ⟨h1, h2⟩ := maps (fun kv hkv => limit_subset (List.mem_filter.mp hkv).1) hkk
        exact ⟨trivial, share h2⟩
    | func fi =>
      simp only [build] at h
      split at h
      · cases h
      · rename_i n' hn'
        split at hn'
        · injection hn' with hn'
          split at h
          · cases h
          · injection h with h
            rw [← h, ← hn']
            exact ⟨rfl, trivial⟩
        · cases hn'
    | _ =>
      simp only [build] at h
      split at h
      · injection h with h
        subst h
        exact ⟨rfl, trivial⟩
      · cases h

end Verif
