import Verif.Lemmas.Sound
/-
A TypedDict merged from dictionaries whose shared keys hold values of the same shape admits each of them.
-/
namespace Verif
open Verif.Spec

/-- Every item has an entry that admits it. -/
theorem record_admits {E : Env} (hE : E.Fair) {κ : SeqKind} {root : Str} {Γ : List TDecl} (hN : Names Γ root) {n : Node}
    (ht : Tidy E.S κ n) (hn : NodeAll (NeatHdr root) n) (hd : ∀ d ∈ (n.abs E).decls, Defines Γ d.name d.body)
    (htd : isTypedDict E.S n = true) {t : Ty} {ks : List Key} {vs : List Val} (hl : ks.length = vs.length)
    (hreq : ∀ f doc es, (n.abs E).body = .record f doc es → ∀ e ∈ es, e.required = true → Key.str e.key ∈ ks)
    {w : Val} (hw : ∀ kv ∈ ks.zip vs, kv ∈ w.items) (hf : Fits κ (n.hash E.S) w) :
    Admits Γ (aref (n.abs E)) (.map .dict t ks vs) := by
  obtain ⟨data, m, hk, hty⟩ := isTypedDict_kind htd
  cases n with
  | mk h kids =>
    have hk : h.kind = .dict data m := hk
    simp only [Tidy] at ht
    simp only [NodeAll] at hn
    have hwf := nodes_wf hE (root := root) kids (tidyList_trim kids ht.2.2) hn.2
    have hi := tidy_iterate (E := E) ht.1 ht.2.1
    have hrec := nodes_admits hE (κ := κ) hN kids ht.2.2 hn.2 (by
      intro k hk d hkd
      exact hd d (decls_kid hi (by rw [absList_eq_map]; exact List.mem_map_of_mem hk) hkd))
    have hT := ht.1
    unfold TidyHdr at hT
    rw [hk] at hT
    obtain ⟨a1, a2, a3, _, _⟩ := hT
    simp only [Node.hash, hashList_eq_map, hashOf, hk] at hf
    rw [if_pos hty] at hf
    simp only [Fits] at hf
    have hp : ((Node.mk h kids).abs E).perm = true := by
      simp [Node.abs, aCombine, permOf, hk, hty]
    have hb : ((Node.mk h kids).abs E).body = recordBody E data m ((h.slots.map (·.key)).zip (absList E kids)) := by
      simp only [Node.abs, aCombine, aBody, hk, hty, if_true]
    have hdf : Defines Γ h.name ((Node.mk h kids).abs E).body := hd ⟨h.name, aBody E h (absList E kids)⟩ (decls_self hp)
    rw [hb] at hdf
    have hr : aref ((Node.mk h kids).abs E) = .name h.name := by
      unfold aref
      rw [if_pos hp]
      rfl
    rw [hr]
    rcases hf with ⟨ty, es, rfl, _, _⟩ | ⟨ty, ks', vs', rfl, hne, hlen, hit, _⟩
    · have : ks = [] := by
        cases ks with
        | nil => rfl
        | cons k ks =>
          cases vs with
          | nil => simp at hl
          | cons v vs =>
            have := hw (k, v) (by simp)
            simp [Val.items] at this
      subst this
      have hvs : vs = [] := by
        cases vs with
        | nil => rfl
        | cons => simp at hl
      subst hvs
      exact .record hdf (fun e he hr => hreq _ _ _ hb e he hr) (by simp) (by simp)
    · have hit' : ∀ kv ∈ ks.zip vs, ∃ x k, (x, k) ∈ (h.slots.map (·.key)).zip kids ∧ x = kv.1 ∧ Fits κ (k.hash E.S) kv.2 := by
        intro kv hkv
        obtain ⟨x, hx, hok⟩ := fitsItem_iff.mp (hit kv (hw kv hkv))
        obtain ⟨⟨k1, h1⟩, hkh, rfl⟩ := List.mem_map.mp hx
        rw [List.zip_map_right] at hkh
        obtain ⟨⟨x, k⟩, hxk, e⟩ := List.mem_map.mp hkh
        simp only [Prod.map, Prod.mk.injEq, id] at e
        obtain ⟨rfl, rfl⟩ := e
        exact ⟨_, k, hxk, hok.1, hok.2⟩
      refine .record hdf (fun e he hr => hreq _ _ _ hb e he hr) ?_ ?_
      · intro key hkey
        obtain ⟨i, hi1, rfl⟩ := List.mem_iff_getElem.mp hkey
        obtain ⟨x, k, hxk, ex, _⟩ := hit' (ks[i], vs[i]'(by omega)) (by
          rw [List.mem_iff_getElem]
          exact ⟨i, by simp only [List.length_zip]; omega, by simp⟩)
        obtain ⟨sl, hsl, hse⟩ := List.mem_map.mp (List.of_mem_zip hxk).1
        obtain ⟨s, hs⟩ := isTyped_str hty _ (a3 sl hsl).2
        rw [hse] at hs
        subst hs
        refine ⟨aEntry E m s (k.abs E), mem_aEntries.mpr ⟨s, k.abs E, ?_, rfl⟩, ex.symm⟩
        rw [absList_eq_map, List.zip_map_right]
        exact List.mem_map.mpr ⟨(.str s, k), hxk, rfl⟩
      · rintro ⟨key, v⟩ hkv e he hke
        obtain ⟨s, a, hm, rfl⟩ := mem_aEntries.mp he
        rw [absList_eq_map, List.zip_map_right] at hm
        obtain ⟨⟨x, k⟩, hxk, e⟩ := List.mem_map.mp hm
        simp only [Prod.map, Prod.mk.injEq, id] at e
        obtain ⟨rfl, rfl⟩ := e
        obtain ⟨x, k', hxk', ex, hfk⟩ := hit' _ hkv
        have hx' : x = .str s := by
          dsimp only at ex hke
          rw [ex, hke]
          rfl
        subst hx'
        have hkk := zip_unique a2 hxk hxk'
        subst hkk
        have hadm := hrec k (List.of_mem_zip hxk).2 v hfk
        simp only [aEntry]
        split
        · rename_i hpk
          rw [toCamel_camelName (hwf k (List.of_mem_zip hxk).2).2.1]
          unfold aref at hadm
          rw [if_pos hpk] at hadm
          exact hadm
        · exact hadm

theorem dictOf_items' (d : Dct) : (dictOf d).items = d.map (fun kv => (Key.str kv.1, kv.2)) := dictOf_items d

/-- The children of a sequence of dictionaries whose shared keys hold values of the same shape. -/
theorem mergeable_children {E : Env} (hE : E.Fair) (hS : E.S.dict = .typedDict) {κ : SeqKind}
    {ds : List Dct} {f : Nat} {parent : Str} {slots : List Slot} {kids : List Node} (hd : ∀ d ∈ ds, IsDict d)
    (ht : ∀ d ∈ ds, Tame E.S κ (dictOf d)) (hs : SharedShapes ds)
    (hl : limit E.S.checkMax (ds.map dictOf) = ds.map dictOf)
    (h : setChildren E (build E f false) parent (ds.map dictOf) = .ok (slots, kids)) :
    slots = kids.map (fun _ => Slot.seq 1) ∧ (∀ k ∈ kids, Tidy E.S κ k) ∧
    ((∀ d ∈ ds, ∃ k ∈ kids, Stands E.S κ (dictOf d) k) ∨
     ∃ n, kids = [n] ∧ RecNode E ds n ∧ isTypedDict E.S n = true ∧
      ∀ d ∈ ds, ∃ w, (∀ kv ∈ (dictOf d).items, kv ∈ w.items) ∧ Fits κ (n.hash E.S) w) := by
  have hgood : RecGood E.S κ (build E f false) := fun nm v n hv hb => build_good hE f false nm v n hv hb
  have hrecd : ∀ d : Dct, IsRecord E.S (dictOf d) := by
    intro d
    refine ⟨hS, ?_⟩
    intro k hk
    obtain ⟨kv, _, rfl⟩ := List.mem_map.mp hk
    rfl
  have hshown : ∀ d ∈ ds, ∀ kv ∈ d, kv.1 ∈ shown d := by
    intro d hdm kv hkv
    rw [shown, mem_visible]
    refine ⟨List.mem_map_of_mem hkv, ?_⟩
    exact (tame_dict (ht d hdm)).1.2.2.2.2.1 _ (List.mem_map_of_mem hkv)
  unfold setChildren at h
  rw [hl] at h
  cases hf : foldE (setStep E (build E f false) parent) ([], []) (ds.map dictOf) with
  | error e => rw [hf] at h; cases h
  | ok acc =>
    have inv : SetInv E.S κ (ds.map dictOf) acc.1 := foldE_inv_mem (I := fun done b => SetInv E.S κ done b.1)
      ⟨by simp, by simp, by simp⟩
      (fun done a b b' ha hb hst => setStep_inv hgood (by
        obtain ⟨d, hdm, rfl⟩ := List.mem_map.mp ha
        exact ht d hdm) hb hst) hf
    obtain ⟨ks, names⟩ := acc
    rw [hf] at h
    have I : FoldInv E ds ds ks names := by
      have := foldInv_all (pool := ds) (done := []) (r := (ks, names)) hS (fun d hd' => ⟨hd d hd', hd'⟩)
        (acc := ([], [])) ⟨by simp, by simp, rfl, by simp, by simp, by simp⟩ hf
      simpa using this
    have hfil : ∀ i, (E.order i ks).filter (isTypedDict E.S) = E.order i ks := by
      intro i
      rw [List.filter_eq_self]
      intro k hk
      obtain ⟨d, _, hr⟩ := I.rep k ((hE i ks).mem_iff.mp hk)
      exact hr.typed hS
    have hrep : ∀ i, ∀ k ∈ E.order i ks, ∃ d ∈ ds, Rep E ds d k := fun i k hk => I.rep k ((hE i ks).mem_iff.mp hk)
    have hcov : ∀ i, ∀ d ∈ ds, ∃ k ∈ E.order i ks, ∃ d' ∈ ds, Rep E ds d' k ∧ ∀ s, s ∈ shown d ↔ s ∈ shown d' := by
      intro i d hd'
      obtain ⟨k, hk, h⟩ := I.cover d hd'
      exact ⟨k, (hE i ks).mem_iff.mpr hk, h⟩
    simp only [bind, Except.bind, hfil] at h
    by_cases hc : shouldMerge E.S (E.order 0 ks) = true
    · simp only [hc, if_true] at h
      cases hmd : mergeDicts (build E f false) (E.order 1 ks) with
      | error e => rw [hmd] at h; cases h
      | ok n =>
        obtain ⟨hr, _⟩ := mergeDicts_spec hS (hrep 1) (hcov 1) hmd
        rw [hmd] at h
        have hnil : ks.filter (fun k => !isTypedDict E.S k) = [] := by
          rw [List.filter_eq_nil_iff]
          intro k hk
          obtain ⟨d, _, hr⟩ := I.rep k hk
          simp [hr.typed hS]
        have hone : E.order 2 [n] = [n] := List.perm_singleton.mp (hE 2 [n])
        simp only [pure, Except.pure, hnil, List.nil_append, hone] at h
        injection h with h
        injection h with h1 h2
        subst h1 h2
        obtain ⟨g1, g2, g3⟩ := mergeDicts_holds hgood (done := ds.map dictOf) (by
            intro e he
            obtain ⟨d, hdm, rfl⟩ := List.mem_map.mp he
            exact ht d hdm) (by
            intro d hd e he _ _ kv hkv kw hkw hkk
            obtain ⟨d, hdm, rfl⟩ := List.mem_map.mp hd
            obtain ⟨e, hem, rfl⟩ := List.mem_map.mp he
            rw [dictOf_items'] at hkv hkw
            obtain ⟨x, hx, rfl⟩ := List.mem_map.mp hkv
            obtain ⟨y, hy, rfl⟩ := List.mem_map.mp hkw
            exact hs d hdm e hem x hx y hy (by simpa using hkk)) (by
            intro k hk
            have hkm := (hE 1 ks).mem_iff.mp hk
            obtain ⟨d, _, hr⟩ := I.rep k hkm
            exact inv.data k hkm (hr.typed hS)) hmd (by
            intro e he _
            obtain ⟨d, hdm, rfl⟩ := List.mem_map.mp he
            obtain ⟨k, hk, d', hd', hr', hss⟩ := hcov 1 d hdm
            refine ⟨k, hk, ?_⟩
            intro kv hkv
            rw [dictOf_items'] at hkv
            obtain ⟨x, hx, rfl⟩ := List.mem_map.mp hkv
            obtain ⟨m', _, hdat, hg, _⟩ := hr'.info
            have hxs := hshown d hdm x hx
            rw [hdat, hg.data x.1 (shown_hidden hxs)]
            exact (hss x.1).mp hxs)
        refine ⟨rfl, by simpa using g1, .inr ⟨n, rfl, hr, g2, ?_⟩⟩
        intro d hdm
        exact g3 _ (List.mem_map_of_mem hdm) (hrecd d)
    · simp only [hc, Bool.false_eq_true, if_false, pure, Except.pure] at h
      injection h with h
      injection h with h1 h2
      subst h1 h2
      refine ⟨rfl, fun k hk => inv.tidy k ((hE 0 _).mem_iff.mp hk), .inl ?_⟩
      intro d hdm
      obtain ⟨k, hk, _, hst⟩ := inv.stands _ (List.mem_map_of_mem hdm)
      exact ⟨k, (hE 0 _).mem_iff.mpr hk, hst⟩

/-- A sequence of dictionaries whose shared keys hold values of the same shape is admitted by its tree. -/
theorem mergeable_admits {E : Env} (hE : E.Fair) (hS : E.S.dict = .typedDict) {κ : SeqKind} (hκ : κ ≠ .tuple)
    {ds : List Dct} {f : Nat} {name : Str} {t : Ty} {n : Node} (hd : ∀ d ∈ ds, IsDict d)
    (ht : ∀ d ∈ ds, Tame E.S κ (dictOf d)) (hs : SharedShapes ds)
    (hl : limit E.S.checkMax (ds.map dictOf) = ds.map dictOf)
    (hfix : ∀ m ∈ py!"int" :: py!"str" :: py!"dict" :: typingNames, ¬ name <+: m)
    (hb : build E (f + 1) true name (.seq κ t (ds.map dictOf)) = .ok n) (hn : NodeAll (NeatHdr name) n) :
    Tidy E.S κ n ∧ (((dedupDecls (n.abs E).emitted).map (·.name)).Nodup →
      Admits (dedupDecls (n.abs E).emitted) (.name name) (.seq κ t (ds.map dictOf))) := by
  rw [build_seq] at hb
  split at hb
  rotate_left
  · cases hb
  rw [if_neg (fun e => hκ e.1)] at hb
  split at hb
  rotate_left
  · cases hb
  rename_i slots kids hc
  cases hb
  obtain ⟨h1, h2, h3⟩ := mergeable_children hE hS hd ht hs hl hc
  have hT : TidyHdr E.S κ ⟨.seq κ, name, true, t, slots⟩ := by
    refine ⟨.inl rfl, ?_⟩
    intro sl hsl
    rw [h1] at hsl
    obtain ⟨_, _, rfl⟩ := List.mem_map.mp hsl
    simp [Slot.seq]
  have hlen : slots.length = kids.length := by rw [h1, List.length_map]
  have htd : Tidy E.S κ (.mk ⟨.seq κ, name, true, t, slots⟩ kids) := ⟨hT, hlen, tidyList_iff.mpr h2⟩
  refine ⟨htd, fun hnd => ?_⟩
  rcases h3 with h3 | ⟨n, rfl, hr, hty, hw⟩
  · refine root_admits hE htd hn rfl rfl hfix ?_ hnd
    have : (Node.mk ⟨.seq κ, name, true, t, slots⟩ kids).hash E.S = .set (kids.map fun n => n.hash E.S) := by
      simp only [Node.hash, hashList_eq_map]
      unfold hashOf
      cases κ with
      | tuple => exact absurd rfl hκ
      | _ => rfl
    rw [this]
    simp only [Fits]
    refine .inl ⟨t, _, rfl, ?_, ?_⟩
    · intro x hx
      obtain ⟨k, hkm, rfl⟩ := List.mem_map.mp hx
      exact tidy_plainH (h2 k hkm)
    · intro e he
      obtain ⟨d, hdm, rfl⟩ := List.mem_map.mp he
      obtain ⟨k, hk, hst⟩ := h3 d hdm
      exact fitsSome_iff.mpr ⟨_, List.mem_map_of_mem hk, hst _ (tame_refl _ (ht d hdm))⟩
  · obtain ⟨_, g2, g3⟩ := root_texts hE (tidy_trim _ htd) hn rfl
    have hN : Names (dedupDecls ((Node.mk ⟨.seq κ, name, true, t, slots⟩ [n]).abs E).emitted) name :=
      ⟨hfix, by rintro x ⟨d, hd, rfl⟩; exact (g2 d hd).2⟩
    have hi := tidy_iterate (E := E) hT hlen
    have hn' := hn
    simp only [NodeAll, NodeAllList] at hn'
    have hkid : ∀ e ∈ ds.map dictOf, Admits (dedupDecls ((Node.mk ⟨.seq κ, name, true, t, slots⟩ [n]).abs E).emitted) (aref (n.abs E)) e := by
      intro e he
      obtain ⟨d, hdm, rfl⟩ := List.mem_map.mp he
      obtain ⟨w, hw1, hw2⟩ := hw d hdm
      refine record_admits hE hN (h2 n (by simp)) hn'.2.1 ?_ hty (by simp) ?_ hw1 hw2
      · intro x hx
        exact defines_of_nodup hnd (g3 x (decls_kid hi (by simp [absList]) hx))
      · intro f' doc es hbody e he hreq
        obtain ⟨_, f2, doc2, es2, hbody2, _, hq⟩ := recNode_abs hS hr
        rw [hbody] at hbody2
        cases hbody2
        have := hq e he
        rw [hreq] at this
        have hc := of_decide_eq_true this.symm
        have := (mem_commonKeys (List.ne_nil_of_mem hdm)).mp hc d hdm
        rw [shown, mem_visible] at this
        obtain ⟨kv, hkv, hkk⟩ := List.mem_map.mp this.1
        exact List.mem_map.mpr ⟨kv, hkv, by rw [hkk]⟩
    have hdf := defines_of_nodup hnd (g3 ⟨name, aBody E ⟨.seq κ, name, true, t, slots⟩ (absList E [n])⟩ (decls_self (root_decl (E := E) (n := .mk ⟨.seq κ, name, true, t, slots⟩ [n]) rfl).1))
    rw [seqCon_of rfl hκ, hi] at hdf
    refine .alias hdf (.app (hN.shadow _ seqCon_typing) (seqCon_fits hκ) ?_)
    intro e he
    refine aAlias_admits hN ?_ (k := n.abs E) (by simp [absList]) (hkid e he)
    intro a ha
    simp only [absList, List.mem_singleton] at ha
    subst ha
    exact (node_wf hE n (tidy_trim _ (h2 n (by simp))) hn'.2.1).1

end Verif
