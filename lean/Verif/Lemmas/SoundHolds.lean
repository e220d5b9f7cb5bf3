import Verif.Lemmas.Sound
import Verif.Lemmas.HoldsBuild
/-
The declarations of a tree admit the values its nodes describe.
-/
namespace Verif
open Verif.Spec

theorem mapNode_con {S : Strategies} {h : Hdr} {k : MapKind} (ht : TrimHdr S h) (hk : MapNode S h k) :
    mappingFits k (mapCon S h.ty) = true ∧ mapCon S h.ty ∈ typingNames := by
  unfold TrimHdr at ht
  rcases hk with ⟨e, rfl⟩ | ⟨rfl, data, m, e, _⟩
  · rw [e] at ht
    unfold mapCon
    rw [if_pos ht.1]
    exact ⟨by decide, by decide⟩
  · rw [e] at ht
    exact mapCon_fits ht.1

theorem mapNode_body {E : Env} {h : Hdr} {k : MapKind} (hk : MapNode E.S h k) (kids : List AOut) :
    aBody E h kids = .alias (mapExpr E h (iterate h.slots kids)) := by
  rcases hk with ⟨e, rfl⟩ | ⟨rfl, data, m, e, hm⟩
  · simp only [aBody, e]
  · simp only [aBody, e, hm, if_false, Bool.false_eq_true]

theorem zip_get_left {α β} {ks : List α} {vs : List β} (h : ks.length = vs.length) {k : α} (hk : k ∈ ks) : ∃ v, (k, v) ∈ ks.zip vs := by
  obtain ⟨i, hi, rfl⟩ := List.mem_iff_getElem.mp hk
  exact ⟨vs[i]'(by omega), List.mem_iff_getElem.mpr ⟨i, by simp only [List.length_zip]; omega, by simp⟩⟩

theorem zip_get_right {α β} {ks : List α} {vs : List β} (h : ks.length = vs.length) {v : β} (hv : v ∈ vs) : ∃ k, (k, v) ∈ ks.zip vs := by
  obtain ⟨i, hi, rfl⟩ := List.mem_iff_getElem.mp hv
  exact ⟨ks[i]'(by omega), List.mem_iff_getElem.mpr ⟨i, by simp only [List.length_zip]; omega, by simp⟩⟩

theorem trim_setup {E : Env} (hE : E.Fair) {root : Str} {Γ : List TDecl} (h : Hdr) (kids : List Node) (ht : Trim E.S (.mk h kids))
    (hn : NodeAll (NeatHdr root) (.mk h kids)) (hd : ∀ d ∈ ((Node.mk h kids).abs E).decls, Defines Γ d.name d.body) :
    iterate h.slots (absList E kids) = absList E kids ∧ (∀ a ∈ absList E kids, WFT (aref a)) ∧
      (∀ k ∈ kids, k.abs E ∈ absList E kids ∧ Trim E.S k ∧ NodeAll (NeatHdr root) k ∧ CamelName (k.abs E).name ∧
        ∀ d ∈ (k.abs E).decls, Defines Γ d.name d.body) ∧
      (((Node.mk h kids).abs E).perm = true → Defines Γ ((Node.mk h kids).abs E).name ((Node.mk h kids).abs E).body) := by
  simp only [Trim] at ht
  simp only [NodeAll] at hn
  have hw := nodes_wf hE (root := root) kids ht.2.2 hn.2
  have hi := trim_iterate (E := E) ht.1 ht.2.1
  have hmem : ∀ k ∈ kids, k.abs E ∈ absList E kids := by
    intro k hk; rw [absList_eq_map]; exact List.mem_map_of_mem hk
  refine ⟨hi, ?_, ?_, ?_⟩
  · intro a ha
    rw [absList_eq_map] at ha
    obtain ⟨k, hkm, rfl⟩ := List.mem_map.mp ha
    exact (hw k hkm).1
  · intro k hk
    exact ⟨hmem k hk, trimList_iff.mp ht.2.2 k hk, nodeAllList_iff.mp hn.2 k hk, (hw k hk).2.1,
      fun d hkd => hd d (decls_kid hi (hmem k hk) hkd)⟩
  · intro hp
    exact hd ⟨h.name, aBody E h (absList E kids)⟩ (decls_self hp)

/-- The entries of a TypedDict and its children. -/
theorem entry_kid {E : Env} {m : DMeta} {ks : List Key} {kids : List Node} {s : Str} {k : Node} (hm : (Key.str s, k) ∈ ks.zip kids) :
    aEntry E m s (k.abs E) ∈ aEntries E m (ks.zip (absList E kids)) := by
  refine mem_aEntries.mpr ⟨s, k.abs E, ?_, rfl⟩
  rw [absList_eq_map, List.zip_map_right]
  exact List.mem_map_of_mem hm

theorem kid_entry {E : Env} {m : DMeta} {ks : List Key} {kids : List Node} {e : Entry} (he : e ∈ aEntries E m (ks.zip (absList E kids))) :
    ∃ s k, (Key.str s, k) ∈ ks.zip kids ∧ e = aEntry E m s (k.abs E) := by
  obtain ⟨s, a, hm, rfl⟩ := mem_aEntries.mp he
  rw [absList_eq_map, List.zip_map_right] at hm
  obtain ⟨⟨x, k⟩, hxk, e⟩ := List.mem_map.mp hm
  simp only [Prod.map, Prod.mk.injEq, id] at e
  obtain ⟨rfl, rfl⟩ := e
  exact ⟨s, k, hxk, rfl⟩

theorem holds_admits {E : Env} (hE : E.Fair) {root : Str} {Γ : List TDecl} (hN : Names Γ root) {n : Node} {v : Val} (hf : Holds E.S n v) :
    Trim E.S n → NodeAll (NeatHdr root) n → (∀ d ∈ (n.abs E).decls, Defines Γ d.name d.body) → Admits Γ (aref (n.abs E)) v := by
  induction hf with
  | @leaf h kids v hl =>
    intro ht hn hd
    obtain ⟨hi, _, _, hdef⟩ := trim_setup hE h kids ht hn hd
    have hT := ht.1
    unfold TrimHdr at hT
    cases v with
    | inst t x =>
      obtain ⟨hk, hty⟩ := hl
      refine aref_admits (t := atom E h.ty) ?_ hdef ?_
      · simp only [Node.abs, aCombine, aBody, hk]
      · rw [hty]
        exact atom_admits E hN.shadow (.inst t x) (hN.ty (show TyP root t from hty ▸ hn.1.2.1))
    | cls t c =>
      have hk : h.kind = .cls c := hl
      refine aref_admits (t := .app py!"Type" (if E.isBuiltin c then .name c else .quoted c)) ?_ hdef ?_
      · simp only [Node.abs, aCombine, aBody, hk]
      · refine .typeOf (hN.shadow _ (by decide)) (fun hd => hn.1.2.2.2 c hk (hN.pfx _ hd)) ?_
        split
        · exact .inl rfl
        · exact .inr rfl
    | module t =>
      have hk : h.kind = .module := hl
      refine aref_admits (t := .name py!"ModuleType") ?_ hdef (.module (hN.shadow _ (by decide)))
      simp only [Node.abs, aCombine, aBody, hk]
    | io t =>
      have hk : h.kind = .io := hl
      refine aref_admits (t := .name py!"TextIO") ?_ hdef (.file (hN.shadow _ (by decide)))
      simp only [Node.abs, aCombine, aBody, hk]
    | ndarray t d =>
      have hk : h.kind = .ndarray d := hl
      refine aref_admits (t := .quoted (py!"NDArray[np." ++ d ++ py!"]")) ?_ hdef
        (.array (hN.shadow _ (by decide)) (hN.shadow _ (by decide)))
      simp only [Node.abs, aCombine, aBody, hk]
    | func f =>
      obtain ⟨g, hk, hg, hp⟩ := hl
      rcases hg with hs | ⟨hlam, text, m, hs⟩
      · refine aref_admits (t := .name py!"Callable") ?_ hdef (.function (hN.shadow _ (by decide)))
        simp only [Node.abs, aCombine, aBody, hk, funcBody, hs]
      · refine aref_admits (t := .callable m) ?_ hdef (.callable (hN.shadow _ (by decide)) (hN.shadow _ (by decide)) ?_)
        · simp only [Node.abs, aCombine, aBody, hk, funcBody, hs, hlam, if_true]
        · rw [← hp]
          simp only [paramCount, hs]
    | _ => exact hl.elim
  | @tuple h kids t es hk hS hl _ ih =>
    intro ht hn hd
    obtain ⟨hi, hw1, hkid, hdef⟩ := trim_setup hE h kids ht hn hd
    refine aref_admits (t := aTuple E.S (absList E kids)) ?_ hdef ?_
    · simp only [Node.abs, aCombine, aBody, hk, hi]
    · unfold aTuple
      rw [hS]
      dsimp only
      split
      · exact .tupleOf (hN.shadow _ (by decide)) (fun e _ => .any e (hN.shadow _ (by decide)))
      · rename_i hne
        have hkne : kids ≠ [] := by
          rintro rfl
          exact hne rfl
        have hat : aTypes (absList E kids) = kids.map (fun k => aref (k.abs E)) := by
          unfold aTypes
          rw [if_neg (by rw [absList_eq_map]; simpa using hkne), absList_eq_map, List.map_map]
          rfl
        rw [hat]
        refine .tuple (hN.shadow _ (by decide)) (by simpa using hl) ?_
        rintro ⟨t, e⟩ hp
        rw [List.zip_map_left] at hp
        obtain ⟨⟨k, e'⟩, hke, he⟩ := List.mem_map.mp hp
        simp only [Prod.map, Prod.mk.injEq, id] at he
        obtain ⟨rfl, rfl⟩ := he
        obtain ⟨_, g1, g2, _, g3⟩ := hkid k (List.of_mem_zip hke).1
        exact ih (k, e') hke g1 g2 g3
  | @seq h kids k t es R hk hpl _ h1 ih =>
    intro ht hn hd
    obtain ⟨hi, hw1, hkid, hdef⟩ := trim_setup hE h kids ht hn hd
    have hel : ∀ e ∈ es, Admits Γ (aAlias (absList E kids)) e := by
      intro e he
      obtain ⟨n, hnm, hr⟩ := h1 e he
      obtain ⟨g0, g1, g2, _, g3⟩ := hkid n hnm
      exact aAlias_admits hN hw1 g0 (ih n e hr g1 g2 g3)
    by_cases hkt : k = .tuple
    · subst hkt
      refine aref_admits (t := aTuple E.S (absList E kids)) ?_ hdef ?_
      · simp only [Node.abs, aCombine, aBody, hk, hi]
      · unfold aTuple
        split
        · rename_i hS
          exact absurd ⟨rfl, hS⟩ hpl
        · exact .tupleOf (hN.shadow _ (by decide)) hel
    · refine aref_admits (t := .app (seqCon E.S k) (aAlias (absList E kids))) ?_ hdef ?_
      · show aBody E h (absList E kids) = _
        rw [seqCon_of hk hkt, hi]
      · exact .app (hN.shadow _ seqCon_typing) (seqCon_fits hkt) hel
  | @record h kids data m t ks vs R hk hty hl _ h1 h2 ih =>
    intro ht hn hd
    obtain ⟨hi, hw1, hkid, hdef⟩ := trim_setup hE h kids ht hn hd
    have hT := ht.1
    unfold TrimHdr at hT
    rw [hk] at hT
    obtain ⟨_, _, a2, a3, _, _⟩ := hT
    have hp : ((Node.mk h kids).abs E).perm = true := by
      simp [Node.abs, aCombine, permOf, hk, hty]
    have hb : ((Node.mk h kids).abs E).body = recordBody E data m ((h.slots.map (·.key)).zip (absList E kids)) := by
      simp only [Node.abs, aCombine, aBody, hk, hty, if_true]
    have hdf := hdef hp
    rw [hb] at hdf
    have hr : aref ((Node.mk h kids).abs E) = .name h.name := by
      unfold aref
      rw [if_pos hp]
      rfl
    rw [hr]
    have hent : ∀ s k, (Key.str s, k) ∈ (h.slots.map (·.key)).zip kids →
        aEntry E m s (k.abs E) ∈ aEntries E m ((h.slots.map (·.key)).zip (absList E kids)) := fun _ _ => entry_kid
    have hback : ∀ e ∈ aEntries E m ((h.slots.map (·.key)).zip (absList E kids)), ∃ s k,
        (Key.str s, k) ∈ (h.slots.map (·.key)).zip kids ∧ e = aEntry E m s (k.abs E) := fun _ => kid_entry
    refine .record hdf ?_ ?_ ?_
    · intro e he hre
      obtain ⟨s, k, hxk, rfl⟩ := hback e he
      obtain ⟨sl, hsl, hse⟩ := List.mem_map.mp (List.of_mem_zip hxk).1
      have := h1 sl hsl
      rw [hse] at this
      exact this hre
    · intro key hkey
      obtain ⟨w, hw⟩ := zip_get_left hl hkey
      obtain ⟨n, hxk, _⟩ := h2 _ hw
      obtain ⟨sl, hsl, hse⟩ := List.mem_map.mp (List.of_mem_zip hxk).1
      obtain ⟨s, hs⟩ := isTyped_str hty _ (a3 sl hsl).2
      rw [hse] at hs
      dsimp only at hs
      subst hs
      exact ⟨_, hent s n hxk, rfl⟩
    · rintro ⟨key, w⟩ hkv e he hke
      obtain ⟨s, k, hxk, rfl⟩ := hback e he
      obtain ⟨k', hxk', hr'⟩ := h2 _ hkv
      dsimp only [aEntry] at hxk' hr' hke
      subst hke
      have hkk := zip_unique a2 hxk hxk'
      subst hkk
      obtain ⟨_, g1, g2, gc, g3⟩ := hkid k (List.of_mem_zip hxk).2
      have hadm := ih k w hr' g1 g2 g3
      simp only [aEntry]
      split
      · rename_i hpk
        rw [toCamel_camelName gc]
        unfold aref at hadm
        rw [if_pos hpk] at hadm
        exact hadm
      · exact hadm
  | @frame h kids i i' t ks vs R hk hl _ h1 h2 ih =>
    intro ht hn hd
    obtain ⟨hi, hw1, hkid, hdef⟩ := trim_setup hE h kids ht hn hd
    have hT := ht.1
    unfold TrimHdr at hT
    rw [hk] at hT
    obtain ⟨a1, a2, a3⟩ := hT
    have hnp : ¬ Declared Γ py!"pd.DataFrame" := hN.shadow _ (by decide)
    have hp : ((Node.mk h kids).abs E).perm = true := by
      simp [Node.abs, aCombine, permOf, hk, a1]
    have hb : ((Node.mk h kids).abs E).body = frameBody E ((h.slots.map (·.key)).zip (absList E kids)) := by
      simp only [Node.abs, aCombine, aBody, hk]
    by_cases hz : (h.slots.map (·.key)).zip (absList E kids) = []
    · exact aref_admits (t := .name py!"pd.DataFrame") (by rw [hb, hz]; rfl) hdef (.anyFrame hnp)
    · obtain ⟨ovs, rest, e1, _, hov⟩ := frameBody_plain hE (fun kk hkk => by
        obtain ⟨s, hs, e⟩ := List.mem_map.mp (List.of_mem_zip (show (kk.1, kk.2) ∈ _ from hkk)).1
        rw [← e]
        exact a3 s hs) hz
      have hdf := hdef hp
      rw [hb, e1] at hdf
      have hr : aref ((Node.mk h kids).abs E) = .name h.name := by
        unfold aref
        rw [if_pos hp]
        rfl
      rw [hr]
      have hback : ∀ o ∈ ovs, ∃ key n, (key, n) ∈ (h.slots.map (·.key)).zip kids ∧ Labels key o.1 ∧ o.2 = aref (n.abs E) := by
        intro o ho
        obtain ⟨⟨key, a⟩, hm, h3, _, h4⟩ := hov.mem_right o ho
        rw [absList_eq_map, List.zip_map_right] at hm
        obtain ⟨⟨x, k⟩, hxk, e⟩ := List.mem_map.mp hm
        simp only [Prod.map, Prod.mk.injEq, id] at e
        obtain ⟨rfl, rfl⟩ := e
        exact ⟨x, k, hxk, h3, h4⟩
      refine .frame hdf hnp ?_ ?_ ?_
      · intro o ho
        obtain ⟨key, n, hm, h3, _⟩ := hback o ho
        obtain ⟨sl, hsl, hse⟩ := List.mem_map.mp (List.of_mem_zip hm).1
        exact ⟨key, hse ▸ h1 sl hsl, h3⟩
      · intro key hkey
        obtain ⟨w, hw⟩ := zip_get_left hl hkey
        obtain ⟨n, hxk, _⟩ := h2 _ hw
        have hm : (key, n.abs E) ∈ (h.slots.map (·.key)).zip (absList E kids) := by
          rw [absList_eq_map, List.zip_map_right]
          exact List.mem_map_of_mem (f := Prod.map id (Node.abs E)) hxk
        obtain ⟨o, ho, h3, _⟩ := hov.mem_left _ hm
        exact ⟨o, ho, h3⟩
      · rintro ⟨key, w⟩ hkv o ho hlab
        obtain ⟨key', n, hm, h3, h4⟩ := hback o ho
        obtain ⟨n', hm', hr'⟩ := h2 _ hkv
        dsimp only at hm' hr' hlab
        have hkk : key' = key := by
          obtain ⟨s, rfl, e⟩ := hlab
          obtain ⟨s', rfl, e'⟩ := h3
          rw [e] at e'
          have := List.append_cancel_left (List.append_cancel_right e')
          rw [this]
        subst hkk
        have := zip_unique a2 hm hm'
        subst this
        obtain ⟨_, g1, g2, _, g3⟩ := hkid n (List.of_mem_zip hm).2
        rw [h4]
        exact ih n w hr' g1 g2 g3
  | @mapping h kids k t ks vs R hk hl _ h2 ih =>
    intro ht hn hd
    obtain ⟨hi, hw1, hkid, hdef⟩ := trim_setup hE h kids ht hn hd
    refine aref_admits (t := mapExpr E h (absList E kids)) ?_ hdef ?_
    · show aBody E h (absList E kids) = _
      rw [mapNode_body hk, hi]
    · have hfit := mapNode_con ht.1 hk
      refine .mapping (hN.shadow _ hfit.2) hfit.1 ?_ ?_
      · intro key hkey
        obtain ⟨w, hw⟩ := zip_get_left hl hkey
        obtain ⟨⟨x, n⟩, hp, e, _⟩ := h2 _ hw
        dsimp only at e
        rw [← e]
        refine keyExpr_admits hN ?_ (List.of_mem_zip hp).1
        intro k hk
        obtain ⟨s, hs, rfl⟩ := List.mem_map.mp hk
        exact hn.1.2.2.1 s hs
      · intro w hw
        obtain ⟨key, hkw⟩ := zip_get_right hl hw
        obtain ⟨⟨x, n⟩, hp, _, hr⟩ := h2 _ hkw
        obtain ⟨g0, g1, g2, _, g3⟩ := hkid n (List.of_mem_zip hp).2
        exact aAlias_admits hN hw1 g0 (ih n w hr g1 g2 g3)

/-- The tree of neat data admits the values it describes, under the declarations that are read back. -/
theorem root_holds {E : Env} (hE : E.Fair) {name : Str} {n : Node} {v : Val} (ht : Trim E.S n) (hn : NodeAll (NeatHdr name) n)
    (hr : n.hdr.root = true) (hnm : n.name = name) (hfix : ∀ m ∈ py!"int" :: py!"str" :: py!"dict" :: typingNames, ¬ name <+: m)
    (hfit : Holds E.S n v) (hnd : ((dedupDecls (n.abs E).emitted).map (·.name)).Nodup) :
    Admits (dedupDecls (n.abs E).emitted) (.name name) v := by
  obtain ⟨_, h2, h3⟩ := root_texts hE ht hn hr
  have hN : Names (dedupDecls (n.abs E).emitted) name := ⟨hfix, by rintro x ⟨d, hd, rfl⟩; exact (h2 d hd).2⟩
  have := holds_admits hE hN hfit ht hn (fun d hd => defines_of_nodup hnd (h3 d hd))
  unfold aref at this
  rw [if_pos (root_decl hr).1, abs_name, hnm] at this
  exact this

end Verif
