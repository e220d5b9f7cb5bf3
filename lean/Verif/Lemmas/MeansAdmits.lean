import Verif.Lemmas.SoundHolds
/-
The declarations of a tree admit only the values that its nodes stand for.
-/
namespace Verif
open Verif.Spec

theorem not_declared_nil {n : Str} : ¬ Declared [] n := fun ⟨_, h, _⟩ => by cases h

/-- An identifier that is not declared means the same without declarations. -/
theorem admits_nil_name {Γ : List TDecl} {n : Str} {v : Val} (h : Admits Γ (.name n) v) (hd : ¬ Declared Γ n) : Admits [] (.name n) v := by
  generalize ht : TExpr.name n = t at h
  cases h with
  | any _ h => exact .any _ not_declared_nil
  | cls _ h => exact .cls _ not_declared_nil
  | promote _ h h' => exact .promote _ not_declared_nil h'
  | module h => exact .module not_declared_nil
  | file h => exact .file not_declared_nil
  | function h => exact .function not_declared_nil
  | anyFrame h => exact .anyFrame not_declared_nil
  | frame h => injection ht with ht; subst ht; exact absurd ⟨_, h.1, rfl⟩ hd
  | alias h1 h2 => injection ht with ht; subst ht; exact absurd ⟨_, h1.1, rfl⟩ hd
  | record h1 h2 h3 h4 => injection ht with ht; subst ht; exact absurd ⟨_, h1.1, rfl⟩ hd
  | _ => cases ht

theorem admits_frame_inv {Γ : List TDecl} {n : Str} {ovs : List (Str × TExpr)} {rest : Str} {v : Val} (h : Admits Γ (.name n) v)
    (hdef : Defines Γ n (.frame ovs rest)) : ∃ i ty ks vs, v = .map (.frame i) ty ks vs ∧ (∀ o ∈ ovs, ∃ k ∈ ks, Labels k o.1) ∧
      (∀ k ∈ ks, ∃ o ∈ ovs, Labels k o.1) ∧ ∀ kv ∈ ks.zip vs, ∀ o ∈ ovs, Labels kv.1 o.1 → Admits Γ o.2 kv.2 := by
  have hd : Declared Γ n := ⟨_, hdef.1, rfl⟩
  generalize ht : TExpr.name n = t at h
  cases h with
  | any _ h => injection ht with ht; subst ht; exact absurd hd h
  | cls _ h => injection ht with ht; subst ht; exact absurd hd h
  | promote _ h h' => injection ht with ht; subst ht; exact absurd hd h
  | module h => injection ht with ht; subst ht; exact absurd hd h
  | file h => injection ht with ht; subst ht; exact absurd hd h
  | function h => injection ht with ht; subst ht; exact absurd hd h
  | anyFrame h => injection ht with ht; subst ht; exact absurd hd h
  | frame h1 _ h2 h3 h4 =>
    injection ht with ht
    subst ht
    have := defines_unique hdef h1
    cases this
    exact ⟨_, _, _, _, rfl, h2, h3, h4⟩
  | alias h1 h2 => injection ht with ht; subst ht; cases defines_unique hdef h1
  | record h1 h2 h3 h4 => injection ht with ht; subst ht; cases defines_unique hdef h1
  | _ => cases ht

theorem aref_inv {Γ : List TDecl} {a : AOut} {t : TExpr} {v : Val} (hb : a.body = .alias t)
    (hd : a.perm = true → Defines Γ a.name a.body) (h : Admits Γ (aref a) v) : Admits Γ t v := by
  unfold aref at h
  split at h
  · rename_i hp
    have hdf := hd hp
    rw [hb] at hdf
    rcases admits_declared h ⟨_, hdf.1, rfl⟩ with ⟨t', h1, h2⟩ | ⟨_, _, _, _, _, _, _, h1, _⟩ | ⟨_, _, h1⟩
    · have := defines_unique hdf h1
      cases this
      exact h2
    · cases defines_unique hdf h1
    · cases defines_unique hdf h1
  · rw [hb] at h; exact h

theorem unionOf_inv {Γ : List TDecl} {ts : List TExpr} {v : Val} (h : Admits Γ (unionOf ts) v) : ∃ t ∈ ts, Admits Γ t v := by
  unfold unionOf at h
  split at h
  · exact ⟨_, by simp, h⟩
  · cases h with
    | union _ h1 h2 => exact ⟨_, h1, h2⟩

theorem aAlias_inv {Γ : List TDecl} {kids : List AOut} (hw : ∀ k ∈ kids, WFT (aref k)) (hne : kids ≠ []) {v : Val}
    (h : Admits Γ (aAlias kids) v) : ∃ k ∈ kids, Admits Γ (aref k) v := by
  obtain ⟨t, ht, hv⟩ := unionOf_inv h
  unfold aUnique at ht
  obtain ⟨s, hs, rfl⟩ := List.mem_map.mp ht
  have hs := (mem_uniqueTypes.mp hs).1
  have he : aTypes kids = kids.map aref := by
    unfold aTypes
    rw [if_neg (by simpa using hne)]
  rw [he] at hs hv
  obtain ⟨u, hu, rfl⟩ := List.mem_map.mp hs
  rw [pick_eq (by intro t ht; obtain ⟨k, hk, rfl⟩ := List.mem_map.mp ht; exact hw k hk) hu] at hv
  obtain ⟨k, hk, rfl⟩ := List.mem_map.mp hu
  exact ⟨k, hk, hv⟩

theorem keyExpr_inv {Γ : List TDecl} {root : Str} (hN : Names Γ root) {keys : List Key} (hk : ∀ k ∈ keys, KeyP root k) (hne : keys ≠ [])
    {v : Val} (h : Admits Γ (keyExpr keys) v) : ∃ k ∈ keys, Admits [] (.name k.ty.name) v := by
  unfold keyExpr at h
  rw [if_neg (by simpa using hne)] at h
  obtain ⟨t, ht, hv⟩ := unionOf_inv h
  obtain ⟨s, hs, rfl⟩ := List.mem_map.mp ht
  obtain ⟨k, hkm, rfl⟩ := List.mem_map.mp (mem_uniqueTypes.mp hs).1
  exact ⟨k, hkm, admits_nil_name hv (fun hd => (hk k hkm).2 (hN.pfx _ hd))⟩

theorem containerFits_seqCon {S : Strategies} {k k' : SeqKind} (hk : k ≠ .tuple) (h : containerFits k' (seqCon S k) = true) :
    SeqLike S k k' := by
  cases k with
  | tuple => exact absurd rfl hk
  | list =>
    simp only [seqCon] at h
    split at h
    · cases k' <;> first | exact .inl rfl | exact absurd h (by decide)
    · rename_i hS
      cases k' <;> first | exact .inl rfl | exact .inr ⟨rfl, rfl, hS⟩ | exact absurd h (by decide)
  | _ => cases k' <;> first | exact .inl rfl | (simp only [seqCon] at h; exact absurd h (by decide))

theorem seqLike_fits {S : Strategies} {k k' : SeqKind} (hk : k ≠ .tuple) (h : SeqLike S k k') : containerFits k' (seqCon S k) = true := by
  rcases h with rfl | ⟨rfl, rfl, hS⟩
  · exact seqCon_fits hk
  · simp only [seqCon, hS]
    decide

theorem seqLike_tuple {S : Strategies} {k : SeqKind} (h : SeqLike S .tuple k) : k = .tuple := by
  rcases h with h | ⟨h, _⟩
  · exact h
  · cases h

theorem mappingFits_mapCon {S : Strategies} {h : Hdr} {k k' : MapKind} (ht : TrimHdr S h) (hk : MapNode S h k)
    (hf : mappingFits k' (mapCon S h.ty) = true) : MapLike S k k' := by
  unfold TrimHdr at ht
  rcases hk with ⟨e, rfl⟩ | ⟨rfl, data, m, e, _⟩
  · rw [e] at ht
    unfold mapCon at hf
    rw [if_pos ht.1] at hf
    cases k' with
    | proxy => exact .inl rfl
    | dict => exact absurd hf (by decide)
    | frame i => cases hf
  · rw [e] at ht
    unfold mapCon at hf
    rw [if_neg ht.1] at hf
    cases k' with
    | dict => exact .inl rfl
    | frame i => cases hf
    | proxy =>
      refine .inr ⟨rfl, rfl, ?_⟩
      cases hS : S.dict with
      | mapping => rfl
      | _ => rw [hS] at hf; exact absurd hf (by decide)

theorem neat_no_bracket {t : Ty} (h : NeatTy t) : '[' ∉ t.name := by
  intro hm
  have := h.2 _ hm
  revert this; decide

theorem admits_quoted_inv {Γ : List TDecl} {n : Str} {v : Val} (h : Admits Γ (.quoted n) v) (hn : '[' ∉ n) : Admits Γ (.name n) v := by
  generalize ht : TExpr.quoted n = t at h
  cases h with
  | quoted _ h => injection ht with ht; subst ht; exact h
  | array => injection ht with ht; subst ht; exact absurd (by simp) hn
  | _ => cases ht

/-- No child is written `Any`. -/
theorem aref_not_any {E : Env} (hA : E.isBuiltin py!"Any" = false) {root : Str} (hroot : ¬ root <+: py!"Any") {h : Hdr} {kids : List Node}
    (hn : NodeAll (NeatHdr root) (.mk h kids)) (hi : iterate h.slots (absList E kids) = absList E kids) (ht : TrimHdr E.S h) :
    aref ((Node.mk h kids).abs E) ≠ .name py!"Any" := by
  intro e
  unfold aref at e
  split at e
  · injection e with e
    rw [abs_name] at e
    exact hroot (e ▸ hn.1.1.2)
  · rename_i hp
    have hnm : h.name ≠ py!"Any" := fun e' => hroot (e' ▸ hn.1.1.2)
    simp only [Node.abs, aCombine, aBody] at e
    unfold TrimHdr at ht
    cases hk : h.kind with
    | inst =>
      simp only [hk, atom] at e
      split at e
      · cases e
      · split at e
        · rename_i hb
          injection e with e
          rw [e, hA] at hb
          cases hb
        · cases e
    | func f =>
      rw [hk] at ht
      simp only [hk] at e
      rcases ht.2 with hs | ⟨hl, t, m, hs⟩
      · simp [funcBody, hs] at e
      · simp [funcBody, hs, hl] at e
    | seq k =>
      simp only [hk] at e
      cases k with
      | tuple =>
        simp only [aTuple] at e
        split at e
        · split at e <;> cases e
        · cases e
      | _ => cases e
    | dict data m =>
      simp only [hk] at e
      split at e
      · rename_i e'
        cases e
        split at e' <;> cases e'
      · injection e with e; exact hnm e
    | frame i =>
      rw [hk] at ht
      simp [Node.abs, aCombine, permOf, hk, ht.1] at hp
    | _ => simp only [hk] at e; cases e

theorem admits_tuple {Γ : List TDecl} {ts : List TExpr} {v : Val} (h : Admits Γ (.tuple ts) v) :
    ∃ ty es, v = .seq .tuple ty es ∧ ts.length = es.length ∧ ∀ p ∈ ts.zip es, Admits Γ p.1 p.2 := by
  cases h with
  | tuple _ h1 h2 => exact ⟨_, _, rfl, h1, h2⟩

theorem admits_tupleOf {Γ : List TDecl} {t : TExpr} {v : Val} (h : Admits Γ (.tupleOf t) v) :
    ∃ ty es, v = .seq .tuple ty es ∧ ∀ e ∈ es, Admits Γ t e := by
  cases h with
  | tupleOf _ h1 => exact ⟨_, _, rfl, h1⟩

theorem admits_mapping {Γ : List TDecl} {con : Str} {kt vt : TExpr} {v : Val} (h : Admits Γ (.mapping con kt vt) v) :
    ∃ k ty ks vs, v = .map k ty ks vs ∧ mappingFits k con = true ∧ (∀ key ∈ ks, Admits Γ kt (.inst key.ty none)) ∧
      ∀ w ∈ vs, Admits Γ vt w := by
  cases h with
  | mapping _ h1 h2 h3 => exact ⟨_, _, _, _, rfl, h1, h2, h3⟩

mutual
/-- The type of a node has only values that the node stands for. -/
theorem admits_means {E : Env} (hE : E.Fair) (hA : E.isBuiltin py!"Any" = false) {root : Str} {Γ : List TDecl} (hN : Names Γ root)
    (hid : ∀ n, Declared Γ n → Ident n) : ∀ (n : Node), Trim E.S n → NodeAll (NeatHdr root) n →
    (∀ d ∈ (n.abs E).decls, Defines Γ d.name d.body) → ∀ w, Admits Γ (aref (n.abs E)) w → Means E.S n w
  | .mk h kids, ht, hn, hd, w, hw => by
    obtain ⟨hi, hw1, hkid, hdef⟩ := trim_setup hE h kids ht hn hd
    have ih := admits_meansList hE hA hN hid kids
    have ihk : ∀ k ∈ kids, ∀ w, Admits Γ (aref (k.abs E)) w → Means E.S k w := fun k hk w hw => by
      obtain ⟨_, g1, g2, _, g3⟩ := hkid k hk
      exact ih k hk g1 g2 g3 w hw
    have hwf := (node_wf hE (.mk h kids) ht hn).1
    have hT := ht.1
    have hel : kids ≠ [] → ∀ e, Admits Γ (aAlias (absList E kids)) e → ∃ n ∈ kids, Means E.S n e := by
      intro hne e he
      obtain ⟨a, ha, hv⟩ := aAlias_inv hw1 (by rw [absList_eq_map]; simpa using hne) he
      rw [absList_eq_map] at ha
      obtain ⟨k, hk, rfl⟩ := List.mem_map.mp ha
      exact ⟨k, hk, ihk k hk e hv⟩
    have hmap : ∀ k, MapNode E.S h k → Means E.S (.mk h kids) w := by
      intro k hk
      have hv := aref_inv (t := mapExpr E h (absList E kids)) (by
        show aBody E h (absList E kids) = _
        rw [mapNode_body hk, hi]) hdef hw
      obtain ⟨k', ty, ks, vs, rfl, hf, hks, hvs⟩ := admits_mapping hv
      refine .mapping (Means E.S) hk (mappingFits_mapCon hT hk hf) (fun _ _ h => h) ?_ (fun hne w hw => hel hne w (hvs w hw))
      intro hne x hx
      obtain ⟨y, hy, hv⟩ := keyExpr_inv hN (by
        intro k hk
        obtain ⟨s, hs, rfl⟩ := List.mem_map.mp hk
        exact hn.1.2.2.1 s hs) (by simpa using hne) (hks x hx)
      obtain ⟨s, hs, rfl⟩ := List.mem_map.mp hy
      exact ⟨s, hs, hv⟩
    unfold TrimHdr at hT
    cases hk : h.kind with
    | inst =>
      have hv := aref_inv (t := atom E h.ty) (by simp only [Node.abs, aCombine, aBody, hk]) hdef hw
      refine .leaf (t := if h.ty = .noneType then .object else .name h.ty.name) (by simp only [nodeType, hk]) ?_
      have hty : TyP root h.ty := hn.1.2.1
      unfold atom at hv
      split
      · exact .object _ not_declared_nil not_declared_nil
      · rename_i hne
        rw [if_neg hne] at hv
        split at hv
        · exact admits_nil_name hv (hN.ty hty)
        · exact admits_nil_name (admits_quoted_inv hv (neat_no_bracket hty.1)) (hN.ty hty)
    | cls c =>
      have hv := aref_inv (t := .app py!"Type" (if E.isBuiltin c then .name c else .quoted c))
        (by simp only [Node.abs, aCombine, aBody, hk]) hdef hw
      refine .leaf (t := .app py!"Type" (.name c)) (by simp only [nodeType, hk]) ?_
      rcases admits_app hv with ⟨k, ty, es, rfl, hf, _⟩ | ⟨_, m, n, rfl, hc⟩
      · exfalso; cases k <;> (revert hf; decide)
      · have : c = n := by
          split at hc <;> rcases hc with hc | hc <;> cases hc <;> rfl
        subst this
        exact .typeOf not_declared_nil not_declared_nil (.inl rfl)
    | module =>
      have hv := aref_inv (t := .name py!"ModuleType") (by simp only [Node.abs, aCombine, aBody, hk]) hdef hw
      exact .leaf (by simp only [nodeType, hk]) (admits_nil_name hv (hN.shadow _ (by decide)))
    | io =>
      have hv := aref_inv (t := .name py!"TextIO") (by simp only [Node.abs, aCombine, aBody, hk]) hdef hw
      exact .leaf (by simp only [nodeType, hk]) (admits_nil_name hv (hN.shadow _ (by decide)))
    | ndarray d =>
      have hv := aref_inv (t := .quoted (py!"NDArray[np." ++ d ++ py!"]")) (by simp only [Node.abs, aCombine, aBody, hk]) hdef hw
      refine .leaf (t := .quoted (py!"NDArray[np." ++ d ++ py!"]")) (by simp only [nodeType, hk]) ?_
      generalize hq : TExpr.quoted (py!"NDArray[np." ++ d ++ py!"]") = q at hv
      cases hv with
      | quoted _ hv =>
        refine .quoted _ (admits_nil_name hv ?_)
        intro hdc
        injection hq with hq
        have := (hid _ hdc).2 '[' (by rw [← hq]; simp)
        revert this; decide
      | array => exact .array not_declared_nil not_declared_nil
      | _ => cases hq
    | func f =>
      rw [hk] at hT
      rcases hT.2 with hs | ⟨hlam, text, m, hs⟩
      · have hv := aref_inv (t := .name py!"Callable") (by simp only [Node.abs, aCombine, aBody, hk, funcBody, hs]) hdef hw
        exact .leaf (t := .name py!"Callable") (by simp only [nodeType, hk, paramCount, hs])
          (admits_nil_name hv (hN.shadow _ (by decide)))
      · have hv := aref_inv (t := .callable m) (by simp only [Node.abs, aCombine, aBody, hk, funcBody, hs, hlam, if_true]) hdef hw
        refine .leaf (t := .callable m) (by simp only [nodeType, hk, paramCount, hs]) ?_
        cases hv with
        | callable _ _ h => exact .callable not_declared_nil not_declared_nil h
    | seq k =>
      by_cases hkt : k = .tuple
      · subst hkt
        have hv := aref_inv (t := aTuple E.S (absList E kids)) (by simp only [Node.abs, aCombine, aBody, hk, hi]) hdef hw
        unfold aTuple at hv
        split at hv
        · rename_i hS
          split at hv
          · rename_i hp
            obtain ⟨ty, es, rfl, _⟩ := admits_tupleOf hv
            cases kids with
            | nil => exact .noElements hk (.inl rfl)
            | cons k r =>
              exfalso
              simp only [aTypes, absList, List.isEmpty_cons, Bool.false_eq_true, if_false, List.map_cons, List.cons.injEq] at hp
              have he := int_name (hw1 (k.abs E) (by simp [absList])) any_wf hp.1
              obtain ⟨_, g1, g2, _, _⟩ := hkid k (by simp)
              cases k with
              | mk h' kids' =>
                exact aref_not_any hA (hN.fixed _ (by decide)) g2 (trim_iterate (E := E) g1.1 g1.2.1) g1.1 he
          · rename_i hp
            obtain ⟨ty, es, rfl, hl, hz⟩ := admits_tuple hv
            have hkne : kids ≠ [] := by
              rintro rfl
              exact hp rfl
            have hat : aTypes (absList E kids) = kids.map (fun k => aref (k.abs E)) := by
              unfold aTypes
              rw [if_neg (by rw [absList_eq_map]; simpa using hkne), absList_eq_map, List.map_map]
              rfl
            rw [hat] at hl hz
            simp only [List.length_map] at hl
            refine .tuple hk hS hl ?_
            rintro ⟨k, e⟩ hp
            refine ihk k (List.of_mem_zip hp).1 e (hz (aref (k.abs E), e) ?_)
            rw [List.zip_map_left]
            exact List.mem_map_of_mem (f := Prod.map (fun k => aref (Node.abs E k)) id) hp
        · rename_i hS
          obtain ⟨ty, es, rfl, hes⟩ := admits_tupleOf hv
          cases hkids : kids with
          | nil => exact .noElements hk (.inl rfl)
          | cons k r =>
            rw [← hkids]
            refine .seq (Means E.S) hk (fun hp => by have := hp.2; rw [hS] at this; cases this) (.inl rfl) (fun _ _ h => h) ?_
            exact fun e he => hel (by rw [hkids]; simp) e (hes e he)
      · have hv := aref_inv (t := .app (seqCon E.S k) (aAlias (absList E kids))) (by
          show aBody E h (absList E kids) = _
          rw [seqCon_of hk hkt, hi]) hdef hw
        rcases admits_app hv with ⟨k', ty, es, rfl, hf, hes⟩ | ⟨hcon, _⟩
        · have hlk := containerFits_seqCon hkt hf
          cases hkids : kids with
          | nil => exact .noElements hk hlk
          | cons k r =>
            rw [← hkids]
            refine .seq (Means E.S) hk (fun hp => hkt hp.1) hlk (fun _ _ h => h) ?_
            exact fun e he => hel (by rw [hkids]; simp) e (hes e he)
        · exfalso
          cases k with
          | list => simp only [seqCon] at hcon; split at hcon <;> (revert hcon; decide)
          | tuple => exact hkt rfl
          | _ => simp only [seqCon] at hcon; revert hcon; decide
    | proxy => exact hmap .proxy (.inl ⟨hk, rfl⟩)
    | dict data m =>
      cases hty : m.isTyped E.S with
      | false => exact hmap .dict (.inr ⟨rfl, _, _, hk, hty⟩)
      | true =>
        rw [hk] at hT
        obtain ⟨_, _, a2, a3, _, _⟩ := hT
        have hp : ((Node.mk h kids).abs E).perm = true := by
          simp [Node.abs, aCombine, permOf, hk, hty]
        have hb : ((Node.mk h kids).abs E).body = recordBody E data m ((h.slots.map (·.key)).zip (absList E kids)) := by
          simp only [Node.abs, aCombine, aBody, hk, hty, if_true]
        have hdf := hdef hp
        rw [hb] at hdf
        have hr : aref ((Node.mk h kids).abs E) = .name h.name := by
          unfold aref
          rw [if_pos hp]
          rfl
        rw [hr] at hw
        rcases admits_declared hw ⟨_, hdf.1, rfl⟩ with ⟨t', h1, _⟩ | ⟨_, _, entries, ty, ks, vs, rfl, h1, r1, r2, r3⟩ | ⟨_, _, h1⟩
        · cases defines_unique hdf h1
        · have he := defines_unique hdf h1
          simp only [recordBody, Body.record.injEq] at he
          obtain ⟨_, _, rfl⟩ := he
          refine .record (Means E.S) hk hty (fun _ _ h => h) ?_ ?_ ?_
          · intro s hs hreq
            obtain ⟨x, hx⟩ := isTyped_str hty _ (a3 s hs).2
            obtain ⟨k, hzk⟩ := zip_get_left (ks := h.slots.map (·.key)) (vs := kids) (by simpa using ht.2.1)
              (List.mem_map_of_mem (f := (·.key)) hs)
            rw [hx] at hreq hzk ⊢
            exact r1 _ (entry_kid hzk) hreq
          · intro k hk
            obtain ⟨e, he, rfl⟩ := r2 k hk
            obtain ⟨s, k, hzk, rfl⟩ := kid_entry he
            exact (List.of_mem_zip hzk).1
          · rintro ⟨k, x⟩ hkw
            obtain ⟨e, he, ek⟩ := r2 k (List.of_mem_zip hkw).1
            have hv := r3 _ hkw e he ek
            obtain ⟨s, c, hzk, rfl⟩ := kid_entry he
            dsimp only [aEntry] at hv ek
            subst ek
            refine ⟨c, hzk, ihk c (List.of_mem_zip hzk).2 _ ?_⟩
            split at hv
            · rename_i hpk
              rw [toCamel_camelName (hkid c (List.of_mem_zip hzk).2).2.2.2.1] at hv
              unfold aref
              rw [if_pos hpk]
              exact hv
            · exact hv
        · cases defines_unique hdf h1
    | frame i =>
      rw [hk] at hT
      obtain ⟨a1, a2, a3⟩ := hT
      have hp : ((Node.mk h kids).abs E).perm = true := by
        simp [Node.abs, aCombine, permOf, hk, a1]
      have hb : ((Node.mk h kids).abs E).body = frameBody E ((h.slots.map (·.key)).zip (absList E kids)) := by
        simp only [Node.abs, aCombine, aBody, hk]
      by_cases hz : (h.slots.map (·.key)).zip (absList E kids) = []
      · have hv := aref_inv (t := .name py!"pd.DataFrame") (by rw [hb, hz]; rfl) hdef hw
        refine .leaf (t := .name py!"pd.DataFrame") ?_ (admits_nil_name hv (hN.shadow _ (by decide)))
        have : h.slots = [] := by
          have := congrArg List.length hz
          have hlen : h.slots.length = kids.length := ht.2.1
          rw [absList_eq_map] at this
          simp only [List.length_zip, List.length_map, List.length_nil] at this
          exact List.length_eq_zero_iff.mp (by omega)
        simp only [nodeType, hk, this, if_true]
      · obtain ⟨ovs, rest, e1, _, hov⟩ := frameBody_plain hE (fun kk hkk => by
          obtain ⟨s, hs, e⟩ := List.mem_map.mp (List.of_mem_zip (show (kk.1, kk.2) ∈ _ from hkk)).1
          rw [← e]
          exact a3 s hs) hz
        have hdf := hdef hp
        rw [hb, e1] at hdf
        have hr : aref ((Node.mk h kids).abs E) = .name h.name := by
          unfold aref
          rw [if_pos hp]
          rfl
        rw [hr] at hw
        obtain ⟨i', ty, ks, vs, rfl, r1, r2, r3⟩ := admits_frame_inv hw hdf
        have hinj : ∀ {k k' : Key} {l : Str}, Labels k l → Labels k' l → k = k' := by
          rintro k k' l ⟨s, rfl, e⟩ ⟨s', rfl, e'⟩
          rw [e] at e'
          have := List.append_cancel_left (List.append_cancel_right e')
          rw [this]
        have hback : ∀ o ∈ ovs, ∃ key n, (key, n) ∈ (h.slots.map (·.key)).zip kids ∧ Labels key o.1 ∧ o.2 = aref (n.abs E) := by
          intro o ho
          obtain ⟨⟨key, a⟩, hm, h3, _, h4⟩ := hov.mem_right o ho
          rw [absList_eq_map, List.zip_map_right] at hm
          obtain ⟨⟨x, k⟩, hxk, e⟩ := List.mem_map.mp hm
          simp only [Prod.map, Prod.mk.injEq, id] at e
          obtain ⟨rfl, rfl⟩ := e
          exact ⟨x, k, hxk, h3, h4⟩
        refine .frame (Means E.S) hk (fun _ _ h => h) ?_ ?_
        · intro k
          constructor
          · intro hkm
            obtain ⟨c, hzk⟩ := zip_get_left (ks := h.slots.map (·.key)) (vs := kids) (by simpa using ht.2.1) hkm
            have hm : (k, c.abs E) ∈ (h.slots.map (·.key)).zip (absList E kids) := by
              rw [absList_eq_map, List.zip_map_right]
              exact List.mem_map_of_mem (f := Prod.map id (Node.abs E)) hzk
            obtain ⟨o, ho, h3, _⟩ := hov.mem_left _ hm
            obtain ⟨k', hk', hl'⟩ := r1 o ho
            exact (hinj h3 hl' : k = k') ▸ hk'
          · intro hkm
            obtain ⟨o, ho, hl⟩ := r2 k hkm
            obtain ⟨key, n, hm, h3, _⟩ := hback o ho
            rw [hinj hl h3]
            exact (List.of_mem_zip hm).1
        · rintro ⟨k, x⟩ hkw
          obtain ⟨o, ho, hl⟩ := r2 k (List.of_mem_zip hkw).1
          obtain ⟨key, n, hm, h3, h4⟩ := hback o ho
          have hv := r3 _ hkw o ho hl
          have := hinj hl h3
          dsimp only at this ⊢
          subst this
          rw [h4] at hv
          exact ⟨n, hm, ihk n (List.of_mem_zip hm).2 _ hv⟩
theorem admits_meansList {E : Env} (hE : E.Fair) (hA : E.isBuiltin py!"Any" = false) {root : Str} {Γ : List TDecl} (hN : Names Γ root)
    (hid : ∀ n, Declared Γ n → Ident n) : ∀ (l : List Node), ∀ n ∈ l, Trim E.S n → NodeAll (NeatHdr root) n →
    (∀ d ∈ (n.abs E).decls, Defines Γ d.name d.body) → ∀ w, Admits Γ (aref (n.abs E)) w → Means E.S n w
  | [], _, h => by cases h
  | k :: r, n, hm => by
    rcases List.mem_cons.mp hm with e | hm
    · rw [e]
      exact admits_means hE hA hN hid k
    · exact admits_meansList hE hA hN hid r n hm
end

/-- The declarations of a tree admit only the values that it stands for. -/
theorem root_means {E : Env} (hE : E.Fair) (hA : E.isBuiltin py!"Any" = false) {name : Str} {n : Node} {w : Val} (ht : Trim E.S n)
    (hn : NodeAll (NeatHdr name) n) (hr : n.hdr.root = true) (hnm : n.name = name)
    (hfix : ∀ m ∈ py!"int" :: py!"str" :: py!"dict" :: typingNames, ¬ name <+: m)
    (hnd : ((dedupDecls (n.abs E).emitted).map (·.name)).Nodup) (hw : Admits (dedupDecls (n.abs E).emitted) (.name name) w) :
    Means E.S n w := by
  obtain ⟨_, h2, h3⟩ := root_texts hE ht hn hr
  have hN : Names (dedupDecls (n.abs E).emitted) name := ⟨hfix, by rintro x ⟨d, hd, rfl⟩; exact (h2 d hd).2⟩
  refine admits_means hE hA hN (by rintro x ⟨d, hd, rfl⟩; exact (h2 d hd).1.1) n ht hn (fun d hd => defines_of_nodup hnd (h3 d hd)) w ?_
  unfold aref
  rw [if_pos (root_decl hr).1, abs_name, hnm]
  exact hw

end Verif
