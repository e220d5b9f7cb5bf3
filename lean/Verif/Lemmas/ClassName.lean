import Verif.Lemmas.Distinct
import Verif.Lemmas.MeansAdmits
import Verif.Lemmas.Render
/-
Trees that differ only in the beginning of their names: failures, and the values their declarations admit.
-/
namespace Verif
open Verif.Spec

/-! ### Failures -/

/-- Two renderings have the same heights, permissions and failures. -/
structure Skel (a b : Out) : Prop where
  height : a.height = b.height
  perm : a.perm = b.perm
  top : a.top.fails = b.top.fails
  emitted : a.emitted.map (·.fails) = b.emitted.map (·.fails)

theorem all₂_iterate {α β} {R : α → β → Prop} : ∀ {slots : List Slot} {l : List α} {l' : List β}, All₂ R l l' →
    All₂ R (iterate slots l) (iterate slots l')
  | [], _, _, _ => by simpa [iterate] using .nil
  | _ :: _, _, _, .nil => by simpa [iterate] using .nil
  | s :: ss, _, _, .cons h r => by
    have ih := all₂_iterate (slots := ss) r
    unfold iterate at ih ⊢
    simp only [List.zip_cons_cons, List.takeWhile_cons]
    by_cases hk : (s.key != .none) = true
    · simp only [hk, if_true, List.map_cons]
      exact .cons h ih
    · simp only [hk, Bool.false_eq_true, if_false, List.map_nil]
      exact .nil

theorem skel_height {l l' : List Out} (h : All₂ Skel l l') : ∀ c : Nat,
    l.foldl (fun m k => max k.height m) c = l'.foldl (fun m k => max k.height m) c := by
  induction h with
  | nil => intro c; rfl
  | cons h _ ih => intro c; simp only [List.foldl_cons, h.height]; exact ih _

theorem skel_flatMap {l l' : List Out} (h : All₂ Skel l l') :
    (l.flatMap (fun k => k.emitted ++ (if k.perm then [k.top] else []))).map (·.fails) =
      (l'.flatMap (fun k => k.emitted ++ (if k.perm then [k.top] else []))).map (·.fails) := by
  induction h with
  | nil => rfl
  | cons h _ ih =>
    simp only [List.flatMap_cons, List.map_append, ih, h.emitted, h.perm]
    split <;> simp [h.top]

theorem funcTop_same (im : Str → List Str) (a b : Str) (f : FuncInfo) : (funcTop im a f).fails = (funcTop im b f).fails := by
  unfold funcTop
  repeat' split
  all_goals first | rfl | (simp_all)

theorem topOf_same {E : Env} {im : Str → List Str} (h : Hdr) (name : Str) (kids kids' : List Out) :
    (topOf E im h kids).fails = (topOf E im { h with name := name } kids').fails := by
  unfold topOf
  cases hk : h.kind with
  | func f => exact funcTop_same im _ _ f
  | seq k =>
    cases k with
    | list => dsimp only; split <;> rfl
    | _ => rfl
  | dict data m => dsimp only; split <;> rfl
  | _ => rfl

theorem combine_skel {E : Env} {im : Str → List Str} (h : Hdr) (name : Str) {kids kids' : List Out} (hk : All₂ Skel kids kids') :
    Skel (combine E im h kids) (combine E im { h with name := name } kids') := by
  have hi := all₂_iterate (slots := h.slots) hk
  have hh : heightOf h (iterate h.slots kids) = heightOf { h with name := name } (iterate h.slots kids') := by
    unfold heightOf
    dsimp only
    rw [skel_height hi]
  have hp : permOf E.S h (heightOf h (iterate h.slots kids)) =
      permOf E.S { h with name := name } (heightOf { h with name := name } (iterate h.slots kids')) := by
    rw [hh]; rfl
  have ht : (topOf E im h kids).fails = (topOf E im { h with name := name } kids').fails := topOf_same h name kids kids'
  refine ⟨hh, hp, ht, ?_⟩
  have he : kids.isEmpty = kids'.isEmpty := by cases hk <;> rfl
  simp only [combine, emitOf]
  rw [he, hp]
  split
  · split <;> simp [ht]
  · simp only [List.map_append, skel_flatMap hi]
    congr 1
    split <;> simp [ht]

mutual
theorem out_skel {E : Env} {im : Str → List Str} (p q : Str) : ∀ n : Node, Skel ((prefixed p n).out E im) ((prefixed q n).out E im)
  | .mk h kids => by
    simp only [prefixed, Node.out]
    exact combine_skel { h with name := p ++ h.name } (q ++ h.name) (outList_skel p q kids)
theorem outList_skel {E : Env} {im : Str → List Str} (p q : Str) : ∀ l : List Node,
    All₂ Skel (outList E im (prefixedList p l)) (outList E im (prefixedList q l))
  | [] => .nil
  | n :: r => .cons (out_skel p q n) (outList_skel p q r)
end

theorem firstFailure_congr : ∀ {l l' : List Decl}, l.map (·.fails) = l'.map (·.fails) → firstFailure l = firstFailure l'
  | [], [], _ => rfl
  | [], _ :: _, h => by simp at h
  | _ :: _, [], h => by simp at h
  | a :: r, b :: r', h => by
    simp only [List.map_cons, List.cons.injEq] at h
    simp only [firstFailure, h.1, firstFailure_congr h.2]

/-- The imports of a tree can always be printed. -/
theorem render_imports (E : Env) (n : Node) : ∃ s, formatImports 90 (allKws (n.render E)) = .ok s := by
  obtain ⟨g, hg⟩ := groupImports_ok (acc := []) (out_known (E := E) (fun s => sigImports_known s) n)
  exact ⟨_, by unfold formatImports Node.render; rw [hg]; rfl⟩

/-- Trees that differ in the beginning of the names fail alike. -/
theorem strings_skel {E : Env} {p q : Str} {n : Node} (hr : n.hdr.root = true) (b : Bool) :
    (∃ e, toString' E (prefixed p n) b = .error (.node e) ∧ toString' E (prefixed q n) b = .error (.node e)) ∨
      ∃ s s', toString' E (prefixed p n) b = .ok s ∧ toString' E (prefixed q n) b = .ok s' := by
  have hp : (prefixed p n).hdr.root = true := by cases n; exact hr
  have hq : (prefixed q n).hdr.root = true := by cases n; exact hr
  have hsk := out_skel (E := E) (im := sigImports E.U) p q n
  have hf := firstFailure_congr hsk.emitted
  have e1 : (declTexts ((prefixed p n).render E)).isEmpty = false := declTexts_root_ne_nil hp
  have e2 : (declTexts ((prefixed q n).render E)).isEmpty = false := declTexts_root_ne_nil hq
  obtain ⟨s1, h1⟩ := render_imports E (prefixed p n)
  obtain ⟨s2, h2⟩ := render_imports E (prefixed q n)
  unfold toString' nodeStrings
  dsimp only
  change firstFailure ((prefixed p n).render E).emitted = firstFailure ((prefixed q n).render E).emitted at hf
  rw [← hf]
  cases firstFailure ((prefixed p n).render E).emitted with
  | some e => exact .inl ⟨e, rfl, rfl⟩
  | none =>
    refine .inr ?_
    simp only [e1, e2, h1, h2, Bool.false_eq_true, if_false]
    cases b <;> exact ⟨_, _, rfl, rfl⟩

/-! ### The values that nodes stand for -/

theorem prefixed_zip {p : Str} {ks : List Key} {kids : List Node} {k : Key} {n : Node} (h : (k, n) ∈ ks.zip (prefixedList p kids)) :
    ∃ m, (k, m) ∈ ks.zip kids ∧ n = prefixed p m := by
  rw [prefixedList_map, List.zip_map_right] at h
  obtain ⟨⟨k', m⟩, hm, e⟩ := List.mem_map.mp h
  simp only [Prod.map, id, Prod.mk.injEq] at e
  exact ⟨m, e.1 ▸ hm, e.2.symm⟩

theorem zip_prefixed {p : Str} {ks : List Key} {kids : List Node} {k : Key} {m : Node} (h : (k, m) ∈ ks.zip kids) :
    (k, prefixed p m) ∈ ks.zip (prefixedList p kids) := by
  rw [prefixedList_map, List.zip_map_right]
  exact List.mem_map_of_mem (f := Prod.map id (prefixed p)) h

/-- What a node stands for does not depend on its names. -/
theorem means_pre {S : Strategies} {p q : Str} {m : Node} {w : Val} (h : Means S m w) :
    ∀ n : Node, m = prefixed p n → Means S (prefixed q n) w := by
  induction h with
  | leaf ht hw =>
    rintro ⟨h', kids'⟩ e
    simp only [prefixed, Node.mk.injEq] at e
    obtain ⟨rfl, rfl⟩ := e
    exact .leaf ht hw
  | noElements hk hlk =>
    rintro ⟨h', kids'⟩ e
    simp only [prefixed, Node.mk.injEq] at e
    obtain ⟨rfl, e⟩ := e
    cases kids' with
    | nil => exact .noElements hk hlk
    | cons => cases e
  | @tuple h kids t es hk hS hl hz ih =>
    rintro ⟨h', kids'⟩ e
    simp only [prefixed, Node.mk.injEq] at e
    obtain ⟨rfl, rfl⟩ := e
    refine .tuple hk hS (by simpa [prefixedList_map] using hl) ?_
    rintro ⟨n, x⟩ hp
    rw [prefixedList_map, List.zip_map_left] at hp
    obtain ⟨⟨k, y⟩, hky, e⟩ := List.mem_map.mp hp
    simp only [Prod.map, id, Prod.mk.injEq] at e
    obtain ⟨rfl, rfl⟩ := e
    refine ih (prefixed p k, y) ?_ k rfl
    rw [prefixedList_map, List.zip_map_left]
    exact List.mem_map_of_mem (f := Prod.map (prefixed p) id) hky
  | @seq h kids k k' t es R hk hn hlk _ h1 ih =>
    rintro ⟨h', kids'⟩ e
    simp only [prefixed, Node.mk.injEq] at e
    obtain ⟨rfl, rfl⟩ := e
    refine .seq (fun n v => ∃ m, n = prefixed q m ∧ R (prefixed p m) v) hk hn hlk (fun n v ⟨m, e, hr⟩ => e ▸ ih _ v hr m rfl) ?_
    intro e he
    obtain ⟨n, hn, hr⟩ := h1 e he
    rw [prefixedList_map] at hn ⊢
    obtain ⟨m, hm, rfl⟩ := List.mem_map.mp hn
    exact ⟨_, List.mem_map_of_mem hm, m, rfl, hr⟩
  | @record h kids data m t ks vs R hk hm _ h1 h2 h3 ih =>
    rintro ⟨h', kids'⟩ e
    simp only [prefixed, Node.mk.injEq] at e
    obtain ⟨rfl, rfl⟩ := e
    refine .record (fun n v => ∃ m, n = prefixed q m ∧ R (prefixed p m) v) hk hm (fun n v ⟨m, e, hr⟩ => e ▸ ih _ v hr m rfl) h1 h2 ?_
    intro kw hkw
    obtain ⟨n, hn, hr⟩ := h3 kw hkw
    obtain ⟨m, hm, rfl⟩ := prefixed_zip hn
    exact ⟨_, zip_prefixed hm, m, rfl, hr⟩
  | @mapping h kids k k' t ks vs R hk hm _ h1 h2 ih =>
    rintro ⟨h', kids'⟩ e
    simp only [prefixed, Node.mk.injEq] at e
    obtain ⟨rfl, rfl⟩ := e
    refine .mapping (fun n v => ∃ m, n = prefixed q m ∧ R (prefixed p m) v) hk hm (fun n v ⟨m, e, hr⟩ => e ▸ ih _ v hr m rfl) h1 ?_
    intro hne w hw
    rw [prefixedList_map] at hne h2 ⊢
    obtain ⟨n, hn, hr⟩ := h2 (by simpa using hne) w hw
    obtain ⟨m, hm, rfl⟩ := List.mem_map.mp hn
    exact ⟨_, List.mem_map_of_mem hm, m, rfl, hr⟩
  | @frame h kids i i' t ks vs R hk _ h1 h2 ih =>
    rintro ⟨h', kids'⟩ e
    simp only [prefixed, Node.mk.injEq] at e
    obtain ⟨rfl, rfl⟩ := e
    refine .frame (fun n v => ∃ m, n = prefixed q m ∧ R (prefixed p m) v) hk (fun n v ⟨m, e, hr⟩ => e ▸ ih _ v hr m rfl) h1 ?_
    intro kw hkw
    obtain ⟨n, hn, hr⟩ := h2 kw hkw
    obtain ⟨m, hm, rfl⟩ := prefixed_zip hn
    exact ⟨_, zip_prefixed hm, m, rfl, hr⟩

/-- An identifier that is not declared means the same under declarations. -/
theorem admits_name_lift {Γ : List TDecl} {n : Str} {v : Val} (h : Admits [] (.name n) v) (hd : ¬ Declared Γ n) : Admits Γ (.name n) v := by
  generalize ht : TExpr.name n = t at h
  cases h with
  | any _ h => injection ht with ht; subst ht; exact .any _ hd
  | cls _ h => injection ht with ht; subst ht; exact .cls _ hd
  | promote _ h h' => injection ht with ht; subst ht; exact .promote _ hd h'
  | module h => injection ht with ht; subst ht; exact .module hd
  | file h => injection ht with ht; subst ht; exact .file hd
  | function h => injection ht with ht; subst ht; exact .function hd
  | anyFrame h => injection ht with ht; subst ht; exact .anyFrame hd
  | frame h => exact absurd ⟨_, h.1, rfl⟩ not_declared_nil
  | alias h1 h2 => exact absurd ⟨_, h1.1, rfl⟩ not_declared_nil
  | record h1 h2 h3 h4 => exact absurd ⟨_, h1.1, rfl⟩ not_declared_nil
  | _ => cases ht

theorem keyExpr_lift {Γ : List TDecl} {root : Str} (hN : Names Γ root) {keys : List Key} (hk : ∀ k ∈ keys, KeyP root k)
    {k : Key} (h : k ∈ keys) {v : Val} (hv : Admits [] (.name k.ty.name) v) : Admits Γ (keyExpr keys) v := by
  unfold keyExpr
  rw [if_neg (by
    intro e
    cases keys with
    | nil => simp at h
    | cons => cases e)]
  by_cases hc : k.ty.name = py!"int" ∧ py!"float" ∈ keys.map (fun k => k.ty.name)
  · refine admits_unionOf hN.shadow (t := .name py!"float") ?_ (.promote _ (hN.shadow _ (by decide)) ?_)
    · refine List.mem_map_of_mem (mem_uniqueTypes.mpr ⟨hc.2, ?_⟩)
      rintro ⟨e, _⟩
      revert e; decide
    · rw [hc.1] at hv
      exact admits_int not_declared_nil hv
  · refine admits_unionOf hN.shadow (t := .name k.ty.name) ?_ (admits_name_lift hv ?_)
    · exact List.mem_map_of_mem (mem_uniqueTypes.mpr ⟨List.mem_map_of_mem h, hc⟩)
    · exact fun hd => (hk k h).2 (hN.pfx _ hd)

theorem aAlias_any {Γ : List TDecl} {root : Str} (hN : Names Γ root) {E : Env} (v : Val) : Admits Γ (aAlias (absList E [])) v := by
  have : aAlias (absList E []) = .name py!"Any" := by
    rfl
  rw [this]
  exact .any v (hN.shadow _ (by decide))

theorem mapLike_fits {S : Strategies} {h : Hdr} {k k' : MapKind} (ht : TrimHdr S h) (hk : MapNode S h k) (hl : MapLike S k k') :
    mappingFits k' (mapCon S h.ty) = true := by
  rcases hl with rfl | ⟨rfl, rfl, hS⟩
  · exact (mapNode_con ht hk).1
  · unfold TrimHdr at ht
    rcases hk with ⟨_, e⟩ | ⟨_, data, m, e, _⟩
    · cases e
    · rw [e] at ht
      unfold mapCon
      rw [if_neg ht.1, hS]
      decide

/-- The type of a node has all values that the node stands for. -/
theorem means_admits {E : Env} (hE : E.Fair) {root : Str} {Γ : List TDecl} (hN : Names Γ root)
    (hid : ∀ n, Declared Γ n → Ident n) {n : Node} {w : Val} (hf : Means E.S n w) :
    Trim E.S n → NodeAll (NeatHdr root) n → (∀ d ∈ (n.abs E).decls, Defines Γ d.name d.body) → Admits Γ (aref (n.abs E)) w := by
  induction hf with
  | @leaf h kids t w hl hw =>
    intro ht hn hd
    obtain ⟨hi, _, _, hdef⟩ := trim_setup hE h kids ht hn hd
    have hT := ht.1
    unfold TrimHdr at hT
    cases hk : h.kind with
    | inst =>
      simp only [nodeType, hk, Option.some.injEq] at hl
      subst hl
      refine aref_admits (t := atom E h.ty) (by simp only [Node.abs, aCombine, aBody, hk]) hdef ?_
      have hty : TyP root h.ty := hn.1.2.1
      unfold atom
      split
      · exact .object _ (hN.shadow _ (by decide)) (hN.shadow _ (by decide))
      · rename_i hne
        rw [if_neg hne] at hw
        split
        · exact admits_name_lift hw (hN.ty hty)
        · exact .quoted _ (admits_name_lift hw (hN.ty hty))
    | cls c =>
      simp only [nodeType, hk, Option.some.injEq] at hl
      subst hl
      refine aref_admits (t := .app py!"Type" (if E.isBuiltin c then .name c else .quoted c)) (by simp only [Node.abs, aCombine, aBody, hk]) hdef ?_
      rcases admits_app hw with ⟨k, ty, es, rfl, hf, _⟩ | ⟨_, m, n, rfl, hc⟩
      · exfalso; cases k <;> (revert hf; decide)
      · have : c = n := by rcases hc with hc | hc <;> cases hc; rfl
        subst this
        refine .typeOf (hN.shadow _ (by decide)) (fun hd => hn.1.2.2.2 c hk (hN.pfx _ hd)) ?_
        split
        · exact .inl rfl
        · exact .inr rfl
    | module =>
      simp only [nodeType, hk, Option.some.injEq] at hl
      subst hl
      exact aref_admits (t := .name py!"ModuleType") (by simp only [Node.abs, aCombine, aBody, hk]) hdef
        (admits_name_lift hw (hN.shadow _ (by decide)))
    | io =>
      simp only [nodeType, hk, Option.some.injEq] at hl
      subst hl
      exact aref_admits (t := .name py!"TextIO") (by simp only [Node.abs, aCombine, aBody, hk]) hdef
        (admits_name_lift hw (hN.shadow _ (by decide)))
    | ndarray d =>
      simp only [nodeType, hk, Option.some.injEq] at hl
      subst hl
      refine aref_admits (t := .quoted (py!"NDArray[np." ++ d ++ py!"]")) (by simp only [Node.abs, aCombine, aBody, hk]) hdef ?_
      generalize hq : TExpr.quoted (py!"NDArray[np." ++ d ++ py!"]") = q at hw
      cases hw with
      | quoted _ hv =>
        refine .quoted _ (admits_name_lift hv ?_)
        intro hdc
        injection hq with hq
        have := (hid _ hdc).2 '[' (by rw [← hq]; simp)
        revert this; decide
      | array => exact .array (hN.shadow _ (by decide)) (hN.shadow _ (by decide))
      | _ => cases hq
    | func f =>
      simp only [nodeType, hk, Option.some.injEq] at hl
      subst hl
      rw [hk] at hT
      rcases hT.2 with hs | ⟨hlam, text, m, hs⟩
      · simp only [paramCount, hs] at hw
        exact aref_admits (t := .name py!"Callable") (by simp only [Node.abs, aCombine, aBody, hk, funcBody, hs]) hdef
          (admits_name_lift hw (hN.shadow _ (by decide)))
      · simp only [paramCount, hs] at hw
        refine aref_admits (t := .callable m) (by simp only [Node.abs, aCombine, aBody, hk, funcBody, hs, hlam, if_true]) hdef ?_
        cases hw with
        | callable _ _ h => exact .callable (hN.shadow _ (by decide)) (hN.shadow _ (by decide)) h
    | frame i =>
      simp only [nodeType, hk] at hl
      split at hl
      · rename_i hs
        injection hl with hl
        subst hl
        have hz : (h.slots.map (·.key)).zip (absList E kids) = [] := by rw [hs]; rfl
        exact aref_admits (t := .name py!"pd.DataFrame") (by simp only [Node.abs, aCombine, aBody, hk, hz]; rfl) hdef
          (admits_name_lift hw (hN.shadow _ (by decide)))
      · cases hl
    | seq k => simp [nodeType, hk] at hl
    | dict d m => simp [nodeType, hk] at hl
    | proxy => simp [nodeType, hk] at hl
  | @noElements h k k' t es hk hlk =>
    intro ht hn hd
    obtain ⟨hi, hw1, hkid, hdef⟩ := trim_setup hE h [] ht hn hd
    by_cases hkt : k = .tuple
    · subst hkt
      cases seqLike_tuple hlk
      refine aref_admits (t := aTuple E.S (absList E [])) ?_ hdef ?_
      · simp only [Node.abs, aCombine, aBody, hk, hi]
      · have : aTuple E.S (absList E []) = .tupleOf (.name py!"Any") := by
          unfold aTuple
          cases E.S.tuple <;> rfl
        rw [this]
        exact .tupleOf (hN.shadow _ (by decide)) (fun e _ => .any e (hN.shadow _ (by decide)))
    · refine aref_admits (t := .app (seqCon E.S k) (aAlias (absList E []))) ?_ hdef ?_
      · show aBody E h (absList E []) = _
        rw [seqCon_of hk hkt, hi]
      · exact .app (hN.shadow _ seqCon_typing) (seqLike_fits hkt hlk) (fun e _ => aAlias_any hN e)
  | @tuple h kids t es hk hS hl _ ih =>
    intro ht hn hd
    obtain ⟨hi, hw1, hkid, hdef⟩ := trim_setup hE h kids ht hn hd
    refine aref_admits (t := aTuple E.S (absList E kids)) ?_ hdef ?_
    · simp only [Node.abs, aCombine, aBody, hk, hi]
    · unfold aTuple
      rw [hS]
      dsimp only
      split
      · exact .tupleOf (hN.shadow _ (by decide)) (fun e _ => .any e (hN.shadow _ (by decide)))
      · rename_i hne
        have hkne : kids ≠ [] := by
          rintro rfl
          exact hne rfl
        have hat : aTypes (absList E kids) = kids.map (fun k => aref (k.abs E)) := by
          unfold aTypes
          rw [if_neg (by rw [absList_eq_map]; simpa using hkne), absList_eq_map, List.map_map]
          rfl
        rw [hat]
        refine .tuple (hN.shadow _ (by decide)) (by simpa using hl) ?_
        rintro ⟨t, e⟩ hp
        rw [List.zip_map_left] at hp
        obtain ⟨⟨k, e'⟩, hke, he⟩ := List.mem_map.mp hp
        simp only [Prod.map, Prod.mk.injEq, id] at he
        obtain ⟨rfl, rfl⟩ := he
        obtain ⟨_, g1, g2, _, g3⟩ := hkid k (List.of_mem_zip hke).1
        exact ih (k, e') hke g1 g2 g3
  | @seq h kids k k' t es R hk hpl hlk _ h1 ih =>
    intro ht hn hd
    obtain ⟨hi, hw1, hkid, hdef⟩ := trim_setup hE h kids ht hn hd
    have hel : ∀ e ∈ es, Admits Γ (aAlias (absList E kids)) e := by
      intro e he
      obtain ⟨n, hnm, hr⟩ := h1 e he
      obtain ⟨g0, g1, g2, _, g3⟩ := hkid n hnm
      exact aAlias_admits hN hw1 g0 (ih n e hr g1 g2 g3)
    by_cases hkt : k = .tuple
    · subst hkt
      cases seqLike_tuple hlk
      refine aref_admits (t := aTuple E.S (absList E kids)) ?_ hdef ?_
      · simp only [Node.abs, aCombine, aBody, hk, hi]
      · unfold aTuple
        split
        · rename_i hS
          exact absurd ⟨rfl, hS⟩ hpl
        · exact .tupleOf (hN.shadow _ (by decide)) hel
    · refine aref_admits (t := .app (seqCon E.S k) (aAlias (absList E kids))) ?_ hdef ?_
      · show aBody E h (absList E kids) = _
        rw [seqCon_of hk hkt, hi]
      · exact .app (hN.shadow _ seqCon_typing) (seqLike_fits hkt hlk) hel
  | @record h kids data m t ks vs R hk hty _ h1 h2 h3 ih =>
    intro ht hn hd
    obtain ⟨hi, hw1, hkid, hdef⟩ := trim_setup hE h kids ht hn hd
    have hT := ht.1
    unfold TrimHdr at hT
    rw [hk] at hT
    obtain ⟨_, _, a2, a3, _, _⟩ := hT
    have hp : ((Node.mk h kids).abs E).perm = true := by
      simp [Node.abs, aCombine, permOf, hk, hty]
    have hb : ((Node.mk h kids).abs E).body = recordBody E data m ((h.slots.map (·.key)).zip (absList E kids)) := by
      simp only [Node.abs, aCombine, aBody, hk, hty, if_true]
    have hdf := hdef hp
    rw [hb] at hdf
    have hr : aref ((Node.mk h kids).abs E) = .name h.name := by
      unfold aref
      rw [if_pos hp]
      rfl
    rw [hr]
    refine .record hdf ?_ ?_ ?_
    · intro e he hre
      obtain ⟨s, k, hxk, rfl⟩ := kid_entry he
      obtain ⟨sl, hsl, hse⟩ := List.mem_map.mp (List.of_mem_zip hxk).1
      have := h1 sl hsl
      rw [hse] at this
      exact this hre
    · intro key hkey
      have hx := h2 key hkey
      obtain ⟨sl, hsl, hse⟩ := List.mem_map.mp hx
      obtain ⟨n, hzk⟩ := zip_get_left (ks := h.slots.map (·.key)) (vs := kids) (by simpa using ht.2.1) hx
      obtain ⟨s, hs⟩ := isTyped_str hty _ (a3 sl hsl).2
      rw [hse] at hs
      subst hs
      exact ⟨_, entry_kid hzk, rfl⟩
    · rintro ⟨key, w⟩ hkv e he hke
      obtain ⟨s, k, hxk, rfl⟩ := kid_entry he
      obtain ⟨k', hxk', hr'⟩ := h3 _ hkv
      dsimp only [aEntry] at hxk' hr' hke
      subst hke
      have hkk := zip_unique a2 hxk hxk'
      subst hkk
      obtain ⟨_, g1, g2, gc, g3⟩ := hkid k (List.of_mem_zip hxk).2
      have hadm := ih k w hr' g1 g2 g3
      simp only [aEntry]
      split
      · rename_i hpk
        rw [toCamel_camelName gc]
        unfold aref at hadm
        rw [if_pos hpk] at hadm
        exact hadm
      · exact hadm
  | @frame h kids i i' t ks vs R hk _ h1 h2 ih =>
    intro ht hn hd
    obtain ⟨hi, hw1, hkid, hdef⟩ := trim_setup hE h kids ht hn hd
    have hT := ht.1
    unfold TrimHdr at hT
    rw [hk] at hT
    obtain ⟨a1, a2, a3⟩ := hT
    have hnp : ¬ Declared Γ py!"pd.DataFrame" := hN.shadow _ (by decide)
    have hp : ((Node.mk h kids).abs E).perm = true := by
      simp [Node.abs, aCombine, permOf, hk, a1]
    have hb : ((Node.mk h kids).abs E).body = frameBody E ((h.slots.map (·.key)).zip (absList E kids)) := by
      simp only [Node.abs, aCombine, aBody, hk]
    by_cases hz : (h.slots.map (·.key)).zip (absList E kids) = []
    · exact aref_admits (t := .name py!"pd.DataFrame") (by rw [hb, hz]; rfl) hdef (.anyFrame hnp)
    · obtain ⟨ovs, rest, e1, _, hov⟩ := frameBody_plain hE (fun kk hkk => by
        obtain ⟨s, hs, e⟩ := List.mem_map.mp (List.of_mem_zip (show (kk.1, kk.2) ∈ _ from hkk)).1
        rw [← e]
        exact a3 s hs) hz
      have hdf := hdef hp
      rw [hb, e1] at hdf
      have hr : aref ((Node.mk h kids).abs E) = .name h.name := by
        unfold aref
        rw [if_pos hp]
        rfl
      rw [hr]
      have hback : ∀ o ∈ ovs, ∃ key n, (key, n) ∈ (h.slots.map (·.key)).zip kids ∧ Labels key o.1 ∧ o.2 = aref (n.abs E) := by
        intro o ho
        obtain ⟨⟨key, a⟩, hm, h3, _, h4⟩ := hov.mem_right o ho
        rw [absList_eq_map, List.zip_map_right] at hm
        obtain ⟨⟨x, k⟩, hxk, e⟩ := List.mem_map.mp hm
        simp only [Prod.map, Prod.mk.injEq, id] at e
        obtain ⟨rfl, rfl⟩ := e
        exact ⟨x, k, hxk, h3, h4⟩
      refine .frame hdf hnp ?_ ?_ ?_
      · intro o ho
        obtain ⟨key, n, hm, h3, _⟩ := hback o ho
        exact ⟨key, (h1 key).mp (List.of_mem_zip hm).1, h3⟩
      · intro key hkey
        obtain ⟨n, hxk⟩ := zip_get_left (ks := h.slots.map (·.key)) (vs := kids) (by simpa using ht.2.1) ((h1 key).mpr hkey)
        have hm : (key, n.abs E) ∈ (h.slots.map (·.key)).zip (absList E kids) := by
          rw [absList_eq_map, List.zip_map_right]
          exact List.mem_map_of_mem (f := Prod.map id (Node.abs E)) hxk
        obtain ⟨o, ho, h3, _⟩ := hov.mem_left _ hm
        exact ⟨o, ho, h3⟩
      · rintro ⟨key, w⟩ hkv o ho hlab
        obtain ⟨key', n, hm, h3, h4⟩ := hback o ho
        obtain ⟨n', hm', hr'⟩ := h2 _ hkv
        dsimp only at hm' hr' hlab
        have hkk : key' = key := by
          obtain ⟨s, rfl, e⟩ := hlab
          obtain ⟨s', rfl, e'⟩ := h3
          rw [e] at e'
          have := List.append_cancel_left (List.append_cancel_right e')
          rw [this]
        subst hkk
        have := zip_unique a2 hm hm'
        subst this
        obtain ⟨_, g1, g2, _, g3⟩ := hkid n (List.of_mem_zip hm).2
        rw [h4]
        exact ih n w hr' g1 g2 g3
  | @mapping h kids k k' t ks vs R hk hl _ h1 h2 ih =>
    intro ht hn hd
    obtain ⟨hi, hw1, hkid, hdef⟩ := trim_setup hE h kids ht hn hd
    refine aref_admits (t := mapExpr E h (absList E kids)) ?_ hdef ?_
    · show aBody E h (absList E kids) = _
      rw [mapNode_body hk, hi]
    · have hfit := mapNode_con ht.1 hk
      refine .mapping (hN.shadow _ hfit.2) (mapLike_fits ht.1 hk hl) ?_ ?_
      · intro key hkey
        by_cases hs : h.slots = []
        · rw [hs]
          exact .any _ (hN.shadow _ (by decide))
        · obtain ⟨s, hs, hv⟩ := h1 hs key hkey
          refine keyExpr_lift hN ?_ (List.mem_map_of_mem (f := (·.key)) hs) hv
          intro k hk
          obtain ⟨s, hs, rfl⟩ := List.mem_map.mp hk
          exact hn.1.2.2.1 s hs
      · intro w hw
        by_cases hs : kids = []
        · rw [hs]
          exact aAlias_any hN w
        · obtain ⟨n, hp, hr⟩ := h2 hs w hw
          obtain ⟨g0, g1, g2, _, g3⟩ := hkid n hp
          exact aAlias_admits hN hw1 g0 (ih n w hr g1 g2 g3)

end Verif
