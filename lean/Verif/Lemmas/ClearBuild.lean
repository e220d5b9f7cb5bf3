import Verif.Lemmas.Clear
import Verif.Lemmas.Depth
/-
Construction of trees for clear data: values that are obviously not alike get unequal nodes, and the names of siblings cannot be
confused.
-/
namespace Verif
open Verif.Spec

/-! ### Kinds -/

theorem build_facts {E : Env} (hE : E.Fair) {f : Nat} {root : Bool} {name : Str} {v : Val} {n : Node}
    (h : build E f root name v = .ok n) (hf : v.depth < f) :
    n.name = name ∧ n.hdr.ty = v.ty ∧ n.hdr.kind = kindOf E.S v ∧ n.hdr.root = root := by
  have := build_ens hE (trivialInv E) f root name v trivial trivial hf
  rw [h] at this
  exact this.2

theorem plainKind_kindOf {S : Strategies} {v : Val} : plainKind (kindOf S v) = !rich v := by
  cases v with
  | map k _ _ _ => cases k <;> rfl
  | _ => rfl

theorem build_plain {E : Env} {f : Nat} {root : Bool} {name : Str} {v : Val} {n : Node} (hv : rich v = false)
    (h : build E f root name v = .ok n) : n.kids = [] := by
  cases f with
  | zero => cases h
  | succ f =>
    cases v with
    | seq k t es => cases hv
    | map k t ks vs => cases hv
    | func fi => cases hv
    | _ =>
      simp only [build] at h
      split at h
      · injection h with h; subst h; rfl
      · cases h

theorem plainNode_build {E : Env} (hE : E.Fair) {f : Nat} {name : Str} {v : Val} {n : Node} (hv : rich v = false)
    (h : build E f false name v = .ok n) (hf : v.depth < f) : PlainNode n := by
  obtain ⟨_, _, h3, h4⟩ := build_facts hE h hf
  exact ⟨by rw [h3, plainKind_kindOf, hv]; rfl, h4, build_plain hv h⟩

theorem rich_not_plain {E : Env} (hE : E.Fair) {f : Nat} {root : Bool} {name : Str} {v : Val} {n : Node} (hv : rich v = true)
    (h : build E f root name v = .ok n) (hf : v.depth < f) : ¬ PlainNode n := by
  rintro ⟨h1, _⟩
  obtain ⟨_, _, h3, _⟩ := build_facts hE h hf
  rw [h3, plainKind_kindOf, hv] at h1
  cases h1

theorem hash_ty {S : Strategies} {n : Node} {t : Ty} : n.hash S = .ty t ↔ plainKind n.hdr.kind = true ∧ n.hdr.ty = t := by
  cases n with
  | mk hd kids =>
    have hf : ∀ f, funcHash f ≠ H.ty t := by
      intro f
      unfold funcHash
      split
      · split <;> simp
      · simp
    cases hk : hd.kind with
    | seq k =>
      cases k <;> simp [Node.hash, hashOf, hk, Node.hdr, plainKind]
      split <;> simp
    | dict d m =>
      simp only [Node.hash, hashOf, hk, Node.hdr, plainKind]
      split <;> simp
    | frame i =>
      simp only [Node.hash, hashOf, hk, Node.hdr, plainKind]
      split <;> simp
    | func f => simp [Node.hash, hashOf, hk, Node.hdr, plainKind, hf]
    | _ => simp [Node.hash, hashOf, hk, Node.hdr, plainKind]

theorem eqv_ty {x : H} {t : Ty} : H.eqv (.ty t) x = true ↔ x = .ty t := by
  cases x with
  | ty u => simp only [H.eqv, decide_eq_true_eq, H.ty.injEq]; exact eq_comm
  | _ => simp [H.eqv]

theorem eqv_ty' {x : H} {t : Ty} : H.eqv x (.ty t) = true ↔ x = .ty t := by
  cases x with
  | ty u => simp [H.eqv]
  | _ => simp [H.eqv]

theorem updateNode_plain {k c : Node} (h : plainKind (updateNode k c).hdr.kind = true) : updateNode k c = k := by
  cases k with
  | mk h1 k1 =>
    cases c with
    | mk h2 k2 =>
      revert h
      simp only [updateNode]
      split
      · intro h; cases h
      · intro _; rfl

/-! ### Classes of elements -/

/-- The classes of plain elements are the classes of plain children. -/
theorem setChildren_types {E : Env} (hE : E.Fair) {f : Nat} {parent : Str} {es : List Val} {r : List Slot × List Node}
    (hd : ∀ e ∈ es, e.depth < f) (h : setChildren E (build E f false) parent es = .ok r) :
    (∀ e ∈ limit E.S.checkMax es, rich e = false → ∃ k ∈ r.2, k.hash E.S = .ty e.ty) ∧
    (∀ k ∈ r.2, ∀ t, k.hash E.S = .ty t → ∃ e ∈ limit E.S.checkMax es, rich e = false ∧ e.ty = t) := by
  let I : List Val → List Node × List Str → Prop := fun done acc =>
    (∀ e ∈ done, rich e = false → ∃ k ∈ acc.1, k.hash E.S = .ty e.ty) ∧
    (∀ k ∈ acc.1, ∀ t, k.hash E.S = .ty t → ∃ e ∈ done, rich e = false ∧ e.ty = t)
  have hfold := foldE_prefix (f := setStep E (build E f false) parent) (Q := fun _ => True) I (limit E.S.checkMax es) [] ([], [])
    ⟨by simp, by simp⟩ (by
    rintro pre a ⟨ns, names⟩ ha ⟨h1, h2⟩
    have ha := limit_subset ha
    show Ens (Except.bind (build E f false (freshName (parent ++ E.U.capitalize a.ty.name) names) a) _) _ _
    cases hb : build E f false (freshName (parent ++ E.U.capitalize a.ty.name) names) a with
    | error e => trivial
    | ok c =>
      obtain ⟨_, c2, c3, _⟩ := build_facts hE hb (hd a ha)
      have hc : rich a = false → c.hash E.S = .ty a.ty := by
        intro hr
        exact hash_ty.mpr ⟨by rw [c3, plainKind_kindOf, hr]; rfl, c2⟩
      have hc' : ∀ t, c.hash E.S = .ty t → rich a = false ∧ a.ty = t := by
        intro t ht
        obtain ⟨p1, p2⟩ := hash_ty.mp ht
        rw [c3, plainKind_kindOf] at p1
        exact ⟨by simpa using p1, by rw [← c2]; exact p2⟩
      simp only [Except.bind, pure, Except.pure]
      have old : ∀ k ∈ ns, ∀ t, k.hash E.S = .ty t → ∃ e ∈ pre ++ [a], rich e = false ∧ e.ty = t := by
        intro k hk t ht
        obtain ⟨e, he, h⟩ := h2 k hk t ht
        exact ⟨e, by simp [he], h⟩
      split
      · rename_i hany
        have stay : ∀ e ∈ pre ++ [a], rich e = false → ∃ k ∈ ns, k.hash E.S = .ty e.ty := by
          intro e he hr
          rcases List.mem_append.mp he with he | he
          · exact h1 e he hr
          · simp only [List.mem_singleton] at he
            subst he
            obtain ⟨k, hk, hke⟩ := List.any_eq_true.mp hany
            unfold nodeEq at hke
            rw [Bool.and_eq_true, hc hr, eqv_ty] at hke
            exact ⟨k, hk, hke.2⟩
        split
        · refine ⟨?_, ?_⟩
          · intro e he hr
            obtain ⟨k, hk, hkh⟩ := stay e he hr
            refine ⟨_, List.mem_map_of_mem hk, ?_⟩
            split
            · have hp := (hash_ty.mp hkh).1
              have : updateNode k c = k := by
                cases k with
                | mk hh kk =>
                  cases c with
                  | mk h2 k2 =>
                    simp only [updateNode]
                    split
                    · rename_i e1 _
                      have hp : plainKind hh.kind = true := hp
                      rw [e1] at hp
                      cases hp
                    · rfl
              rw [this]; exact hkh
            · exact hkh
          · intro k hk t ht
            obtain ⟨k0, hk0, rfl⟩ := List.mem_map.mp hk
            split at ht
            · rw [updateNode_plain (hash_ty.mp ht).1] at ht
              exact old k0 hk0 t ht
            · exact old k0 hk0 t ht
        · exact ⟨stay, old⟩
      · refine ⟨?_, ?_⟩
        · intro e he hr
          rcases List.mem_append.mp he with he | he
          · obtain ⟨k, hk, h⟩ := h1 e he hr
            exact ⟨k, by simp [hk], h⟩
          · simp only [List.mem_singleton] at he
            subst he
            exact ⟨c, by simp, hc hr⟩
        · intro k hk t ht
          rcases List.mem_append.mp hk with hk | hk
          · exact old k hk t ht
          · simp only [List.mem_singleton] at hk
            subst hk
            exact ⟨a, by simp, hc' t ht⟩)
  rw [List.nil_append] at hfold
  unfold setChildren at h
  cases hfe : foldE (setStep E (build E f false) parent) ([], []) (limit E.S.checkMax es) with
  | error e => rw [hfe] at h; cases h
  | ok acc =>
    rw [hfe] at h hfold
    obtain ⟨kids, names⟩ := acc
    obtain ⟨h1, h2⟩ := hfold
    have hp : ∀ i (l : List Node) k, k ∈ E.order i l ↔ k ∈ l := fun i l k => (hE i l).mem_iff
    simp only [bind, Except.bind, pure, Except.pure] at h
    split at h
    · split at h
      · cases h
      · rename_i m hm
        injection h with h
        subst h
        have notTy : ∀ k, isTypedDict E.S k = true → ∀ t, k.hash E.S ≠ .ty t := by
          intro k hk t ht
          rw [typed_hash hk] at ht
          cases ht
        refine ⟨?_, ?_⟩
        · intro e he hr
          obtain ⟨k, hk, hkh⟩ := h1 e he hr
          refine ⟨k, ?_, hkh⟩
          rw [hp, List.mem_append, List.mem_filter]
          refine .inl ⟨hk, ?_⟩
          cases ht : isTypedDict E.S k with
          | false => rfl
          | true => exact absurd hkh (notTy k ht _)
        · intro k hk t ht
          rw [hp, List.mem_append, List.mem_filter] at hk
          rcases hk with hk | hk
          · exact h2 k hk.1 t ht
          · simp only [List.mem_singleton] at hk
            subst hk
            exfalso
            have hk := (hash_ty.mp ht).1
            cases hds : (E.order 1 kids).filter (isTypedDict E.S) with
            | nil => rw [hds] at hm; cases hm
            | cons d ds =>
              rw [hds] at hm
              unfold mergeDicts at hm
              dsimp only at hm
              simp only [bind, Except.bind] at hm
              split at hm
              · cases hm
              · split at hm
                injection hm with hm
                rw [← hm] at hk
                cases hk
    · injection h with h
      subst h
      refine ⟨?_, ?_⟩
      · intro e he hr
        obtain ⟨k, hk, hkh⟩ := h1 e he hr
        exact ⟨k, (hp 0 kids k).mpr hk, hkh⟩
      · intro k hk t ht
        exact h2 k ((hp 0 kids k).mp hk) t ht

/-! ### Unequal nodes -/

theorem nodeEq_slotKeys {S : Strategies} {a b : Node} (ta : isTypedDict S a = true) (tb : isTypedDict S b = true)
    (ha : ∀ k ∈ a.hdr.slots.map (·.key), k.isStr = true) (hb : ∀ k ∈ b.hdr.slots.map (·.key), k.isStr = true)
    (la : a.hdr.slots.length = a.kids.length) (lb : b.hdr.slots.length = b.kids.length) (h : nodeEq S a b = true) :
    ∀ k, k ∈ a.hdr.slots.map (·.key) ↔ k ∈ b.hdr.slots.map (·.key) := by
  have strs : ∀ l : List Key, (∀ k ∈ l, k.isStr = true) → ∃ K : List Str, l = K.map Key.str := by
    intro l
    induction l with
    | nil => intro _; exact ⟨[], rfl⟩
    | cons k r ih =>
      intro hl
      obtain ⟨K, rfl⟩ := ih (fun k hk => hl k (by simp [hk]))
      have := hl k (by simp)
      cases k with
      | str s => exact ⟨s :: K, rfl⟩
      | _ => simp [Key.isStr] at this
  obtain ⟨K, hK⟩ := strs _ ha
  obtain ⟨K', hK'⟩ := strs _ hb
  have := nodeEq_keys ta tb hK hK' la lb h
  intro k
  rw [hK, hK', List.mem_map, List.mem_map]
  constructor
  · rintro ⟨s, hs, rfl⟩; exact ⟨s, (this s).mp hs, rfl⟩
  · rintro ⟨s, hs, rfl⟩; exact ⟨s, (this s).mpr hs, rfl⟩

theorem tag_ne {S : Strategies} {a b : Node} (h : a.hdr.kind.tag ≠ b.hdr.kind.tag) : nodeEq S a b = false := by
  unfold nodeEq
  rw [decide_eq_false h]
  rfl

theorem alpha_isStr {k : Key} (h : k.hidden = true ∨ AlphaKey k) : k.isStr = true := by
  cases k with
  | str s => rfl
  | _ => rcases h with h | h
         · simp [Key.hidden] at h
         · exact absurd h (by simp [AlphaKey])

theorem seq_hash {S : Strategies} {hd : Hdr} {kids : List Node} {k : SeqKind} (hk : hd.kind = .seq k)
    (hc : k ≠ .tuple ∨ S.tuple = .anySize) : (Node.mk hd kids).hash S = .set (kids.map (fun n => n.hash S)) := by
  cases k <;> simp_all [Node.hash, hashOf, hashList_eq_map]

theorem moreClasses_ne {E : Env} (hE : E.Fair) {f g : Nat} {p q : Str} {es es' : List Val} {r r' : List Slot × List Node}
    (hd : ∀ e ∈ es, e.depth < f) (hd' : ∀ e ∈ es', e.depth < g)
    (h : setChildren E (build E f false) p es = .ok r) (h' : setChildren E (build E g false) q es' = .ok r')
    (hm : MoreClasses (limit E.S.checkMax es) (limit E.S.checkMax es')) :
    ¬ ((∀ x ∈ r.2, ∃ y ∈ r'.2, H.eqv (x.hash E.S) (y.hash E.S) = true) ∨
       (∀ x ∈ r.2, ∃ y ∈ r'.2, H.eqv (y.hash E.S) (x.hash E.S) = true)) := by
  obtain ⟨e, he, hr, hne⟩ := hm
  obtain ⟨k, hk, hkh⟩ := (setChildren_types hE hd h).1 e he hr
  have hno : ∀ y ∈ r'.2, y.hash E.S ≠ .ty e.ty := by
    intro y hy hyh
    obtain ⟨e', he', hr', hty⟩ := (setChildren_types hE hd' h').2 y hy _ hyh
    exact hne e' he' hr' hty
  rintro (h1 | h1)
  · obtain ⟨y, hy, he⟩ := h1 k hk
    rw [hkh, eqv_ty] at he
    exact hno y hy he
  · obtain ⟨y, hy, he⟩ := h1 k hk
    rw [hkh, eqv_ty'] at he
    exact hno y hy he

theorem seqTag_ne {k k' : SeqKind} (h : otherKind k k' = true) : (NKind.seq k).tag ≠ (NKind.seq k').tag := by
  cases k <;> cases k' <;> first | (exact absurd h (by decide)) | (simp [NKind.tag])

theorem apart_nodeEq {E : Env} (hE : E.Fair) {f g : Nat} {p q : Str} {v w : Val} {a b : Node} (h : Apart E.S v w)
    (hv : WellKeyed E.S v) (hw : WellKeyed E.S w) (ha : build E f false p v = .ok a) (hb : build E g false q w = .ok b)
    (hf : v.depth < f) (hg : w.depth < g) : nodeEq E.S a b = false := by
  obtain ⟨_, _, ka, _⟩ := build_facts hE ha hf
  obtain ⟨_, _, kb, _⟩ := build_facts hE hb hg
  have tags : (kindOf E.S v).tag ≠ (kindOf E.S w).tag → nodeEq E.S a b = false := by
    intro h
    refine tag_ne ?_
    rw [ka, kb]; exact h
  cases v with
  | seq k t es =>
    cases w with
    | seq k' t' es' =>
      rcases h with h | ⟨hc, h⟩
      · exact tags (seqTag_ne h)
      · by_cases hkk : otherKind k k' = true
        · exact tags (seqTag_ne hkk)
        have hc' : k' ≠ .tuple ∨ E.S.tuple = .anySize := by
          rcases hc with hc | hc
          · refine .inl ?_
            rintro rfl
            apply hkk
            revert hc
            cases k <;> decide
          · exact .inr hc
        have nofix : ∀ {k : SeqKind}, k ≠ .tuple ∨ E.S.tuple = .anySize → ¬ (k = .tuple ∧ E.S.tuple = .fixed) := by
          rintro k h ⟨rfl, e⟩
          rcases h with h | h
          · exact h rfl
          · rw [e] at h; cases h
        cases f with
        | zero => cases ha
        | succ f =>
        cases g with
        | zero => cases hb
        | succ g =>
          rw [build_seq, if_neg (nofix hc)] at ha
          rw [build_seq, if_neg (nofix hc')] at hb
          have hd : ∀ e ∈ es, e.depth < f := by
            intro e he
            have := depth_le_depthList he
            simp only [Val.depth] at hf
            omega
          have hd' : ∀ e ∈ es', e.depth < g := by
            intro e he
            have := depth_le_depthList he
            simp only [Val.depth] at hg
            omega
          split at ha
          · split at ha
            · rename_i s1 k1 hr
              split at hb
              · split at hb
                · rename_i s2 k2 hr'
                  injection ha with ha
                  injection hb with hb
                  subst ha hb
                  unfold nodeEq
                  rw [seq_hash (k := k) rfl hc, seq_hash (k := k') rfl hc']
                  cases he : H.eqv (.set (k1.map (fun n => n.hash E.S))) (.set (k2.map (fun n => n.hash E.S))) with
                  | false => simp
                  | true =>
                    exfalso
                    rw [eqv_set] at he
                    rcases h with h | h
                    · refine moreClasses_ne hE hd hd' hr hr' h (.inl ?_)
                      intro x hx
                      obtain ⟨y, hy, he⟩ := he.1 _ (List.mem_map_of_mem hx)
                      obtain ⟨z, hz, rfl⟩ := List.mem_map.mp hy
                      exact ⟨z, hz, he⟩
                    · refine moreClasses_ne hE hd' hd hr' hr h (.inr ?_)
                      intro x hx
                      obtain ⟨y, hy, he⟩ := he.2 _ (List.mem_map_of_mem hx)
                      obtain ⟨z, hz, rfl⟩ := List.mem_map.mp hy
                      exact ⟨z, hz, he⟩
                · cases hb
              · cases hb
            · cases ha
          · cases ha
    | map k' t' ks' vs' => cases k' <;> cases k <;> exact tags (by simp [kindOf, NKind.tag])
    | func fi => cases k <;> exact tags (by simp [kindOf, NKind.tag])
    | _ => exact absurd h (by simp [Apart])
  | map k t ks vs =>
    cases w with
    | map k' t' ks' vs' =>
      cases k with
      | dict =>
        cases k' with
        | dict =>
          obtain ⟨hS, hne⟩ := h
          cases f with
          | zero => cases ha
          | succ f =>
          cases g with
          | zero => cases hb
          | succ g =>
            obtain ⟨k1, hk1, rfl⟩ := build_dict ha
            obtain ⟨k2, hk2, rfl⟩ := build_dict hb
            have hdd : ∀ l : List (Key × Val), dictData E.S l = l := by
              intro l; simp [dictData, hS]
            rw [hdd] at hk1 hk2
            have typed : ∀ {ks : List Key} {vs : List Val} (nm : Str) (rt : Bool) (t : Ty) (sl : List Slot) (kd : List Node),
                (∀ k ∈ ks, k.hidden = true ∨ AlphaKey k) →
                isTypedDict E.S (.mk ⟨.dict (dictData E.S (ks.zip vs)) (DMeta.ofData (dictData E.S (ks.zip vs))), nm, rt, t, sl⟩ kd) = true := by
              intro ks vs nm rt t sl kd hks
              simp only [isTypedDict, DMeta.isTyped, hS, decide_true, Bool.and_true, hdd, DMeta.ofData, allStr, List.all_eq_true]
              intro kv hkv
              exact alpha_isStr (hks kv.1 (List.of_mem_zip hkv).1)
            have keys : ∀ {f : Nat} {nm : Str} {ks : List Key} {vs : List Val} {kids : List (Key × Node)},
                mapKids (build E f false) nm (keySuffix E.U) (visibleItems (ks.zip vs)) = .ok kids →
                (shareEqual E nm kids).1.map (·.key) = (entries (.map .dict .dict ks vs)).map (·.1) := by
              intro f nm ks vs kids hk
              rw [shareEqual_keys, mapKids_keys hk]
              rfl
            have strs : ∀ {ks : List Key} {vs : List Val}, (∀ k ∈ ks, k.hidden = true ∨ AlphaKey k) →
                ∀ k ∈ (entries (.map .dict .dict ks vs)).map (·.1), k.isStr = true := by
              intro ks vs hks k hk
              obtain ⟨kv, hkv, rfl⟩ := List.mem_map.mp hk
              exact alpha_isStr (hks kv.1 (List.of_mem_zip (List.mem_filter.mp hkv).1).1)
            cases he : nodeEq E.S (.mk ⟨.dict (dictData E.S (ks.zip vs)) (DMeta.ofData (dictData E.S (ks.zip vs))), p, false, t,
                (shareEqual E p k1).1⟩ (shareEqual E p k1).2)
                (.mk ⟨.dict (dictData E.S (ks'.zip vs')) (DMeta.ofData (dictData E.S (ks'.zip vs'))), q, false, t',
                (shareEqual E q k2).1⟩ (shareEqual E q k2).2) with
            | false => rfl
            | true =>
              exfalso
              apply hne
              have := nodeEq_slotKeys (typed _ _ _ _ _ hv.2.2) (typed _ _ _ _ _ hw.2.2)
                (by show ∀ k ∈ (shareEqual E p k1).1.map (·.key), _; rw [keys hk1]; exact strs hv.2.2)
                (by show ∀ k ∈ (shareEqual E q k2).1.map (·.key), _; rw [keys hk2]; exact strs hw.2.2)
                (shareEqual_length E p k1) (shareEqual_length E q k2) he
              have this' : ∀ k, k ∈ (shareEqual E p k1).1.map (·.key) ↔ k ∈ (shareEqual E q k2).1.map (·.key) := this
              rw [keys hk1, keys hk2] at this'
              exact this'
        | proxy => exact tags (by simp [kindOf, NKind.tag])
        | frame i => exact tags (by simp [kindOf, NKind.tag])
      | proxy =>
        cases k' with
        | dict => exact tags (by simp [kindOf, NKind.tag])
        | proxy => exact absurd h (by simp [Apart])
        | frame i => exact tags (by simp [kindOf, NKind.tag])
      | frame i =>
        cases k' with
        | dict => exact tags (by simp [kindOf, NKind.tag])
        | proxy => exact tags (by simp [kindOf, NKind.tag])
        | frame j => exact absurd h (by simp [Apart])
    | seq k' t' es' => cases k <;> cases k' <;> exact tags (by simp [kindOf, NKind.tag])
    | func fi => cases k <;> exact tags (by simp [kindOf, NKind.tag])
    | _ => exact absurd h (by cases k <;> simp [Apart])
  | func fi =>
    cases w with
    | seq k' t' es' => cases k' <;> exact tags (by simp [kindOf, NKind.tag])
    | map k' t' ks' vs' => cases k' <;> exact tags (by simp [kindOf, NKind.tag])
    | _ => exact absurd h (by simp [Apart])
  | _ => exact absurd h (by cases w <;> simp [Apart])

/-! ### Sharing -/

/-- The groups of keys with equal children: each begins with the key whose child is kept. -/
structure Grouped (S : Strategies) (done : List (Key × Node)) (g : List (Node × List Key)) : Prop where
  head : ∀ p ∈ g, ∃ k ks, p.2 = k :: ks ∧ (k, p.1) ∈ done ∧ ∀ x ∈ ks, ∃ n, (x, n) ∈ done ∧ nodeEq S n p.1 = true
  nodup : ∀ p ∈ g, p.2.Nodup
  keys : ∀ p ∈ g, ∀ k ∈ p.2, k ∈ done.map (·.1)

theorem grouped_step {S : Strategies} {done : List (Key × Node)} {g : List (Node × List Key)} (h : Grouped S done g)
    {kn : Key × Node} (hk : kn.1 ∉ done.map (·.1)) : Grouped S (done ++ [kn]) (addGroup S kn.1 kn.2 g) where
  head := by
    intro p hp
    rcases mem_addGroup hp with hp | rfl | ⟨ks, h1, h2, h3⟩
    · obtain ⟨k, ks, e, h1, h2⟩ := h.head p hp
      refine ⟨k, ks, e, by simp [h1], fun x hx => ?_⟩
      obtain ⟨n, a, b⟩ := h2 x hx
      exact ⟨n, by simp [a], b⟩
    · exact ⟨kn.1, [], rfl, by simp, by simp⟩
    · obtain ⟨k, ks', e, h4, h5⟩ := h.head _ h1
      dsimp only at e h4 h5
      refine ⟨k, ks' ++ [kn.1], by rw [h3, e]; rfl, by simp [h4], fun x hx => ?_⟩
      rcases List.mem_append.mp hx with hx | hx
      · obtain ⟨n, a, b⟩ := h5 x hx
        exact ⟨n, by simp [a], b⟩
      · simp only [List.mem_singleton] at hx
        subst hx
        exact ⟨kn.2, by simp, h2⟩
  nodup := by
    intro p hp
    rcases mem_addGroup hp with hp | rfl | ⟨ks, h1, h2, h3⟩
    · exact h.nodup p hp
    · simp
    · rw [h3, List.nodup_append]
      refine ⟨h.nodup _ h1, by simp, ?_⟩
      intro x hx y hy
      simp only [List.mem_singleton] at hy
      subst hy
      intro e
      exact hk (h.keys _ h1 _ (e ▸ hx))
  keys := by
    intro p hp k hkp
    rcases mem_addGroup hp with hp | rfl | ⟨ks, h1, h2, h3⟩
    · have := h.keys p hp k hkp
      rw [List.map_append, List.mem_append]
      exact .inl this
    · simp only [List.mem_singleton] at hkp
      subst hkp
      simp
    · rw [h3] at hkp
      rw [List.map_append, List.mem_append]
      rcases List.mem_append.mp hkp with hkp | hkp
      · exact .inl (h.keys _ h1 k hkp)
      · simp only [List.mem_singleton] at hkp
        subst hkp
        exact .inr (by simp)

theorem grouped_foldl {S : Strategies} : ∀ {kids done : List (Key × Node)} {g : List (Node × List Key)},
    ((done ++ kids).map (·.1)).Nodup → Grouped S done g →
    Grouped S (done ++ kids) (kids.foldl (fun g kn => addGroup S kn.1 kn.2 g) g)
  | [], done, g, _, h => by simpa using h
  | kn :: kids, done, g, hn, h => by
    have hk : kn.1 ∉ done.map (·.1) := by
      rw [List.map_append, List.nodup_append] at hn
      intro hm
      exact hn.2.2 _ hm kn.1 (by simp) rfl
    have := grouped_foldl (kids := kids) (by simpa using hn) (grouped_step h hk)
    simpa using this

/-- The number of a shared child. -/
def numbered (m : Nat) : Str := if m ≤ 1 then [] else natStr m

theorem numbered_inj {a b : Nat} (ha : 1 ≤ a) (hb : 1 ≤ b) (h : numbered a = numbered b) : a = b := by
  unfold numbered at h
  split at h <;> split at h
  · omega
  · exact absurd h.symm (natStr_ne_nil _)
  · exact absurd h (natStr_ne_nil _)
  · exact natStr_inj h

theorem numbered_digit {m : Nat} : ∀ c ∈ numbered m, c.isDigit = true := by
  intro c hc
  unfold numbered at hc
  split at hc
  · cases hc
  · exact isDigit_of_mem_natStr hc

/-- What becomes of a group: a child with several keys gets a number beyond those of its class. -/
def Renamed (U : Uni) (parent : Str) (counts : List (Ty × Nat)) (p q : Node × List Key) : Prop :=
  q.2 = p.2 ∧ ((p.2.length ≤ 1 ∧ q.1 = p.1) ∨
    1 < p.2.length ∧ ∃ m, (countTy p.1.hdr.ty counts).getD 0 < m ∧
      q.1 = p.1.rename (parent ++ (U.capitalize p.1.hdr.ty.name ++ numbered m)))

theorem countTy_cons {t u : Ty} {n : Nat} {l : List (Ty × Nat)} : countTy t ((u, n) :: l) = if u = t then some n else countTy t l := rfl

theorem renameGroups_renamed {U : Uni} {parent : Str} : ∀ {g : List (Node × List Key)} {counts : List (Ty × Nat)},
    (∀ t n, countTy t counts = some n → 1 ≤ n) →
    ∀ q ∈ renameGroups U parent counts g, ∃ p ∈ g, Renamed U parent counts p q
  | [], _, _ => by simp [renameGroups]
  | (n, ks) :: r, counts, hc => by
    intro q hq
    have later : ∀ {m : Nat}, (countTy n.hdr.ty counts).getD 0 ≤ m → 1 ≤ m →
        q ∈ renameGroups U parent ((n.hdr.ty, m) :: counts) r → ∃ p ∈ (n, ks) :: r, Renamed U parent counts p q := by
      intro m hm h1 hq
      obtain ⟨p, hp, e, h⟩ := renameGroups_renamed (counts := (n.hdr.ty, m) :: counts) (by
        intro t c hcc
        rw [countTy_cons] at hcc
        split at hcc
        · injection hcc with hcc; omega
        · exact hc t c hcc) q hq
      refine ⟨p, by simp [hp], e, ?_⟩
      rcases h with h | ⟨h1, m', h2, h3⟩
      · exact .inl h
      · refine .inr ⟨h1, m', ?_, h3⟩
        rw [countTy_cons] at h2
        split at h2
        · rename_i et
          rw [← et]
          simp only [Option.getD_some] at h2
          omega
        · exact h2
    simp only [renameGroups] at hq
    split at hq
    · rename_i hl
      split at hq
      · rename_i c hcc
        have := hc _ _ hcc
        rcases List.mem_cons.mp hq with rfl | hq
        · refine ⟨(n, ks), by simp, rfl, .inr ⟨hl, c + 1, ?_, ?_⟩⟩
          · rw [hcc]; simp
          · unfold numbered
            rw [if_neg (by omega), ← List.append_assoc]
        · exact later (by rw [hcc]; simp) (by omega) hq
      · rename_i hcc
        rcases List.mem_cons.mp hq with rfl | hq
        · refine ⟨(n, ks), by simp, rfl, .inr ⟨hl, 1, ?_, ?_⟩⟩
          · rw [hcc]; simp
          · simp [numbered]
        · exact later (by rw [hcc]; simp) (by omega) hq
    · rename_i hl
      rcases List.mem_cons.mp hq with rfl | hq
      · exact ⟨(n, ks), by simp, rfl, .inl ⟨by dsimp only; omega, rfl⟩⟩
      · obtain ⟨p, hp, h⟩ := renameGroups_renamed hc q hq
        exact ⟨p, by simp [hp], h⟩

/-- Two groups that are both renamed and have the same class get different numbers. -/
def OtherNumber (U : Uni) (parent : Str) (a b : Node × List Key) : Prop :=
  1 < a.2.length → 1 < b.2.length → a.1.hdr.ty = b.1.hdr.ty → a.1.name ≠ b.1.name

theorem ty_rename {n : Node} {x : Str} : (n.rename x).hdr.ty = n.hdr.ty := by
  cases n; rfl

theorem renameGroups_numbers {U : Uni} {parent : Str} : ∀ {g : List (Node × List Key)} {counts : List (Ty × Nat)},
    (∀ t n, countTy t counts = some n → 1 ≤ n) →
    (renameGroups U parent counts g).Pairwise (OtherNumber U parent)
  | [], _, _ => by simp [renameGroups]
  | (n, ks) :: r, counts, hc => by
    have later : ∀ {m : Nat}, (countTy n.hdr.ty counts).getD 0 < m → 1 ≤ m →
        (((n.rename (parent ++ (U.capitalize n.hdr.ty.name ++ numbered m))), ks) ::
          renameGroups U parent ((n.hdr.ty, m) :: counts) r).Pairwise (OtherNumber U parent) := by
      intro m hm h1
      have hc' : ∀ t c, countTy t ((n.hdr.ty, m) :: counts) = some c → 1 ≤ c := by
        intro t c hcc
        rw [countTy_cons] at hcc
        split at hcc
        · injection hcc with hcc; omega
        · exact hc t c hcc
      refine List.pairwise_cons.mpr ⟨?_, renameGroups_numbers hc'⟩
      intro q hq la lb et en
      obtain ⟨p, hp, e, h⟩ := renameGroups_renamed hc' q hq
      rcases h with ⟨h, _⟩ | ⟨h1', m', h2, h3⟩
      · rw [e] at lb; omega
      · have ep : p.1.hdr.ty = n.hdr.ty := by
          dsimp only at et
          rw [ty_rename] at et
          rw [et, h3, ty_rename]
        rw [ep] at h2 h3
        rw [countTy_cons, if_pos rfl] at h2
        simp only [Option.getD_some] at h2
        dsimp only at en
        rw [h3, name_rename, name_rename] at en
        have := numbered_inj h1 (by omega) (List.append_cancel_left (List.append_cancel_left en))
        omega
    simp only [renameGroups]
    split
    · split
      · rename_i c hcc
        have := hc _ _ hcc
        have h := later (m := c + 1) (by rw [hcc]; simp) (by omega)
        unfold numbered at h
        rw [if_neg (by omega)] at h
        rw [List.append_assoc]
        exact h
      · rename_i hcc
        have h := later (m := 1) (by rw [hcc]; simp) (by omega)
        simpa [numbered] using h
    · rename_i hl
      refine List.pairwise_cons.mpr ⟨?_, renameGroups_numbers hc⟩
      intro q hq la
      dsimp only at la
      omega

theorem pairwise_or {α} {R : α → α → Prop} (hs : ∀ a b, R a b → R b a) : ∀ {l : List α}, l.Pairwise R → ∀ a ∈ l, ∀ b ∈ l, a = b ∨ R a b
  | [], _, a, h, _, _ => by simp at h
  | x :: r, hp, a, ha, b, hb => by
    rw [List.pairwise_cons] at hp
    rcases List.mem_cons.mp ha with ea | ha' <;> rcases List.mem_cons.mp hb with eb | hb'
    · exact .inl (by rw [ea, eb])
    · exact .inr (by rw [ea]; exact hp.1 b hb')
    · exact .inr (by rw [eb]; exact hs _ _ (hp.1 a ha'))
    · exact pairwise_or hs hp.2 a ha' b hb'

theorem OtherNumber.symm {U : Uni} {parent : Str} {a b : Node × List Key} (h : OtherNumber U parent a b) : OtherNumber U parent b a :=
  fun h1 h2 h3 h4 => h h2 h1 h3.symm h4.symm

/-- What is known about the child of a mapping for a key. -/
structure KidOk (E : Env) (parent : Str) (k : Key) (v : Val) (n : Node) : Prop where
  name : n.name = parent ++ keyName k
  start : Start (keyName k)
  key : k ≠ .none
  ty : n.hdr.ty = v.ty
  letter : LetterFirst v.ty
  kind : plainKind n.hdr.kind = !rich v
  plain : rich v = false → PlainNode n
  tree : NameTree n
  single : Every (fun u => Unlike E.S (family u)) v → Single n

theorem tag_plain {a b : NKind} (h : a.tag = b.tag) : plainKind a = plainKind b := by
  have key : ∀ k : NKind, plainKind k = (match k.tag with | .inst | .cls | .module | .io | .ndarray => true | _ => false) := by
    intro k
    cases k with
    | seq k => cases k <;> rfl
    | _ => rfl
  rw [key, key, h]

theorem nodeEq_plain {S : Strategies} {a b : Node} (h : nodeEq S a b = true) : plainKind a.hdr.kind = plainKind b.hdr.kind := by
  unfold nodeEq at h
  rw [Bool.and_eq_true, decide_eq_true_eq] at h
  exact tag_plain h.1

theorem filter_one {k : Key} : ∀ {l : List Key}, l.Nodup → k ∈ l → (l.filter (fun x => [k].contains x)).length = 1
  | [], _, h => by simp at h
  | x :: r, hn, h => by
    rw [List.nodup_cons] at hn
    by_cases e : x = k
    · subst e
      have : r.filter (fun y => [x].contains y) = [] := by
        rw [List.filter_eq_nil_iff]
        intro y hy
        simp only [List.contains_cons, List.contains_nil, Bool.or_false, beq_iff_eq]
        rintro rfl
        exact hn.1 hy
      rw [List.filter_cons_of_pos (by simp), this]
      rfl
    · rw [List.filter_cons_of_neg (by simpa using e)]
      rcases List.mem_cons.mp h with rfl | h
      · exact absurd rfl e
      · exact filter_one hn.2 h

/-- The names of the children of a clear mapping. -/
theorem shareEqual_clear {E : Env} {parent : Str} {kids : List (Key × Node)} {G : List (Key × Val)} (hn : (kids.map (·.1)).Nodup)
    (hk : ∀ kn ∈ kids, ∃ v, (kn.1, v) ∈ G ∧ KidOk E parent kn.1 v kn.2)
    (hne : Unlike E.S G → ∀ a ∈ kids, ∀ b ∈ kids, a.1 ≠ b.1 → plainKind a.2.hdr.kind = false → plainKind b.2.hdr.kind = false →
      nodeEq E.S a.2 b.2 = false)
    (hK : KeysApart G)
    (hU : Unlike E.S G ∨ ClassesApart G ∧ ∀ x ∈ G, Every (fun u => Unlike E.S (family u)) x.2) :
    (∀ a ∈ (shareEqual E parent kids).2, ∀ b ∈ (shareEqual E parent kids).2,
      PlainNode a ∨ PlainNode b ∨ a = b ∨ Separate a.name b.name) ∧
    (∀ k ∈ (shareEqual E parent kids).2, PlainNode k ∨ ∃ t, Start t ∧ k.name = parent ++ t) ∧
    (∀ k ∈ (shareEqual E parent kids).2, NameTree k) ∧
    (Unlike E.S G → (∀ x ∈ G, Every (fun u => Unlike E.S (family u)) x.2) →
      (∀ sk ∈ (shareEqual E parent kids).1.zip (shareEqual E parent kids).2, sk.1.mult = 1 ∨ PlainNode sk.2) ∧
      ∀ k ∈ (shareEqual E parent kids).2, Single k) := by
  have hG : Grouped E.S kids (kids.foldl (fun g kn => addGroup E.S kn.1 kn.2 g) []) := by
    have := grouped_foldl (S := E.S) (kids := kids) (done := []) (g := []) (by simpa using hn) ⟨by simp, by simp, by simp⟩
    simpa using this
  have hcov : Groups E.S kids (kids.foldl (fun g kn => addGroup E.S kn.1 kn.2 g) []) := by
    have := groups_foldl (S := E.S) (kids := kids) (done := []) (g := []) ⟨by simp, by simp⟩
    simpa using this
  have hnum := renameGroups_numbers (U := E.U) (parent := parent) (g := kids.foldl (fun g kn => addGroup E.S kn.1 kn.2 g) [])
    (counts := []) (by simp [countTy])
  have hren := renameGroups_renamed (U := E.U) (parent := parent) (g := kids.foldl (fun g kn => addGroup E.S kn.1 kn.2 g) [])
    (counts := []) (by simp [countTy])
  -- plain children
  have plain : ∀ k n, (k, n) ∈ kids → plainKind n.hdr.kind = true → PlainNode n := by
    intro k n hkn hp
    obtain ⟨v, _, hv⟩ := hk _ hkn
    refine hv.plain ?_
    have := hv.kind
    dsimp only at this
    rw [hp] at this
    simpa using this
  -- outcome of each group
  have out : ∀ q ∈ renameGroups E.U parent [] (kids.foldl (fun g kn => addGroup E.S kn.1 kn.2 g) []),
      PlainNode q.1 ∨ (∃ k, q.2 = [k] ∧ (k, q.1) ∈ kids ∧ plainKind q.1.hdr.kind = false) ∨
      (¬ Unlike E.S G ∧ 1 < q.2.length ∧ ∃ k n m, (k, n) ∈ kids ∧ plainKind n.hdr.kind = false ∧
        q.1 = n.rename (parent ++ (E.U.capitalize n.hdr.ty.name ++ numbered m))) := by
    intro q hq
    obtain ⟨p, hp, e, h⟩ := hren q hq
    obtain ⟨k0, ks, e0, h0, hs⟩ := hG.head p hp
    rcases h with ⟨hl, e1⟩ | ⟨hl, m, _, e1⟩
    · rw [e0] at hl
      have : ks = [] := by
        cases ks with
        | nil => rfl
        | cons a b => simp at hl
      subst this
      cases hpk : plainKind p.1.hdr.kind with
      | true => exact .inl (by rw [e1]; exact plain k0 _ h0 hpk)
      | false => exact .inr (.inl ⟨k0, by rw [e, e0], by rw [e1]; exact h0, by rw [e1]; exact hpk⟩)
    · cases hpk : plainKind p.1.hdr.kind with
      | true => exact .inl (by rw [e1]; exact (plain k0 _ h0 hpk).rename)
      | false =>
        refine .inr (.inr ⟨?_, by rw [e]; exact hl, k0, p.1, m, h0, hpk, e1⟩)
        intro hun
        cases ks with
        | nil => rw [e0] at hl; simp at hl
        | cons k1 r =>
          obtain ⟨n1, h1, he1⟩ := hs k1 (by simp)
          have hne1 : k1 ≠ k0 := by
            have := hG.nodup p hp
            rw [e0, List.nodup_cons] at this
            rintro rfl
            exact this.1 (by simp)
          have := hne hun (k1, n1) h1 (k0, p.1) h0 hne1 (by rw [nodeEq_plain he1]; exact hpk) hpk
          rw [this] at he1
          cases he1
  -- the child of each key
  have fin : ∀ kn ∈ kids, ∃ q ∈ renameGroups E.U parent [] (kids.foldl (fun g kn => addGroup E.S kn.1 kn.2 g) []),
      findGroup kn.1 (renameGroups E.U parent [] (kids.foldl (fun g kn => addGroup E.S kn.1 kn.2 g) [])) = some q ∧ kn.1 ∈ q.2 := by
    intro kn hkn
    have hk : ∃ p ∈ renameGroups E.U parent [] (kids.foldl (fun g kn => addGroup E.S kn.1 kn.2 g) []), kn.1 ∈ p.2 := by
      obtain ⟨p, hp, hm⟩ := hcov.cover kn hkn
      have : p.2 ∈ (renameGroups E.U parent [] (kids.foldl (fun g kn => addGroup E.S kn.1 kn.2 g) [])).map (·.2) := by
        rw [renameGroups_keys]; exact List.mem_map_of_mem hp
      obtain ⟨q, hq, e⟩ := List.mem_map.mp this
      exact ⟨q, hq, by rw [e]; exact hm⟩
    obtain ⟨q, hq⟩ := findGroup_some hk
    obtain ⟨h1, h2⟩ := findGroup_mem hq
    exact ⟨q, h1, hq, h2⟩
  have mem : ∀ a ∈ (shareEqual E parent kids).2, ∃ q ∈ renameGroups E.U parent []
      (kids.foldl (fun g kn => addGroup E.S kn.1 kn.2 g) []), a = q.1 := by
    intro a ha
    simp only [shareEqual, List.map_map, List.mem_map, Function.comp] at ha
    obtain ⟨kn, hkn, rfl⟩ := ha
    obtain ⟨q, hq, hf, _⟩ := fin kn hkn
    rw [hf]
    exact ⟨q, hq, rfl⟩
  have token : ∀ {k n} (m : Nat), (k, n) ∈ kids → Token (E.U.capitalize n.hdr.ty.name ++ numbered m) := by
    intro k n m hkn
    obtain ⟨v, _, hv⟩ := hk _ hkn
    rw [show n.hdr.ty = v.ty from hv.ty]
    exact token_capitalize hv.letter numbered_digit
  have className : ∀ {k n} (m : Nat), (k, n) ∈ kids → ∀ {v : Val}, v.ty = n.hdr.ty → LetterFirst v.ty →
      ClassWord v.ty (E.U.capitalize n.hdr.ty.name ++ numbered m) := by
    intro k n m hkn v e hl
    rw [← e]
    exact className_capitalize hl numbered_digit
  have isRich : ∀ {k v n}, KidOk E parent k v n → plainKind n.hdr.kind = false → rich v = true := by
    intro k v n hv h
    have := hv.kind
    rw [h] at this
    simpa using this
  refine ⟨?_, ?_, ?_, ?_⟩
  · intro a ha b hb
    obtain ⟨q, hq, rfl⟩ := mem a ha
    obtain ⟨q', hq', rfl⟩ := mem b hb
    have mixed : ∀ {q q' : Node × List Key}, (∃ k, q.2 = [k] ∧ (k, q.1) ∈ kids ∧ plainKind q.1.hdr.kind = false) →
        (¬ Unlike E.S G ∧ 1 < q'.2.length ∧ ∃ k n m, (k, n) ∈ kids ∧ plainKind n.hdr.kind = false ∧
          q'.1 = n.rename (parent ++ (E.U.capitalize n.hdr.ty.name ++ numbered m))) → Separate q'.1.name q.1.name := by
      rintro q q' ⟨k, _, hkn, hp⟩ ⟨hnu, _, k', n', m', hkn', hp', e'⟩
      obtain ⟨v, hv, ok⟩ := hk _ hkn
      obtain ⟨v', hv', ok'⟩ := hk _ hkn'
      rcases hU with h | ⟨hC, _⟩
      · exact absurd h hnu
      · rw [e', name_rename, ok.name, separate_append]
        exact (hC _ hv _ hv' (isRich ok hp) (isRich ok' hp') _ (className m' hkn' ok'.ty.symm ok'.letter)).1
    rcases out q hq with h | h | h
    · exact .inl h
    · rcases out q' hq' with h' | h' | h'
      · exact .inr (.inl h')
      · obtain ⟨k, _, hkn, hp⟩ := h
        obtain ⟨k', _, hkn', hp'⟩ := h'
        obtain ⟨v, hv, ok⟩ := hk _ hkn
        obtain ⟨v', hv', ok'⟩ := hk _ hkn'
        by_cases e : k = k'
        · subst e
          exact .inr (.inr (.inl (nodup_fst_unique hn hkn hkn')))
        · refine .inr (.inr (.inr ?_))
          rw [ok.name, ok'.name, separate_append]
          exact hK _ hv _ hv' e (isRich ok hp) (isRich ok' hp')
      · exact .inr (.inr (.inr (Separate.symm (mixed h h'))))
    · rcases out q' hq' with h' | h' | h'
      · exact .inr (.inl h')
      · exact .inr (.inr (.inr (mixed h' h)))
      · rcases pairwise_or (fun a b => OtherNumber.symm) hnum q hq q' hq' with e | hO
        · exact .inr (.inr (.inl (by rw [e])))
        · refine .inr (.inr (.inr ?_))
          obtain ⟨hnu, hl, k, n, m, hkn, hp, e⟩ := h
          obtain ⟨_, hl', k', n', m', hkn', hp', e'⟩ := h'
          obtain ⟨v, hv, ok⟩ := hk _ hkn
          obtain ⟨v', hv', ok'⟩ := hk _ hkn'
          rw [e, e', name_rename, name_rename, separate_append]
          refine (token m hkn).separate (token m' hkn') ?_
          intro en
          by_cases et : n.hdr.ty = n'.hdr.ty
          · refine hO hl hl' (by rw [e, e', ty_rename, ty_rename]; exact et) ?_
            rw [e, e', name_rename, name_rename, en]
          · rcases hU with h | ⟨hC, _⟩
            · exact absurd h hnu
            · have := (hC _ hv _ hv' (isRich ok hp) (isRich ok' hp') _ (className m' hkn' ok'.ty.symm ok'.letter)).2
                (by rw [show v.ty = n.hdr.ty from ok.ty.symm, show v'.ty = n'.hdr.ty from ok'.ty.symm]; exact et)
              apply this
              rw [← en]
              exact className m hkn ok.ty.symm ok.letter
  · intro a ha
    obtain ⟨q, hq, rfl⟩ := mem a ha
    rcases out q hq with h | ⟨k, _, hkn, _⟩ | ⟨_, _, k, n, m, hkn, _, e⟩
    · exact .inl h
    · obtain ⟨v, _, ok⟩ := hk _ hkn
      exact .inr ⟨keyName k, ok.start, ok.name⟩
    · exact .inr ⟨_, (token m hkn).start, by rw [e, name_rename]⟩
  · intro a ha
    obtain ⟨q, hq, rfl⟩ := mem a ha
    rcases out q hq with h | ⟨k, _, hkn, _⟩ | ⟨hnu, _, k, n, m, hkn, _, e⟩
    · cases hqq : q.1 with
      | mk hd ks =>
        rw [hqq] at h
        have : ks = [] := h.2.2
        subst this
        simp [NameTree, NameTrees]
    · obtain ⟨v, _, ok⟩ := hk _ hkn
      exact ok.tree
    · obtain ⟨v, hv, ok⟩ := hk _ hkn
      rcases hU with h | ⟨_, hE⟩
      · exact absurd h hnu
      · rw [e]
        exact (nameTree_rename n (Nat.le_refl _) ok.tree (ok.single (hE _ hv))).1
  · intro hun hev
    constructor
    · intro sk hsk
      simp only [shareEqual, List.map_map] at hsk
      rw [List.zip_map', List.mem_map] at hsk
      obtain ⟨kn, hkn, rfl⟩ := hsk
      obtain ⟨q, hq, hf, hkq⟩ := fin kn hkn
      simp only [Function.comp, hf]
      rcases out q hq with h | ⟨k, ek, _, _⟩ | ⟨hnu, _⟩
      · exact .inr h
      · refine .inl ?_
        rw [ek]
        have : iterKeys (kids.map (·.1)) = kids.map (·.1) := by
          refine takeWhile_all ?_
          intro x hx
          obtain ⟨kn', hkn', rfl⟩ := List.mem_map.mp hx
          obtain ⟨v, _, ok⟩ := hk _ hkn'
          simpa using ok.key
        rw [this]
        refine filter_one hn ?_
        rw [ek] at hkq
        simp only [List.mem_singleton] at hkq
        rw [← hkq]
        exact List.mem_map_of_mem hkn
      · exact absurd hun hnu
    · intro a ha
      obtain ⟨q, hq, rfl⟩ := mem a ha
      obtain ⟨p, hp, e, h⟩ := hren q hq
      obtain ⟨k0, ks, e0, h0, hs⟩ := hG.head p hp
      obtain ⟨v, hv, ok⟩ := hk _ h0
      have hsing := ok.single (hev _ hv)
      rcases h with ⟨_, e1⟩ | ⟨_, m, _, e1⟩
      · rw [e1]; exact hsing
      · rw [e1]
        exact (nameTree_rename p.1 (Nat.le_refl _) ok.tree hsing).2

end Verif
