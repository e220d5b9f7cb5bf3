import Verif.Lemmas.MergeText
import Verif.Spec.Mixed
/-
Sequences in which dictionaries stand next to other values.
-/
namespace Verif
open Verif.Spec

theorem asDct_dictOf (d : Dct) : asDct (dictOf d) = some d := by
  unfold dictOf asDct
  dsimp only
  rw [if_pos ⟨rfl, by intro k hk; obtain ⟨x, _, rfl⟩ := List.mem_map.mp hk; rfl⟩, dictOf_items, List.filterMap_map]
  congr 1
  induction d with
  | nil => rfl
  | cons x r ih => simp [List.filterMap_cons, ih]

theorem asDct_other {v : Val} (h : NotRecord v) : asDct v = none := by
  cases v with
  | map k t ks vs =>
    cases k with
    | dict =>
      obtain ⟨x, hx, hf⟩ := h
      unfold asDct
      dsimp only
      rw [if_neg]
      rintro ⟨_, hk⟩
      have := hk x.1 (List.of_mem_zip hx).1
      rw [hf] at this
      cases this
    | _ => rfl
  | _ => rfl

theorem typed_tag {S : Strategies} {m : Node} (hm : isTypedDict S m = true) : m.hdr.kind.tag = .dict := by
  cases m with
  | mk hd kids =>
    cases hk : hd.kind with
    | dict a b => simp [Node.hdr, hk, NKind.tag]
    | _ => simp [isTypedDict, hk] at hm

/-- The node is not described by a TypedDict; if it is a dictionary it has an entry. -/
structure Lone (S : Strategies) (n : Node) : Prop where
  typed : isTypedDict S n = false
  entry : n.hdr.kind.tag = .dict → n.hdr.slots ≠ [] ∧ n.hdr.slots.length = n.kids.length

theorem Lone.ne {S : Strategies} {a b : Node} (ta : isTypedDict S a = true) (hb : Lone S b) : nodeEq S a b = false := by
  cases h : nodeEq S a b with
  | false => rfl
  | true =>
    exfalso
    unfold nodeEq at h
    rw [Bool.and_eq_true, decide_eq_true_eq, typed_hash ta] at h
    obtain ⟨ht, he⟩ := h
    rw [typed_tag ta] at ht
    obtain ⟨h1, h2⟩ := hb.entry ht.symm
    have hty := hb.typed
    cases b with
    | mk hd kids =>
      cases hk : hd.kind with
      | dict x m =>
        simp only [isTypedDict, hk] at hty
        simp only [Node.hash, hashOf, hk, hty, Bool.false_eq_true, if_false, hashList_eq_map] at he
        obtain ⟨_, h3⟩ := eqv_set.mp he
        have h1 : hd.slots ≠ [] := h1
        have h2 : hd.slots.length = kids.length := h2
        cases hs : hd.slots with
        | nil => exact h1 hs
        | cons a r =>
          cases hkd : kids with
          | nil => rw [hs, hkd] at h2; simp at h2
          | cons c q =>
            rw [hs, hkd] at h3
            obtain ⟨z, hz, e⟩ := h3 _ (by simp only [List.map_cons, List.zip_cons_cons]; exact List.mem_cons_self ..)
            obtain ⟨y, _, rfl⟩ := List.mem_map.mp hz
            simp [H.eqv] at e
      | seq k => cases k <;> simp [Node.hdr, hk, NKind.tag] at ht
      | _ => simp [Node.hdr, hk, NKind.tag] at ht

theorem build_lone {E : Env} {f : Nat} {root : Bool} {name : Str} {v : Val} {n : Node} (hS : E.S.dict = .typedDict) (hv : NotRecord v)
    (h : build E f root name v = .ok n) : Lone E.S n ∧ n.name = name := by
  cases f with
  | zero => cases h
  | succ f =>
    have hleaf : ∀ {k : NKind} {ty : Ty}, k.tag ≠ .dict →
        (if nameOk E.U name then Except.ok (Node.mk { kind := k, name, root, ty, slots := [] } []) else .error (Err.badName name)) = .ok n →
        Lone E.S n ∧ n.name = name := by
      intro k ty hk h
      split at h
      · injection h with h
        subst h
        refine ⟨⟨?_, fun ht => absurd ht hk⟩, rfl⟩
        cases hc : isTypedDict E.S (Node.mk { kind := k, name, root, ty, slots := [] } []) with
        | false => rfl
        | true => exact absurd (typed_tag hc) hk
      · cases h
    have hnode : ∀ {k : NKind} {ty : Ty} {c : Except Err (List Slot × List Node)}, k.tag ≠ .dict →
        (if nameOk E.U name then (match c with
          | .ok (slots, kids) => Except.ok (Node.mk { kind := k, name, root, ty, slots } kids)
          | .error e => .error e) else .error (Err.badName name)) = .ok n → Lone E.S n ∧ n.name = name := by
      intro k ty c hk h
      split at h
      · split at h
        · injection h with h
          subst h
          refine ⟨⟨?_, fun ht => absurd ht hk⟩, rfl⟩
          cases hc : isTypedDict E.S (Node.mk { kind := k, name, root, ty, slots := _ } _) with
          | false => rfl
          | true => exact absurd (typed_tag hc) hk
        · cases h
      · cases h
    cases v with
    | map k t ks vs =>
      cases k with
      | dict =>
        obtain ⟨x, hx, hxs⟩ := hv
        obtain ⟨kids, hk, rfl⟩ := build_dict h
        have hdd : dictData E.S (ks.zip vs) = ks.zip vs := by simp [dictData, hS]
        rw [hdd] at hk ⊢
        refine ⟨⟨?_, fun _ => ⟨?_, shareEqual_length E name kids⟩⟩, rfl⟩
        · simp only [isTypedDict, DMeta.isTyped, DMeta.ofData, allStr, Bool.and_eq_false_iff]
          left
          rw [List.all_eq_false]
          exact ⟨x, hx, by simp [hxs]⟩
        · have hkeys := mapKids_keys hk
          intro e
          have h1 : ((shareEqual E name kids).1).map (·.key) = [] := by
            have e : (shareEqual E name kids).1 = [] := e
            rw [e]; rfl
          rw [shareEqual_keys, hkeys] at h1
          have h2 : x ∈ visibleItems (ks.zip vs) := by
            unfold visibleItems
            rw [List.mem_filter]
            refine ⟨hx, ?_⟩
            cases hk : x.1 with
            | str s => rw [hk] at hxs; cases hxs
            | none => simp [Key.hidden]
            | other t r => simp [Key.hidden]
          have h3 := List.mem_map_of_mem (f := (·.1)) h2
          rw [h1] at h3
          cases h3
      | proxy => simp only [build] at h; exact hnode (by simp [NKind.tag]) h
      | frame i => simp only [build] at h; exact hnode (by simp [NKind.tag]) h
    | seq k t es => simp only [build] at h; exact hnode (by cases k <;> simp [NKind.tag]) h
    | func f' =>
      simp only [build] at h
      split at h
      · cases h
      · rename_i n' hl
        split at h
        · cases h
        · injection h with h
          subst h
          exact hleaf (by simp [NKind.tag]) hl
    | _ => simp only [build] at h; exact hleaf (by simp [NKind.tag]) h

/-! ### The loop over the elements -/

/-- State of the loop after elements with the dictionaries `done`. -/
structure MixInv (E : Env) (pool done : List Dct) (kids : List Node) (names : List Str) : Prop where
  rep : ∀ k ∈ kids, (∃ d ∈ done, Rep E pool d k ∧ 'D' ∈ k.name) ∨ Lone E.S k
  cover : ∀ d ∈ done, ∃ k ∈ kids, ∃ d' ∈ done, Rep E pool d' k ∧ ∀ s, s ∈ shown d ↔ s ∈ shown d'
  nms : kids.map Node.name = names
  nodup : names.Nodup
  few : (∀ d ∈ done, shown d = []) → (kids.filter (isTypedDict E.S)).length ≤ 1

theorem mixInv_lone {E : Env} {pool done : List Dct} {kids : List Node} {names : List Str} {f : Nat} {parent : Str} {v : Val}
    {r : List Node × List Str} (hS : E.S.dict = .typedDict) (hv : NotRecord v) (I : MixInv E pool done kids names)
    (h : setStep E (build E f false) parent (kids, names) v = .ok r) : MixInv E pool done r.1 r.2 := by
  unfold setStep at h
  dsimp only at h
  cases hb : build E f false (freshName (parent ++ E.U.capitalize v.ty.name) names) v with
  | error e => rw [hb] at h; cases h
  | ok child =>
    obtain ⟨hl, hn⟩ := build_lone hS hv hb
    rw [hb] at h
    simp only [bind, Except.bind, pure, Except.pure] at h
    by_cases ha : kids.any (nodeEq E.S child) = true
    · rw [if_pos ha, if_neg (by rw [hl.typed]; simp)] at h
      injection h with h
      subst h
      exact I
    · rw [if_neg ha] at h
      injection h with h
      subst h
      dsimp only
      refine ⟨?_, ?_, ?_, ?_, ?_⟩
      · intro k hk
        rcases List.mem_append.mp hk with hk | hk
        · exact I.rep k hk
        · simp only [List.mem_singleton] at hk
          subst hk
          exact .inr hl
      · intro e he
        obtain ⟨k, hk, h⟩ := I.cover e he
        exact ⟨k, by simp [hk], h⟩
      · simp [I.nms, hn]
      · rw [List.nodup_append]
        refine ⟨I.nodup, by simp, ?_⟩
        intro a ha' b hb' e
        simp only [List.mem_singleton] at hb'
        subst e hb'
        exact Props.fresh_name_unused _ _ ha'
      · intro h
        rw [List.filter_append, show [child].filter (isTypedDict E.S) = [] by simp [hl.typed], List.append_nil]
        exact I.few h

theorem mixInv_dict {E : Env} {pool done : List Dct} {kids : List Node} {names : List Str} {f : Nat} {parent : Str} {d : Dct}
    {r : List Node × List Str} (hS : E.S.dict = .typedDict) (hd : IsDict d) (hp : d ∈ pool) (I : MixInv E pool done kids names)
    (h : setStep E (build E f false) parent (kids, names) (dictOf d) = .ok r) : MixInv E pool (done ++ [d]) r.1 r.2 := by
  unfold setStep at h
  dsimp only at h
  cases hb : build E f false (freshName (parent ++ E.U.capitalize (dictOf d).ty.name) names) (dictOf d) with
  | error e => rw [hb] at h; cases h
  | ok child =>
    obtain ⟨hr, hn⟩ := build_rep hS hd hp hb
    have hlong : 'D' ∈ child.name := by rw [hn]; exact fresh_long _ _
    rw [hb] at h
    simp only [bind, Except.bind, pure, Except.pure] at h
    -- only nodes of dictionaries are equal to the new one
    have hrep : ∀ k ∈ kids, nodeEq E.S child k = true → ∃ d' ∈ done, Rep E pool d' k ∧ 'D' ∈ k.name := by
      intro k hk he
      rcases I.rep k hk with h | h
      · exact h
      · rw [h.ne (hr.typed hS)] at he; cases he
    by_cases ha : kids.any (nodeEq E.S child) = true
    · rw [if_pos ha, if_pos (hr.typed hS)] at h
      injection h with h
      subst h
      dsimp only
      refine ⟨?_, ?_, ?_, I.nodup, ?_⟩
      · intro k hk
        obtain ⟨k', hk', rfl⟩ := List.mem_map.mp hk
        by_cases he : nodeEq E.S child k' = true
        · rw [if_pos he]
          obtain ⟨d', hd', hr', hD⟩ := hrep k' hk' he
          exact .inl ⟨d', by simp [hd'], hr'.update hr (fun s => (hr.eq_keys hS hr' he s).symm), by rw [name_updateNode]; exact hD⟩
        · rw [if_neg he]
          rcases I.rep k' hk' with ⟨d', hd', hr'⟩ | h
          · exact .inl ⟨d', by simp [hd'], hr'⟩
          · exact .inr h
      · intro e he
        rcases List.mem_append.mp he with he | he
        · obtain ⟨k, hk, d', hd', hr', hs⟩ := I.cover e he
          refine ⟨if nodeEq E.S child k then updateNode k child else k, List.mem_map_of_mem (f := fun k => if nodeEq E.S child k then updateNode k child else k) hk, d', by simp [hd'], ?_, hs⟩
          by_cases hek : nodeEq E.S child k = true
          · rw [if_pos hek]
            exact hr'.update hr (fun s => (hr.eq_keys hS hr' hek s).symm)
          · rw [if_neg hek]; exact hr'
        · simp only [List.mem_singleton] at he
          subst he
          obtain ⟨k, hk, hek⟩ := List.any_eq_true.mp ha
          obtain ⟨d', hd', hr', _⟩ := hrep k hk hek
          refine ⟨if nodeEq E.S child k then updateNode k child else k, List.mem_map_of_mem (f := fun k => if nodeEq E.S child k then updateNode k child else k) hk, d', by simp [hd'], ?_, hr.eq_keys hS hr' hek⟩
          rw [if_pos hek]
          exact hr'.update hr (fun s => (hr.eq_keys hS hr' hek s).symm)
      · rw [List.map_map, ← I.nms]
        apply List.map_congr_left
        intro k _
        simp only [Function.comp]
        split
        · exact name_updateNode
        · rfl
      · intro hall
        rw [List.filter_map, List.length_map]
        have : kids.filter (isTypedDict E.S ∘ fun k => if nodeEq E.S child k then updateNode k child else k) = kids.filter (isTypedDict E.S) := by
          apply List.filter_congr
          intro k hk
          simp only [Function.comp]
          split
          · rename_i he
            obtain ⟨d', _, hr', _⟩ := hrep k hk he
            rw [hr'.typed hS, (hr'.update hr (fun s => (hr.eq_keys hS hr' he s).symm)).typed hS]
          · rfl
        rw [this]
        exact I.few (fun d' hd' => hall d' (by simp [hd']))
    · rw [if_neg ha] at h
      injection h with h
      subst h
      dsimp only
      refine ⟨?_, ?_, ?_, ?_, ?_⟩
      · intro k hk
        rcases List.mem_append.mp hk with hk | hk
        · rcases I.rep k hk with ⟨d', hd', hr'⟩ | h
          · exact .inl ⟨d', by simp [hd'], hr'⟩
          · exact .inr h
        · simp only [List.mem_singleton] at hk
          subst hk
          exact .inl ⟨d, by simp, hr, hlong⟩
      · intro e he
        rcases List.mem_append.mp he with he | he
        · obtain ⟨k, hk, d', hd', hr', hs⟩ := I.cover e he
          exact ⟨k, by simp [hk], d', by simp [hd'], hr', hs⟩
        · simp only [List.mem_singleton] at he
          subst he
          exact ⟨child, by simp, e, by simp, hr, fun _ => Iff.rfl⟩
      · simp [I.nms, hn]
      · rw [List.nodup_append]
        refine ⟨I.nodup, by simp, ?_⟩
        intro a ha' b hb' e
        simp only [List.mem_singleton] at hb'
        subst e hb'
        exact Props.fresh_name_unused _ _ ha'
      · intro hall
        have : kids.filter (isTypedDict E.S) = [] := by
          rw [List.filter_eq_nil_iff]
          intro k hk ht
          rcases I.rep k hk with ⟨d', hd', hr', _⟩ | h
          · refine ha ?_
            rw [List.any_eq_true]
            exact ⟨k, hk, hr.eq_empty hS hr' (hall d (by simp)) (hall d' (by simp [hd']))⟩
          · rw [h.typed] at ht; cases ht
        rw [List.filter_append, this, show [child].filter (isTypedDict E.S) = [child] by simp [hr.typed hS]]
        simp

theorem mixInv_all {E : Env} {pool : List Dct} {f : Nat} {parent : Str} (hS : E.S.dict = .typedDict) :
    ∀ {es : List Val} {done : List Dct} {acc r : List Node × List Str}, Mixed es → (∀ d ∈ dictsIn es, d ∈ pool) →
    MixInv E pool done acc.1 acc.2 → foldE (setStep E (build E f false) parent) acc es = .ok r →
    MixInv E pool (done ++ dictsIn es) r.1 r.2
  | [], done, acc, r, _, _, I, h => by
    simp only [foldE] at h
    injection h with h
    subst h
    simpa [dictsIn] using I
  | v :: es, done, acc, r, hm, hp, I, h => by
    simp only [foldE] at h
    cases hs : setStep E (build E f false) parent acc v with
    | error e => rw [hs] at h; cases h
    | ok b =>
      rw [hs] at h
      dsimp only at h
      have hm' : Mixed es := fun w hw => hm w (by simp [hw])
      rcases hm v (by simp) with ⟨d, hd, rfl⟩ | hv
      · have e : dictsIn (dictOf d :: es) = d :: dictsIn es := by
          unfold dictsIn; rw [List.filterMap_cons, asDct_dictOf]
        rw [e] at hp ⊢
        have := mixInv_all hS (done := done ++ [d]) hm' (fun x hx => hp x (by simp [hx])) (mixInv_dict hS hd (hp d (by simp)) I hs) h
        simpa using this
      · have e : dictsIn (v :: es) = dictsIn es := by
          unfold dictsIn; rw [List.filterMap_cons, asDct_other hv]
        rw [e] at hp ⊢
        exact mixInv_all hS hm' hp (mixInv_lone hS hv I hs) h

/-- The children of a sequence in which dictionaries stand next to other values. -/
theorem mixed_children {E : Env} (hE : E.Fair) (hS : E.S.dict = .typedDict)
    {es : List Val} {f : Nat} {parent : Str} {slots : List Slot} {kids : List Node} (hne : dictsIn es ≠ []) (hm : Mixed es)
    (hl : limit E.S.checkMax es = es)
    (h : setChildren E (build E f false) parent es = .ok (slots, kids)) :
    slots = kids.map (fun _ => Slot.seq 1) ∧
    ∃ b, (Agree (dictsIn es) → b = decide (E.S.merge ≤ percentSimilarity (commonKeys (dictsIn es)).length (allKeys (dictsIn es)).length)) ∧
    if b = true then ∃ n ∈ kids, RecNode E (dictsIn es) n ∧ 'D' ∈ n.name
    else ∀ d ∈ dictsIn es, ∃ k ∈ kids, ∃ d' ∈ dictsIn es, Rep E (dictsIn es) d' k ∧ 'D' ∈ k.name ∧ ∀ s, s ∈ shown d ↔ s ∈ shown d' := by
  generalize hds : dictsIn es = ds at hne
  unfold setChildren at h
  rw [hl] at h
  cases hf : foldE (setStep E (build E f false) parent) ([], []) es with
  | error e => rw [hf] at h; cases h
  | ok acc =>
    obtain ⟨ks, names⟩ := acc
    rw [hf] at h
    have I : MixInv E ds ds ks names := by
      have := mixInv_all (pool := ds) (done := []) (r := (ks, names)) hS hm (by rw [hds]; exact fun _ h => h)
        (acc := ([], [])) ⟨by simp, by simp, rfl, by simp, by simp⟩ hf
      simpa [hds] using this
    have hrep : ∀ i, ∀ k ∈ (E.order i ks).filter (isTypedDict E.S), ∃ d ∈ ds, Rep E ds d k := by
      intro i k hk
      obtain ⟨hk, ht⟩ := List.mem_filter.mp hk
      rcases I.rep k ((hE i ks).mem_iff.mp hk) with ⟨d, hd, hr, _⟩ | hl
      · exact ⟨d, hd, hr⟩
      · rw [hl.typed] at ht; cases ht
    have hcov : ∀ i, ∀ d ∈ ds, ∃ k ∈ (E.order i ks).filter (isTypedDict E.S), ∃ d' ∈ ds, Rep E ds d' k ∧ ∀ s, s ∈ shown d ↔ s ∈ shown d' := by
      intro i d hd'
      obtain ⟨k, hk, d', hd'', hr, h⟩ := I.cover d hd'
      exact ⟨k, List.mem_filter.mpr ⟨(hE i ks).mem_iff.mpr hk, hr.typed hS⟩, d', hd'', hr, h⟩
    have hlong : ∀ k ∈ ks, isTypedDict E.S k = true → 'D' ∈ k.name := by
      intro k hk ht
      rcases I.rep k hk with ⟨d, _, _, h⟩ | h
      · exact h
      · rw [h.typed] at ht; cases ht
    have hksne : (E.order 0 ks).filter (isTypedDict E.S) ≠ [] := by
      cases ds with
      | nil => exact absurd rfl hne
      | cons d r =>
        obtain ⟨k, hk, _⟩ := hcov 0 d (by simp)
        intro e; rw [e] at hk; simp at hk
    simp only [bind, Except.bind] at h
    have hsm := fun hag => shouldMerge_iff (E := E) hag hksne (hrep 0) (hcov 0)
    generalize shouldMerge E.S ((E.order 0 ks).filter (isTypedDict E.S)) = b at h hsm
    by_cases hc : b = true
    · simp only [hc, if_true] at h
      cases hmd : mergeDicts (build E f false) ((E.order 1 ks).filter (isTypedDict E.S)) with
      | error e => rw [hmd] at h; cases h
      | ok n =>
        obtain ⟨hr, k, hk, hkn⟩ := mergeDicts_spec hS (hrep 1) (hcov 1) hmd
        rw [hmd] at h
        simp only [pure, Except.pure] at h
        injection h with h
        injection h with h1 h2
        subst h1 h2
        refine ⟨rfl, b, hsm, ?_⟩
        rw [if_pos hc]
        refine ⟨n, (hE 2 _).mem_iff.mpr (by simp), hr, ?_⟩
        rw [hkn]
        obtain ⟨hk, ht⟩ := List.mem_filter.mp hk
        exact hlong k ((hE 1 ks).mem_iff.mp hk) ht
    · simp only [hc, Bool.false_eq_true, if_false, pure, Except.pure] at h
      injection h with h
      injection h with h1 h2
      subst h1 h2
      refine ⟨rfl, b, hsm, ?_⟩
      rw [if_neg hc]
      intro d hd
      obtain ⟨k, hk, d', hd', hr, hs⟩ := hcov 0 d hd
      obtain ⟨hk, ht⟩ := List.mem_filter.mp hk
      exact ⟨k, hk, d', hd', hr, hlong k ((hE 0 ks).mem_iff.mp hk) ht, hs⟩

/-- A child that is referred to by its name is an alternative of the element type. -/
theorem alias_alternative {kids : List AOut} {k : AOut} (hk : k ∈ kids) (hp : k.perm = true) (hD : 'D' ∈ k.name) :
    Alternative (aAlias kids) k.name := by
  refine ⟨_, rfl, ?_⟩
  have hne : kids.isEmpty = false := by cases kids; cases hk; rfl
  have hx : k.name ∈ (aTypes kids).map TExpr.print := by
    unfold aTypes
    rw [hne]
    simp only [Bool.false_eq_true, if_false, List.map_map]
    exact List.mem_map.mpr ⟨k, hk, by simp [aref, hp, TExpr.print]⟩
  unfold aUnique
  rw [List.map_map]
  refine List.mem_map.mpr ⟨k.name, mem_uniqueTypes.mpr ⟨hx, ?_⟩, (pick_print hx).1⟩
  rintro ⟨e, _⟩
  rw [e] at hD
  revert hD; decide

/-- How a sequence is rendered in which dictionaries stand next to other values. -/
theorem mixed_abs {E : Env} (hE : E.Fair) (hS : E.S.dict = .typedDict)
    {es : List Val} {f : Nat} {name : Str} {k : SeqKind} {ty : Ty} {n : Node} (hk : ¬ (k = .tuple ∧ E.S.tuple = .fixed))
    (hne : dictsIn es ≠ []) (hm : Mixed es) (hl : limit E.S.checkMax es = es)
    (h : build E f true name (.seq k ty es) = .ok n) :
    ∃ t, ⟨name, .alias (if k = .tuple then .tupleOf t else .app (seqCon E.S k) t)⟩ ∈ (n.abs E).emitted ∧
      (OneAmong ((n.abs E).emitted.map TDecl.print) t (dictsIn es) ∨ EachAmong ((n.abs E).emitted.map TDecl.print) t (dictsIn es)) ∧
      (Agree (dictsIn es) →
        if E.S.merge ≤ percentSimilarity (commonKeys (dictsIn es)).length (allKeys (dictsIn es)).length
        then OneAmong ((n.abs E).emitted.map TDecl.print) t (dictsIn es)
        else EachAmong ((n.abs E).emitted.map TDecl.print) t (dictsIn es)) := by
  cases f with
  | zero => cases h
  | succ f =>
    rw [build_seq] at h
    split at h
    case isFalse => cases h
    split at h
    case h_2 => cases h
    rename_i slots kids hc
    injection h with h
    subst h
    obtain ⟨hsl, b, hb, hcase⟩ := mixed_children hE hS hne hm hl hc
    have hit : iterate slots (absList E kids) = kids.map (fun n => n.abs E) := by
      rw [absList_eq_map]
      apply iterate_seq
      · simp [hsl]
      · rw [hsl]
        intro s hs
        obtain ⟨_, _, rfl⟩ := List.mem_map.mp hs
        simp [Slot.seq]
    have hd : ∀ d ∈ dictsIn es, IsDict d := by
      intro d hd
      obtain ⟨v, hv, e⟩ := List.mem_filterMap.mp hd
      rcases hm v hv with ⟨d', hd', rfl⟩ | ho
      · rw [asDct_dictOf] at e; injection e with e; exact e ▸ hd'
      · rw [asDct_other ho] at e; cases e
    have hkne : kids ≠ [] := by
      rintro rfl
      cases hds : dictsIn es with
      | nil => exact hne hds
      | cons d r =>
        by_cases hbt : b = true
        · rw [if_pos hbt] at hcase
          obtain ⟨n, hn, _⟩ := hcase
          cases hn
        · rw [if_neg hbt] at hcase
          obtain ⟨k, hk, _⟩ := hcase d (by rw [hds]; simp)
          cases hk
    have hemp : (absList E kids).isEmpty = false := by
      rw [absList_eq_map]; cases kids with
      | nil => exact absurd rfl hkne
      | cons _ _ => rfl
    have hemit : ∀ kid ∈ kids, (kid.abs E).perm = true →
        ⟨kid.name, (kid.abs E).body⟩ ∈ ((Node.mk ⟨.seq k, name, true, ty, slots⟩ kids).abs E).emitted := by
      intro k hk hp
      simp only [Node.abs, aCombine, aEmit]
      rw [hemp]
      simp only [Bool.false_eq_true, if_false]
      apply List.mem_append_left
      rw [List.mem_flatMap]
      refine ⟨k.abs E, ?_, ?_⟩
      · rw [hit]; exact List.mem_map_of_mem hk
      · rw [hp, if_pos rfl]
        simp [AOut.decl, abs_name]
    have hrecord : ∀ {ds' : List Dct} {kid : Node}, kid ∈ kids → RecNode E ds' kid → 'D' ∈ kid.name →
        Alternative (aAlias (iterate slots (absList E kids))) kid.name ∧
        RecordFor (((Node.mk ⟨.seq k, name, true, ty, slots⟩ kids).abs E).emitted.map TDecl.print) kid.name ds' := by
      intro ds' kid hmem hr hD
      obtain ⟨hp, f, doc, es, h1, h2, h3⟩ := recNode_abs hS hr
      refine ⟨?_, f, doc, es, ?_, h2, fun e he => by rw [h3 e he, decide_eq_true_eq]⟩
      · rw [hit, ← abs_name (E := E)]
        exact alias_alternative (List.mem_map_of_mem hmem) hp (by rw [abs_name]; exact hD)
      · rw [← h1]; exact List.mem_map_of_mem (hemit kid hmem hp)
    refine ⟨aAlias (iterate slots (absList E kids)), ?_, ?_⟩
    · simp only [Node.abs, aCombine, aEmit]
      rw [hemp]
      simp only [Bool.false_eq_true, if_false]
      apply List.mem_append_right
      cases k with
      | tuple =>
        have : E.S.tuple = .anySize := by
          cases ht : E.S.tuple with
          | fixed => exact absurd ⟨rfl, ht⟩ hk
          | anySize => rfl
        simp [permOf, aBody, aTuple, this]
      | _ => simp [permOf, aBody]
    have one : b = true → OneAmong (((Node.mk ⟨.seq k, name, true, ty, slots⟩ kids).abs E).emitted.map TDecl.print)
        (aAlias (iterate slots (absList E kids))) (dictsIn es) := by
      intro hbt
      rw [if_pos hbt] at hcase
      obtain ⟨m, hmem, hr, hD⟩ := hcase
      exact ⟨m.name, hrecord hmem hr hD⟩
    have each : ¬ b = true → EachAmong (((Node.mk ⟨.seq k, name, true, ty, slots⟩ kids).abs E).emitted.map TDecl.print)
        (aAlias (iterate slots (absList E kids))) (dictsIn es) := by
      intro hbt d hdm
      rw [if_neg hbt] at hcase
      obtain ⟨m, hmem, d', hd', hr, hD, hs⟩ := hcase d hdm
      obtain ⟨h1, f, doc, es, h2, h3⟩ := hrecord hmem (hr.recNode (hd d' hd')) hD
      exact ⟨m.name, h1, f, doc, es, h2, describes_same (by simp) (by simp) h3 (by simp [hs]) (by simp [hs])⟩
    refine ⟨?_, ?_⟩
    · by_cases hbt : b = true
      · exact .inl (one hbt)
      · exact .inr (each hbt)
    · intro hag
      have := hb hag
      split
      · rename_i hp
        exact one (by rw [this]; simpa using hp)
      · rename_i hp
        exact each (by rw [this]; simpa using hp)

/-! ### Tuples -/

theorem renameList_len {new : Str} {len c : Nat} : ∀ {ss : List Slot} {l : List Node}, (renameList new len c ss l).length = l.length
  | _, [] => by simp [renameList]
  | [], k :: r => by simp [renameList, renameList_len (ss := []) (l := r)]
  | s :: ss, k :: r => by simp [renameList, renameList_len (ss := ss) (l := r)]

theorem Rep.rename {E : Env} {pool : List Dct} {d : Dct} {n : Node} {new : Str} (h : Rep E pool d n) : Rep E pool d (n.rename new) := by
  cases n with
  | mk hd kids =>
    obtain ⟨h1, h2, h3⟩ := h
    exact ⟨h1, h2, by show hd.slots.length = (renameList _ _ _ _ kids).length; rw [renameList_len]; exact h3⟩

theorem Lone.rename {S : Strategies} {n : Node} {new : Str} (h : Lone S n) : Lone S (n.rename new) := by
  cases n with
  | mk hd kids =>
    obtain ⟨h1, h2⟩ := h
    exact ⟨h1, fun ht => ⟨(h2 ht).1, by show hd.slots.length = (renameList _ _ _ _ kids).length; rw [renameList_len]; exact (h2 ht).2⟩⟩

/-- The node of an element of a tuple. -/
def ElemNode (E : Env) (pool : List Dct) (v : Val) (n : Node) : Prop :=
  (∃ d, IsDict d ∧ v = dictOf d ∧ Rep E pool d n ∧ 'D' ∈ n.name) ∨ (NotRecord v ∧ Lone E.S n)

theorem find_equal {S : Strategies} {c : Node} {s : Str} : ∀ {l : List (Node × Str)}, findEq S c l = some s →
    ∃ p ∈ l, p.2 = s ∧ nodeEq S c p.1 = true
  | [], h => by cases h
  | (m, x) :: r, h => by
    unfold findEq at h
    split at h
    · rename_i he
      injection h with h
      exact ⟨(m, x), by simp, h, he⟩
    · obtain ⟨p, hp, h1, h2⟩ := find_equal h
      exact ⟨p, by simp [hp], h1, h2⟩

theorem tuple_nodes {E : Env} {pool : List Dct} {f : Nat} {parent : Str} (hS : E.S.dict = .typedDict) :
    ∀ {es done : List Val} {acc r : List Node × List (Node × Str)}, Mixed es → (∀ d ∈ dictsIn es, d ∈ pool) →
    All₂ (ElemNode E pool) done acc.1 → (∀ p ∈ acc.2, 'D' ∈ p.2 ∨ Lone E.S p.1) →
    foldE (tupleStep E (build E f false) parent) acc es = .ok r → All₂ (ElemNode E pool) (done ++ es) r.1
  | [], done, acc, r, _, _, I, _, h => by
    simp only [foldE] at h
    injection h with h
    subst h
    simpa using I
  | v :: es, done, acc, r, hm, hp, I, J, h => by
    simp only [foldE] at h
    cases hs : tupleStep E (build E f false) parent acc v with
    | error e => rw [hs] at h; cases h
    | ok b =>
      rw [hs] at h
      dsimp only at h
      have hm' : Mixed es := fun w hw => hm w (by simp [hw])
      have hp' : ∀ d ∈ dictsIn es, d ∈ pool := by
        intro d hd
        apply hp
        obtain ⟨w, hw, e⟩ := List.mem_filterMap.mp hd
        exact List.mem_filterMap.mpr ⟨w, by simp [hw], e⟩
      unfold tupleStep at hs
      dsimp only at hs
      cases hb : build E f false (freshName (parent ++ E.U.capitalize v.ty.name) (acc.2.map (·.2))) v with
      | error e => rw [hb] at hs; cases hs
      | ok child =>
        rw [hb] at hs
        simp only [bind, Except.bind, pure, Except.pure] at hs
        have hc : ElemNode E pool v child := by
          rcases hm v (by simp) with ⟨d, hd, rfl⟩ | hv
          · obtain ⟨h1, h2⟩ := build_rep hS hd (hp d (List.mem_filterMap.mpr ⟨_, by simp, asDct_dictOf d⟩)) hb
            exact .inl ⟨d, hd, rfl, h1, by rw [h2]; exact fresh_long _ _⟩
          · exact .inr ⟨hv, (build_lone hS hv hb).1⟩
        split at hs
        · rename_i old hf
          injection hs with hs
          subst hs
          have hr : ElemNode E pool v (child.rename old) := by
            rcases hc with ⟨d, h1, h2, h3, _⟩ | ⟨h1, h2⟩
            · refine .inl ⟨d, h1, h2, h3.rename, ?_⟩
              rw [name_rename]
              obtain ⟨p, hp, e, he⟩ := find_equal hf
              rcases J p hp with h | h
              · exact e ▸ h
              · rw [h.ne (h3.typed hS)] at he; cases he
            · exact .inr ⟨h1, h2.rename⟩
          have := tuple_nodes (r := r) (done := done ++ [v]) (acc := (acc.1 ++ [child.rename old], acc.2)) hS hm' hp' (I.append (.cons hr .nil)) J h
          simpa using this
        · injection hs with hs
          subst hs
          have := tuple_nodes (r := r) (done := done ++ [v]) hS hm' hp' (I.append (.cons hc .nil)) (by
            intro p hp
            rcases List.mem_append.mp hp with hp | hp
            · exact J p hp
            · simp only [List.mem_singleton] at hp
              subst hp
              rcases hc with ⟨_, _, _, _, h⟩ | ⟨_, h⟩
              · exact .inl h
              · exact .inr h) h
          simpa using this

theorem All₂.getElem {α β} {R : α → β → Prop} {l : List α} {l' : List β} (h : All₂ R l l') : ∀ (i : Nat) a, l[i]? = some a → ∃ b, l'[i]? = some b ∧ R a b := by
  induction h with
  | nil => intro i a h; simp at h
  | cons h _ ih =>
    intro i a ha
    cases i with
    | zero => simp at ha; subst ha; exact ⟨_, by simp, h⟩
    | succ i => simpa using ih i a (by simpa using ha)

/-- How a tuple is rendered in which dictionaries stand next to other values. -/
theorem mixed_tuple_abs {E : Env} (hS : E.S.dict = .typedDict) (hT : E.S.tuple = .fixed)
    {es : List Val} {f : Nat} {name : Str} {ty : Ty} {n : Node} (hne : dictsIn es ≠ []) (hm : Mixed es)
    (hl : limit E.S.checkMax es = es) (h : build E f true name (.seq .tuple ty es) = .ok n) :
    ∃ ts : List TExpr, ⟨name, .alias (.tuple ts)⟩ ∈ (n.abs E).emitted ∧ ts.length = es.length ∧
      ∃ b : Bool, (Agree (dictsIn es) → b = decide (E.S.merge ≤ percentSimilarity (commonKeys (dictsIn es)).length (allKeys (dictsIn es)).length)) ∧
      (b = true → OnePlaced ((n.abs E).emitted.map TDecl.print) ts es) ∧
      (b = false → EachPlaced ((n.abs E).emitted.map TDecl.print) ts es) := by
  cases f with
  | zero => cases h
  | succ f =>
    rw [build_seq] at h
    split at h
    case isFalse => cases h
    split at h
    case h_2 => cases h
    rename_i slots kids hc
    try rw [if_pos ⟨rfl, hT⟩] at hc
    injection h with h
    subst h
    generalize hds : dictsIn es = ds at hne
    unfold tupleChildren at hc
    rw [hl] at hc
    cases hf : foldE (tupleStep E (build E f false) name) ([], []) es with
    | error e => rw [hf] at hc; cases hc
    | ok acc =>
      obtain ⟨ks, names⟩ := acc
      rw [hf] at hc
      have I : All₂ (ElemNode E ds) es ks := by
        have := tuple_nodes (pool := ds) (done := []) (r := (ks, names)) hS hm (by rw [hds]; exact fun _ h => h)
          (acc := ([], [])) .nil (by simp) hf
        simpa using this
      have hrep : ∀ k ∈ ks.filter (isTypedDict E.S), ∃ d ∈ ds, Rep E ds d k := by
        intro k hk
        obtain ⟨hk, ht⟩ := List.mem_filter.mp hk
        obtain ⟨v, hv, he⟩ := I.mem_right k hk
        rcases he with ⟨d, _, rfl, hr, _⟩ | ⟨_, hl⟩
        · exact ⟨d, by rw [← hds]; exact List.mem_filterMap.mpr ⟨_, hv, asDct_dictOf d⟩, hr⟩
        · rw [hl.typed] at ht; cases ht
      have hcov : ∀ d ∈ ds, ∃ k ∈ ks.filter (isTypedDict E.S), ∃ d' ∈ ds, Rep E ds d' k ∧ ∀ s, s ∈ shown d ↔ s ∈ shown d' := by
        intro d hd
        have hd0 := hd
        rw [← hds] at hd
        obtain ⟨v, hv, e⟩ := List.mem_filterMap.mp hd
        obtain ⟨k, hk, he⟩ := I.mem_left v hv
        rcases he with ⟨d', _, rfl, hr, _⟩ | ⟨ho, _⟩
        · rw [asDct_dictOf] at e
          injection e with e
          subst e
          exact ⟨k, List.mem_filter.mpr ⟨hk, hr.typed hS⟩, d', hd0, hr, fun _ => Iff.rfl⟩
        · rw [asDct_other ho] at e; cases e
      have hksne : ks.filter (isTypedDict E.S) ≠ [] := by
        cases ds with
        | nil => exact absurd rfl hne
        | cons d r =>
          obtain ⟨k, hk, _⟩ := hcov d (by simp)
          intro e; rw [e] at hk; simp at hk
      have hlong : ∀ k ∈ ks, isTypedDict E.S k = true → 'D' ∈ k.name := by
        intro k hk ht
        obtain ⟨v, hv, he⟩ := I.mem_right k hk
        rcases he with ⟨d, _, rfl, _, h⟩ | ⟨_, hl⟩
        · exact h
        · rw [hl.typed] at ht; cases ht
      -- what follows from the children in their order
      have final : ∀ {kids' : List Node} {slots' : List Slot}, slots'.length = kids'.length → (∀ s ∈ slots', s.key ≠ .none) →
          (∃ k ∈ kids', (k.abs E).perm = true ∧ 'D' ∈ k.name) →
          ⟨name, .alias (.tuple (kids'.map fun k => aref (k.abs E)))⟩ ∈ ((Node.mk ⟨.seq .tuple, name, true, ty, slots'⟩ kids').abs E).emitted ∧
          ∀ {ds' : List Dct} {kid : Node}, kid ∈ kids' → RecNode E ds' kid → aref (kid.abs E) = .name kid.name ∧
            RecordFor (((Node.mk ⟨.seq .tuple, name, true, ty, slots'⟩ kids').abs E).emitted.map TDecl.print) kid.name ds' := by
        intro kids' slots' hlen hkey hD
        have hit : iterate slots' (absList E kids') = kids'.map (fun n => n.abs E) := by
          rw [absList_eq_map]
          exact iterate_seq (by simp [hlen]) hkey
        have hemp : (absList E kids').isEmpty = false := by
          rw [absList_eq_map]; cases kids' with
          | nil => obtain ⟨_, h, _⟩ := hD; cases h
          | cons _ _ => rfl
        have hty : aTypes (kids'.map fun n => n.abs E) = kids'.map fun k => aref (k.abs E) := by
          unfold aTypes
          rw [← absList_eq_map, hemp, absList_eq_map]
          simp
        refine ⟨?_, ?_⟩
        · simp only [Node.abs, aCombine, aEmit]
          rw [hemp]
          simp only [Bool.false_eq_true, if_false]
          apply List.mem_append_right
          have hany : ¬ (kids'.map fun k => aref (k.abs E)).map TExpr.print = [py!"Any"] := by
            intro e
            obtain ⟨k, hk, hp, hd⟩ := hD
            have : (aref (k.abs E)).print ∈ (kids'.map fun k => aref (k.abs E)).map TExpr.print :=
              List.mem_map_of_mem (List.mem_map_of_mem hk)
            rw [e] at this
            simp only [aref, hp, if_true, TExpr.print, abs_name, List.mem_singleton] at this
            rw [this] at hd
            revert hd; decide
          simp [permOf, aBody, aTuple, hT, hit, hty]
          intro x hx e
          apply hany
          rw [hx]
          simp [e]
        · intro ds' kid hmem hr
          obtain ⟨hp, f, doc, es, h1, h2, h3⟩ := recNode_abs hS hr
          refine ⟨by simp [aref, hp, abs_name], f, doc, es, ?_, h2, fun e he => by rw [h3 e he, decide_eq_true_eq]⟩
          rw [← h1]
          apply List.mem_map_of_mem
          simp only [Node.abs, aCombine, aEmit]
          rw [hemp]
          simp only [Bool.false_eq_true, if_false]
          apply List.mem_append_left
          rw [List.mem_flatMap]
          refine ⟨kid.abs E, ?_, ?_⟩
          · rw [hit]; exact List.mem_map_of_mem hmem
          · rw [hp, if_pos rfl]
            simp [AOut.decl, abs_name]
      simp only [bind, Except.bind] at hc
      have hsm := fun hag => shouldMerge_iff (E := E) hag hksne hrep hcov
      generalize shouldMerge E.S (ks.filter (isTypedDict E.S)) = b at hc hsm
      have hlen : ks.length = es.length := I.length_eq.symm
      by_cases hb : b = true
      · simp only [hb, if_true] at hc
        cases hmd : mergeDicts (build E f false) (ks.filter (isTypedDict E.S)) with
        | error e => rw [hmd] at hc; cases hc
        | ok m =>
          obtain ⟨hr, k, hk, hkn⟩ := mergeDicts_spec hS hrep hcov hmd
          rw [hmd] at hc
          simp only [pure, Except.pure] at hc
          injection hc with hc
          injection hc with h1 h2
          subst h1 h2
          obtain ⟨hk, ht⟩ := List.mem_filter.mp hk
          have hmem : m ∈ ks.map (fun k => if isTypedDict E.S k then m else k) := List.mem_map.mpr ⟨k, hk, by rw [if_pos ht]⟩
          obtain ⟨a1, a2⟩ := final (kids' := ks.map fun k => if isTypedDict E.S k then m else k)
            (slots' := ks.map fun k => Slot.seq (if isTypedDict E.S k then (ks.filter (isTypedDict E.S)).length else 1)) (by simp) (by intro s hs; obtain ⟨_, _, rfl⟩ := List.mem_map.mp hs; simp [Slot.seq])
            ⟨m, hmem, (recNode_abs hS hr).1, by rw [hkn]; exact hlong k hk ht⟩
          refine ⟨_, a1, by simp [hlen], b, hsm, ?_⟩
          refine ⟨fun _ => ?_, fun h => by rw [hb] at h; cases h⟩
          refine ⟨m.name, by rw [hds]; exact (a2 hmem hr).2, ?_⟩
          intro i d hi
          obtain ⟨k', hk', he⟩ := I.getElem i _ hi
          have htk : isTypedDict E.S k' = true := by
            rcases he with ⟨_, _, _, hr', _⟩ | ⟨ho, _⟩
            · exact hr'.typed hS
            · have := asDct_other ho
              rw [asDct_dictOf] at this; cases this
          simp only [List.getElem?_map, hk', Option.map_some, htk, if_true, (a2 hmem hr).1]
      · simp only [hb, Bool.false_eq_true, if_false, pure, Except.pure] at hc
        injection hc with hc
        injection hc with h1 h2
        subst h1 h2
        have hD : ∃ k ∈ ks, (k.abs E).perm = true ∧ 'D' ∈ k.name := by
          cases hks : ks.filter (isTypedDict E.S) with
          | nil => exact absurd hks hksne
          | cons k r =>
            have hk : k ∈ ks.filter (isTypedDict E.S) := by rw [hks]; simp
            obtain ⟨hk', ht⟩ := List.mem_filter.mp hk
            obtain ⟨v, hv, he⟩ := I.mem_right k hk'
            rcases he with ⟨d, hd, _, hr, h⟩ | ⟨_, hl⟩
            · exact ⟨k, hk', (recNode_abs hS (hr.recNode hd)).1, h⟩
            · rw [hl.typed] at ht; cases ht
        obtain ⟨a1, a2⟩ := final (kids' := ks) (slots' := ks.map fun _ => Slot.seq 1) (by simp) (by intro s hs; obtain ⟨_, _, rfl⟩ := List.mem_map.mp hs; simp [Slot.seq]) hD
        refine ⟨_, a1, by simp [hlen], b, hsm, ?_⟩
        refine ⟨fun h => absurd h hb, fun _ => ?_⟩
        intro i d hi
        obtain ⟨k', hk', he⟩ := I.getElem i _ hi
        rcases he with ⟨d', hd', e, hr', _⟩ | ⟨ho, _⟩
        · have e' : d = d' := by
            have := congrArg asDct e
            rw [asDct_dictOf, asDct_dictOf] at this
            injection this
          subst e'
          obtain ⟨h1, h2⟩ := a2 (List.mem_of_getElem? hk') (hr'.recNode hd')
          exact ⟨k'.name, h2, by simp [hk', h1]⟩
        · have := asDct_other ho
          rw [asDct_dictOf] at this; cases this

end Verif
