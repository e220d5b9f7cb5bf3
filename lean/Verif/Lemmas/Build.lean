import Verif.Model.Tree
import Verif.Lemmas.ListStr
/-
Reasoning about tree construction: pre- and postconditions for computations that may fail.
-/
namespace Verif

/-- `x` succeeds with a result satisfying `P` or fails with an error satisfying `Q`. -/
def Ens {α} (x : Except Err α) (P : α → Prop) (Q : Err → Prop) : Prop :=
  match x with
  | .ok a => P a
  | .error e => Q e

theorem Ens.imp {α} {x : Except Err α} {P P' : α → Prop} {Q Q' : Err → Prop} (h : Ens x P Q) (hp : ∀ a, P a → P' a)
    (hq : ∀ e, Q e → Q' e) : Ens x P' Q' := by
  cases x with
  | ok a => exact hp a h
  | error e => exact hq e h

theorem Ens.bind {α β} {x : Except Err α} {f : α → Except Err β} {P : α → Prop} {R : β → Prop} {Q : Err → Prop}
    (h : Ens x P Q) (hf : ∀ a, P a → Ens (f a) R Q) : Ens (x >>= f) R Q := by
  cases x with
  | ok a => exact hf a h
  | error e => exact h

theorem Ens.pure {α} {a : α} {P : α → Prop} {Q : Err → Prop} (h : P a) : Ens (Pure.pure a) P Q := h

theorem foldE_ens {α β} {f : β → α → Except Err β} {I : β → Prop} {Q : Err → Prop} :
    ∀ {l : List α} {b : β}, I b → (∀ b, ∀ a ∈ l, I b → Ens (f b a) I Q) → Ens (foldE f b l) I Q
  | [], b, hb, _ => hb
  | a :: r, b, hb, h => by
    have h1 := h b a (by simp) hb
    simp only [foldE]
    cases hf : f b a with
    | ok b' =>
      rw [hf] at h1
      exact foldE_ens h1 (fun b a ha => h b a (by simp [ha]))
    | error e => rw [hf] at h1; exact h1

/-! ### Dictionaries -/

theorem mem_setKey {α} {k : Key} {v : α} {x : Key × α} : ∀ {d}, x ∈ setKey k v d → x = (k, v) ∨ x ∈ d
  | [] => by simp [setKey]
  | (k', v') :: r => by
    simp only [setKey]
    split
    · rename_i h; subst h; simp; rintro (h | h) <;> simp [h]
    · simp only [List.mem_cons]
      rintro (h | h)
      · exact .inr (.inl h)
      · rcases mem_setKey h with h | h
        · exact .inl h
        · exact .inr (.inr h)

theorem mem_updateDict {α} {x : Key × α} : ∀ {e d}, x ∈ updateDict d e → x ∈ d ∨ x ∈ e
  | [], d => by simp [updateDict]
  | (k, v) :: e, d => by
    intro h
    have : x ∈ updateDict (setKey k v d) e := h
    rcases mem_updateDict this with h | h
    · rcases mem_setKey h with h | h
      · subst h; simp
      · exact .inl h
    · exact .inr (by simp [h])

theorem keys_setKey {α} {k : Key} {v : α} : ∀ {d : List (Key × α)} {x},
    x ∈ (setKey k v d).map (·.1) ↔ x = k ∨ x ∈ d.map (·.1)
  | [], x => by simp [setKey]
  | (k', v') :: r, x => by
    simp only [setKey]
    split
    · rename_i h; subst h; simp
    · simp only [List.map_cons, List.mem_cons, keys_setKey (d := r)]
      constructor
      · rintro (h | h | h) <;> simp [h]
      · rintro (h | h | h) <;> simp [h]

theorem keys_updateDict {α} : ∀ {e d : List (Key × α)} {x},
    x ∈ (updateDict d e).map (·.1) ↔ x ∈ d.map (·.1) ∨ x ∈ e.map (·.1)
  | [], d, x => by simp [updateDict]
  | (k, v) :: e, d, x => by
    have : updateDict d ((k, v) :: e) = updateDict (setKey k v d) e := rfl
    rw [this, keys_updateDict, keys_setKey]
    simp only [List.map_cons, List.mem_cons]
    constructor
    · rintro ((h | h) | h) <;> simp [h]
    · rintro (h | h | h) <;> simp [h]

theorem mem_update_data {m o : DMeta} {x : Key × Val} (h : x ∈ (m.update o).data) : x ∈ m.data ∨ x ∈ o.data := by
  simp only [DMeta.update, List.mem_append, List.mem_filter] at h
  rcases h with h | h
  · exact .inl h
  · exact .inr h.1

theorem mem_foldl_update_data {x : Key × Val} : ∀ {ms : List DMeta} {m : DMeta}, x ∈ (ms.foldl DMeta.update m).data →
    x ∈ m.data ∨ ∃ o ∈ ms, x ∈ o.data
  | [], m => by simp
  | o :: ms, m => by
    intro h
    rcases mem_foldl_update_data (ms := ms) h with h | ⟨o', ho, h⟩
    · rcases mem_update_data h with h | h
      · exact .inl h
      · exact .inr ⟨o, by simp, h⟩
    · exact .inr ⟨o', by simp [ho], h⟩

theorem mem_foldl_updateDict {x : Key × Val} : ∀ {ns : List Node} {d}, x ∈ ns.foldl (fun acc n => updateDict acc (nodeData n)) d →
    x ∈ d ∨ ∃ n ∈ ns, x ∈ nodeData n
  | [], d => by simp
  | n :: ns, d => by
    intro h
    rcases mem_foldl_updateDict (ns := ns) h with h | ⟨o', ho, h⟩
    · rcases mem_updateDict h with h | h
      · exact .inl h
      · exact .inr ⟨n, by simp, h⟩
    · exact .inr ⟨o', by simp [ho], h⟩

theorem foldl_minStr_mem {ns : List Node} : ∀ {s : Str},
    ns.foldl (fun acc n => minStr acc n.name) s = s ∨ ∃ n ∈ ns, ns.foldl (fun acc n => minStr acc n.name) s = n.name := by
  induction ns with
  | nil => intro s; simp
  | cons n ns ih =>
    intro s
    simp only [List.foldl_cons]
    rcases ih (s := minStr s n.name) with h | ⟨n', hn, h⟩
    · rw [h]
      unfold minStr
      split
      · exact .inl rfl
      · exact .inr ⟨n, by simp, rfl⟩
    · exact .inr ⟨n', by simp [hn], h⟩

/-! ### Names -/

theorem freshSuffix_spec (base : Str) (names : List Str) : ∀ fuel c, ∃ k, freshSuffix base names fuel c = base ++ natStr k
  | 0, c => ⟨c, rfl⟩
  | fuel + 1, c => by
    simp only [freshSuffix]
    split
    · exact freshSuffix_spec base names fuel (c + 1)
    · exact ⟨c, rfl⟩

theorem freshName_spec (base : Str) (names : List Str) :
    freshName base names = base ∨ ∃ k, freshName base names = base ++ natStr k := by
  unfold freshName
  split
  · exact .inr (freshSuffix_spec _ _ _ _)
  · exact .inl rfl

/-! ### Children of sets and sequences -/

theorem limit_subset {α} {n : Nat} {l : List α} {x : α} (h : x ∈ limit n l) : x ∈ l := by
  unfold limit at h
  split at h
  · exact h
  · exact List.mem_of_mem_take h

/-- What is assumed about the recursive calls made for the elements `elems` of a parent, and about merging. -/
structure RecSpec (E : Env) (rec : Str → Val → Except Err Node) (parent : Str) (elems : List Val) (P : Node → Prop)
    (Q : Err → Prop) : Prop where
  elem : ∀ v ∈ elems, ∀ name, (name = parent ++ E.U.capitalize v.ty.name ∨
    ∃ k, name = parent ++ E.U.capitalize v.ty.name ++ natStr k) → Ens (rec name v) P Q
  upd : ∀ k c, P k → P c → P (updateNode k c)
  merge : ∀ ds, (∀ d ∈ ds, P d ∧ isTypedDict E.S d = true) → (0 < E.S.merge → ds ≠ []) → Ens (mergeDicts rec ds) P Q

theorem percentSimilarity_zero : percentSimilarity 0 0 = 0 := by decide

theorem shouldMerge_nil {S : Strategies} (h : 0 < S.merge) : shouldMerge S [] = false := by
  have : ¬ S.merge ≤ percentSimilarity 0 0 := by rw [percentSimilarity_zero]; omega
  simp [shouldMerge, compareDicts, this]

theorem setFold_ens {E : Env} {rec parent elems} {P : Node → Prop} {Q}
    (h : RecSpec E rec parent elems P Q) :
    Ens (foldE (setStep E rec parent) ([], []) (limit E.S.checkMax elems)) (fun acc => ∀ k ∈ acc.1, P k) Q := by
  refine foldE_ens (by simp) ?_
  intro b a ha hb
  unfold setStep
  refine Ens.bind (h.elem a (limit_subset ha) _ (freshName_spec _ _)) ?_
  intro c hc
  split
  · split
    · apply Ens.pure
      intro k hk
      simp only [List.mem_map] at hk
      obtain ⟨k', hk', rfl⟩ := hk
      split
      · exact h.upd _ _ (hb _ hk') hc
      · exact hb _ hk'
    · exact hb
  · apply Ens.pure
    intro k hk
    simp only [List.mem_append, List.mem_singleton] at hk
    rcases hk with hk | rfl
    · exact hb _ hk
    · exact hc

theorem setChildren_ens {E : Env} (hE : E.Fair) {rec parent elems} {P : Node → Prop} {Q}
    (h : RecSpec E rec parent elems P Q) :
    Ens (setChildren E rec parent elems)
      (fun r => (∀ k ∈ r.2, P k) ∧ r.1 = r.2.map (fun _ => Slot.seq 1)) Q := by
  unfold setChildren
  refine Ens.bind (setFold_ens h) ?_
  · rintro ⟨kids, names⟩ hk
    have hord : ∀ i (l : List Node) x, x ∈ E.order i l ↔ x ∈ l := fun i l x => (hE i l).mem_iff
    dsimp only
    split
    · rename_i hm
      refine Ens.bind (h.merge _ ?_ ?_) ?_
      · intro d hd
        simp only [List.mem_filter, hord] at hd
        exact ⟨hk _ hd.1, hd.2⟩
      · intro hpos hnil
        have : (E.order 0 kids).filter (isTypedDict E.S) = [] := by
          rw [List.filter_eq_nil_iff] at hnil ⊢
          intro a ha; exact hnil a ((hord _ _ _).mpr ((hord _ _ _).mp ha))
        rw [this, shouldMerge_nil hpos] at hm
        cases hm
      · intro m hmm
        apply Ens.pure
        refine ⟨?_, rfl⟩
        intro k hk'
        simp only [hord, List.mem_append, List.mem_filter, List.mem_singleton] at hk'
        rcases hk' with hk' | rfl
        · exact hk _ hk'.1
        · exact hmm
    · apply Ens.pure
      exact ⟨fun k hk' => hk _ ((hord _ _ _).mp hk'), rfl⟩

theorem findEq_mem {S : Strategies} {c : Node} {s : Str} : ∀ {l}, findEq S c l = some s → ∃ n, (n, s) ∈ l
  | [] => by simp [findEq]
  | (n, t) :: r => by
    simp only [findEq]
    split
    · simp only [Option.some.injEq]; rintro rfl; exact ⟨n, by simp⟩
    · intro h
      obtain ⟨n', hn⟩ := findEq_mem h
      exact ⟨n', by simp [hn]⟩

theorem tupleFold_ens {E : Env} {rec parent elems} {P : Node → Prop} {Q}
    (h : RecSpec E rec parent elems P Q) (hr : ∀ k c, P k → P c → P (c.rename k.name)) :
    Ens (foldE (tupleStep E rec parent) ([], []) (limit E.S.checkMax elems))
      (fun acc => (∀ k ∈ acc.1, P k) ∧ (∀ p ∈ acc.2, P p.1 ∧ p.2 = p.1.name)) Q := by
  refine foldE_ens (by simp) ?_
  intro b a ha hb
  unfold tupleStep
  refine Ens.bind (h.elem a (limit_subset ha) _ (freshName_spec _ _)) ?_
  intro c hc
  split
  · rename_i s hs
    apply Ens.pure
    refine ⟨?_, hb.2⟩
    intro k hk
    simp only [List.mem_append, List.mem_singleton] at hk
    rcases hk with hk | rfl
    · exact hb.1 _ hk
    · obtain ⟨n, hn⟩ := findEq_mem hs
      obtain ⟨h1, h2⟩ := hb.2 _ hn
      simp only at h1 h2
      subst h2
      exact hr _ _ h1 hc
  · apply Ens.pure
    constructor
    · intro k hk
      simp only [List.mem_append, List.mem_singleton] at hk
      rcases hk with hk | rfl
      · exact hb.1 _ hk
      · exact hc
    · intro p hp
      simp only [List.mem_append, List.mem_singleton] at hp
      rcases hp with hp | rfl
      · exact hb.2 _ hp
      · exact ⟨hc, rfl⟩

theorem tupleChildren_ens {E : Env} {rec parent elems} {P : Node → Prop} {Q}
    (h : RecSpec E rec parent elems P Q) (hr : ∀ k c, P k → P c → P (c.rename k.name)) :
    Ens (tupleChildren E rec parent elems)
      (fun r => (∀ k ∈ r.2, P k) ∧ r.1.length = r.2.length ∧ (∀ s ∈ r.1, ∃ m, 0 < m ∧ s = Slot.seq m)) Q := by
  unfold tupleChildren
  refine Ens.bind (tupleFold_ens h hr) ?_
  · rintro ⟨kids, names⟩ hk
    dsimp only
    have hk := hk.1
    split
    · rename_i hm
      refine Ens.bind (h.merge _ ?_ ?_) ?_
      · intro d hd
        simp only [List.mem_filter] at hd
        exact ⟨hk _ hd.1, hd.2⟩
      · intro hpos hnil
        rw [hnil, shouldMerge_nil hpos] at hm
        cases hm
      · intro m hmm
        apply Ens.pure
        refine ⟨?_, by simp, ?_⟩
        · intro k hk'
          simp only [List.mem_map] at hk'
          obtain ⟨k', hk', rfl⟩ := hk'
          split
          · exact hmm
          · exact hk _ hk'
        · intro s hs
          simp only [List.mem_map] at hs
          obtain ⟨k', hk', rfl⟩ := hs
          refine ⟨_, ?_, rfl⟩
          split
          · rename_i ht
            exact List.length_pos_of_mem (List.mem_filter.mpr ⟨hk', ht⟩)
          · omega
    · apply Ens.pure
      refine ⟨hk, by simp, ?_⟩
      intro s hs
      simp only [List.mem_map] at hs
      obtain ⟨_, _, rfl⟩ := hs
      exact ⟨1, by omega, rfl⟩

/-! ### Children of mappings -/

theorem mapKids_ens {rec : Str → Val → Except Err Node} {parent suffix} {R : Key → Val → Node → Prop} {Q} :
    ∀ {items : List (Key × Val)}, (∀ kv ∈ items, Ens (rec (parent ++ suffix kv.1) kv.2) (R kv.1 kv.2) Q) →
    Ens (mapKids rec parent suffix items)
      (fun kids => kids.map (·.1) = items.map (·.1) ∧ ∀ kn ∈ kids, ∃ v, (kn.1, v) ∈ items ∧ R kn.1 v kn.2) Q
  | [], _ => by simp [mapKids, Ens]
  | (k, v) :: r, h => by
    simp only [mapKids]
    refine Ens.bind (h (k, v) (by simp)) ?_
    intro n hn
    refine Ens.bind (mapKids_ens (fun kv hkv => h kv (by simp [hkv]))) ?_
    intro rest hrest
    apply Ens.pure
    refine ⟨by simp [hrest.1], ?_⟩
    intro kn hkn
    simp only [List.mem_cons] at hkn
    rcases hkn with rfl | hkn
    · exact ⟨v, by simp, hn⟩
    · obtain ⟨v', h1, h2⟩ := hrest.2 _ hkn
      exact ⟨v', by simp [h1], h2⟩

theorem addGroup_all {S : Strategies} {key : Key} {n : Node} {P : Node → Prop} (hn : P n) :
    ∀ {g : List (Node × List Key)}, (∀ x ∈ g, P x.1) → ∀ x ∈ addGroup S key n g, P x.1
  | [], _ => by simp [addGroup, hn]
  | (m, ks) :: r, h => by
    simp only [addGroup]
    split
    · intro x hx
      simp only [List.mem_cons] at hx
      rcases hx with rfl | hx
      · exact h (m, ks) (by simp)
      · exact h x (by simp [hx])
    · intro x hx
      simp only [List.mem_cons] at hx
      rcases hx with rfl | hx
      · exact h (m, ks) (by simp)
      · exact addGroup_all hn (fun x hx => h x (by simp [hx])) x hx

theorem groups_all {S : Strategies} {P : Node → Prop} : ∀ {kids : List (Key × Node)} {g},
    (∀ kn ∈ kids, P kn.2) → (∀ x ∈ g, P x.1) → ∀ x ∈ kids.foldl (fun g kn => addGroup S kn.1 kn.2 g) g, P x.1
  | [], g, _, hg => by simpa using hg
  | kn :: kids, g, h, hg => by
    simp only [List.foldl_cons]
    exact groups_all (fun kn hkn => h kn (by simp [hkn])) (addGroup_all (h kn (by simp)) hg)

theorem renameGroups_all {U : Uni} {parent : Str} {P : Node → Prop}
    (hr : ∀ n name, P n → (name = parent ++ U.capitalize n.hdr.ty.name ∨
      ∃ k, name = parent ++ U.capitalize n.hdr.ty.name ++ natStr k) → P (n.rename name)) :
    ∀ {g : List (Node × List Key)} {counts}, (∀ x ∈ g, P x.1) → ∀ x ∈ renameGroups U parent counts g, P x.1
  | [], _, _ => by simp [renameGroups]
  | (n, ks) :: r, counts, h => by
    have hn := h (n, ks) (by simp)
    have hr' : ∀ x ∈ r, P x.1 := fun x hx => h x (by simp [hx])
    simp only [renameGroups]
    split
    · split
      · intro x hx
        simp only [List.mem_cons] at hx
        rcases hx with rfl | hx
        · exact hr _ _ hn (.inr ⟨_, rfl⟩)
        · exact renameGroups_all hr hr' x hx
      · intro x hx
        simp only [List.mem_cons] at hx
        rcases hx with rfl | hx
        · exact hr _ _ hn (.inl rfl)
        · exact renameGroups_all hr hr' x hx
    · intro x hx
      simp only [List.mem_cons] at hx
      rcases hx with rfl | hx
      · exact hn
      · exact renameGroups_all hr hr' x hx

theorem findGroup_mem {key : Key} {x : Node × List Key} : ∀ {g}, findGroup key g = some x → x ∈ g ∧ key ∈ x.2
  | [] => by simp [findGroup]
  | (n, ks) :: r => by
    simp only [findGroup]
    split
    · rename_i h
      simp only [Option.some.injEq]; rintro rfl; exact ⟨by simp, by simpa using h⟩
    · intro h
      obtain ⟨h1, h2⟩ := findGroup_mem h
      exact ⟨by simp [h1], h2⟩

theorem shareEqual_keys (E : Env) (parent : Str) (kids : List (Key × Node)) :
    (shareEqual E parent kids).1.map (·.key) = kids.map (·.1) := by
  simp only [shareEqual, List.map_map]
  apply List.map_congr_left
  intro kn _
  simp only [Function.comp]
  split <;> rfl

theorem shareEqual_length (E : Env) (parent : Str) (kids : List (Key × Node)) :
    (shareEqual E parent kids).1.length = (shareEqual E parent kids).2.length := by
  simp [shareEqual]

theorem shareEqual_all {E : Env} {parent : Str} {P : Node → Prop} {kids : List (Key × Node)}
    (h : ∀ kn ∈ kids, P kn.2)
    (hr : ∀ n name, P n → (name = parent ++ E.U.capitalize n.hdr.ty.name ∨
      ∃ k, name = parent ++ E.U.capitalize n.hdr.ty.name ++ natStr k) → P (n.rename name)) :
    ∀ k ∈ (shareEqual E parent kids).2, P k := by
  intro k hk
  simp only [shareEqual, List.map_map, List.mem_map, Function.comp] at hk
  obtain ⟨kn, hkn, rfl⟩ := hk
  have hg := renameGroups_all (U := E.U) (parent := parent) (counts := []) hr
    (groups_all (S := E.S) h (g := []) (by simp))
  split
  · rename_i n ks hf
    exact hg _ (findGroup_mem hf).1
  · exact h _ hkn

/-- Slots that iteration reaches have a positive multiplicity. -/
theorem shareEqual_mult {E : Env} {parent : Str} {kids : List (Key × Node)} :
    ∀ s ∈ (shareEqual E parent kids).1, s.key ∈ iterKeys (kids.map (·.1)) → 0 < s.mult := by
  intro s hs
  simp only [shareEqual, List.map_map, List.mem_map, Function.comp] at hs
  obtain ⟨kn, hkn, rfl⟩ := hs
  split
  · rename_i n ks hf
    intro hk
    exact List.length_pos_of_mem (List.mem_filter.mpr ⟨hk, by simpa using (findGroup_mem hf).2⟩)
  · intro _; exact Nat.one_pos

end Verif
