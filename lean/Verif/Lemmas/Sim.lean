import Verif.Lemmas.LikeBuild
/-
Trees that differ only in the order of children that are described in place.
-/
namespace Verif
open Verif.Spec

variable {q : Prop}

/-- One of the two nodes is described in place. -/
def QuietPair (S : Strategies) (a b : Node) : Prop := Silent S S.minHeight a ∨ Silent S S.minHeight b

/-- The children of a sequence whose order does not matter. -/
def Loose (S : Strategies) (h : Hdr) (kids : List Node) : Prop :=
  h.slots = kids.map (fun _ => Slot.seq 1) ∧ ∃ k, h.kind = .seq k ∧ ¬ (k = .tuple ∧ S.tuple = .fixed)

/-- The children are the same or reordered; with `q`, only if described in place. -/
def Mixed (q : Prop) (S : Strategies) (h : Hdr) (mid kids : List Node) : Prop :=
  mid = kids ∨ (Loose S h mid ∧ mid.Perm kids ∧ (q → kids.Pairwise (QuietPair S)))

/-- Trees that differ only in the order of the children of sequences. -/
inductive Sim (q : Prop) (S : Strategies) : Node → Node → Prop
  | mk {h kids mid kids'} : kids.length = mid.length → (∀ p ∈ kids.zip mid, Sim q S p.1 p.2) → Mixed q S h mid kids' →
      Sim q S (.mk h kids) (.mk h kids')

theorem Sim.of {S : Strategies} {h : Hdr} {kids mid kids' : List Node} (h1 : All₂ (Sim q S) kids mid) (h2 : Mixed q S h mid kids') :
    Sim q S (.mk h kids) (.mk h kids') := .mk h1.length_eq h1.to_zip h2

theorem Sim.hdr {S : Strategies} {n n' : Node} (h : Sim q S n n') : n.hdr = n'.hdr := by
  cases h; rfl

theorem Sim.name {S : Strategies} {n n' : Node} (h : Sim q S n n') : n.name = n'.name := by
  cases h; rfl

theorem Sim.typed {S : Strategies} {n n' : Node} (h : Sim q S n n') : isTypedDict S n = isTypedDict S n' := by
  cases h; rfl

theorem Sim.nodeMeta {S : Strategies} {n n' : Node} (h : Sim q S n n') : nodeMeta n = nodeMeta n' := by
  cases h; rfl

theorem Sim.nodeData {S : Strategies} {n n' : Node} (h : Sim q S n n') : nodeData n = nodeData n' := by
  cases h; rfl

theorem loose_hash {S : Strategies} {h : Hdr} {kids mid : List Node} (hl : Loose S h mid) :
    (Node.mk h kids).hash S = .set (kids.map (fun n => n.hash S)) := by
  obtain ⟨_, k, hk, hs⟩ := hl
  exact hash_set hk hs

theorem eqv_list_set {l l' : List H} (h : All₂ (fun x y => H.eqv x y = true) l l') : H.eqv (.set l) (.set l') = true := by
  have := set_all₂ (f := id) (g := id) (fun _ _ h => h) h
  simpa using this

theorem hashOf_congr {S : Strategies} {h : Hdr} {l l' : List H} (hl : All₂ (fun x y => H.eqv x y = true) l l') :
    H.eqv (hashOf S h l) (hashOf S h l') = true := by
  have keyed : ∀ b, H.eqv (.set (((h.slots.map (·.key)).zip l).map fun kh => hentry b kh.1 kh.2))
      (.set (((h.slots.map (·.key)).zip l').map fun kh => hentry b kh.1 kh.2)) = true := by
    intro b
    refine set_all₂ ?_ (hl.zip (h.slots.map (·.key)))
    intro x y hxy
    rw [hxy.1]
    exact hentry_eqv hxy.2
  unfold hashOf
  dsimp only
  split
  all_goals first
    | exact eqv_refl _
    | skip
  · split
    · exact eqv_list_set hl
    · simp only [H.eqv]; rw [eqvList_iff]; exact hl
  · exact eqv_list_set hl
  · split
    · exact keyed true
    · exact keyed false
  · exact keyed false

theorem sim_hash {S : Strategies} {n n' : Node} (h : Sim q S n n') : H.eqv (n.hash S) (n'.hash S) = true := by
  induction h with
  | @mk h kids mid kids' hl _ hm ih =>
    have h1 : All₂ (fun a b => H.eqv (Node.hash S a) (Node.hash S b) = true) kids mid := All₂.of_zip hl ih
    have h2 : H.eqv ((Node.mk h kids).hash S) ((Node.mk h mid).hash S) = true := by
      simp only [Node.hash, hashList_eq_map]
      exact hashOf_congr (All₂.map (f := fun (n : Node) => n.hash S) (g := fun (n : Node) => n.hash S) (fun _ _ h => h) h1)
    rcases hm with rfl | ⟨hlo, hp, _⟩
    · exact h2
    · refine eqv_trans _ _ _ h2 ?_
      rw [loose_hash hlo, loose_hash hlo, eqv_set]
      constructor
      · intro x hx
        obtain ⟨k, hk, rfl⟩ := List.mem_map.mp hx
        exact ⟨_, List.mem_map_of_mem (hp.mem_iff.mp hk), eqv_refl _⟩
      · intro x hx
        obtain ⟨k, hk, rfl⟩ := List.mem_map.mp hx
        exact ⟨_, List.mem_map_of_mem (hp.mem_iff.mpr hk), eqv_refl _⟩

theorem Sim.nodeEq {S : Strategies} {n n' : Node} (h : Sim q S n n') : nodeEq S n n' = true :=
  nodeEq_iff.mpr ⟨by rw [h.hdr], sim_hash h⟩

mutual
theorem sim_refl {S : Strategies} : ∀ (n : Node), Sim q S n n
  | .mk h kids => Sim.of (sims_refl kids) (.inl rfl)
theorem sims_refl {S : Strategies} : ∀ (l : List Node), All₂ (Sim q S) l l
  | [] => .nil
  | k :: r => .cons (sim_refl k) (sims_refl r)
end

theorem renameList_all₂ {R : Node → Node → Prop} {new : Str} {len c : Nat} {kids mid : List Node}
    (h : All₂ (fun a b => ∀ c, R (a.renameAux new len c) (b.renameAux new len c)) kids mid) : ∀ slots,
    All₂ R (renameList new len c slots kids) (renameList new len c slots mid) := by
  induction h with
  | nil => intro slots; simp only [renameList]; exact .nil
  | cons h _ ih =>
    intro slots
    cases slots with
    | nil => simp only [renameList]; exact .cons (h _) (ih _)
    | cons s ss => simp only [renameList]; exact .cons (h _) (ih _)

theorem renameList_loose {new : Str} {len c : Nat} : ∀ {l : List Node} {α} {m : List α}, m.length = l.length →
    renameList new len c (m.map (fun _ => Slot.seq 1)) l = l.map (fun n => n.renameAux new len c)
  | [], _, m, _ => by simp [renameList]
  | k :: r, _, m, h => by
    cases m with
    | nil => simp at h
    | cons x m =>
      have : c * (Slot.seq 1).mult = c := by simp [Slot.seq]
      simp only [List.map_cons, renameList, this]
      rw [renameList_loose (by simpa using h)]

theorem sim_renameAux {S : Strategies} {new : Str} {len : Nat} {n n' : Node} (h : Sim q S n n') : ∀ c,
    Sim q S (n.renameAux new len c) (n'.renameAux new len c) := by
  induction h with
  | @mk h kids mid kids' hl _ hm ih =>
    intro c
    have h1 : All₂ (fun a b => ∀ c, Sim q S (Node.renameAux new len c a) (Node.renameAux new len c b)) kids mid := All₂.of_zip hl ih
    have h2 := renameList_all₂ (c := c) h1 h.slots
    simp only [Node.renameAux]
    refine Sim.of h2 ?_
    rcases hm with rfl | ⟨⟨hs, hk⟩, hp, hq⟩
    · exact .inl rfl
    · have e1 : renameList new len c h.slots mid = mid.map (fun n => n.renameAux new len c) := by
        rw [hs]; exact renameList_loose rfl
      have e2 : renameList new len c h.slots kids' = kids'.map (fun n => n.renameAux new len c) := by
        rw [hs]; exact renameList_loose hp.length_eq
      rw [e1, e2]
      refine .inr ⟨⟨?_, hk⟩, hp.map _, ?_⟩
      · simp only [hs, List.map_map, Function.comp_def]
      · intro t
        rw [List.pairwise_map]
        refine (hq t).imp ?_
        rintro a b (hab | hab)
        · exact .inl (silent_rename _ _ _ hab)
        · exact .inr (silent_rename _ _ _ hab)

theorem sim_rename {S : Strategies} {new : Str} {n n' : Node} (h : Sim q S n n') : Sim q S (n.rename new) (n'.rename new) := by
  unfold Node.rename
  rw [h.name]
  exact sim_renameAux h 1

theorem sim_update {S : Strategies} {k k' c c' : Node} (hk : Sim q S k k') (hc : Sim q S c c') : Sim q S (updateNode k c) (updateNode k' c') := by
  cases hk with
  | @mk h kids mid kids' hl hs hm =>
    cases hc with
    | @mk g kids2 mid2 kids2' _ _ _ =>
      cases hkind : h.kind with
      | dict d m =>
        cases gkind : g.kind with
        | dict d' m' =>
          simp only [updateNode, hkind, gkind]
          refine .mk hl hs ?_
          rcases hm with rfl | ⟨⟨_, x, hx, _⟩, _⟩
          · exact .inl rfl
          · rw [hkind] at hx; cases hx
        | _ => simp only [updateNode, hkind, gkind]; exact .mk hl hs hm
      | _ => simp only [updateNode, hkind]; exact .mk hl hs hm

/-! ### Sharing -/

/-- Keyed nodes with the same keys and similar trees. -/
def SimK {α} (q : Prop) (S : Strategies) (a b : α × Node) : Prop := a.1 = b.1 ∧ Sim q S a.2 b.2

/-- Groups with the same keys and similar trees. -/
def SimG (q : Prop) (S : Strategies) (a b : Node × List Key) : Prop := a.2 = b.2 ∧ Sim q S a.1 b.1

theorem addGroup_sim {S : Strategies} {k : Key} {n n' : Node} (hn : Sim q S n n') {g g' : List (Node × List Key)} (h : All₂ (SimG q S) g g') :
    All₂ (SimG q S) (addGroup S k n g) (addGroup S k n' g') := by
  induction h with
  | nil => exact .cons ⟨rfl, hn⟩ .nil
  | @cons a b l₁ l₂ hab hr ih =>
    obtain ⟨m, ks⟩ := a
    obtain ⟨m', ks'⟩ := b
    obtain ⟨e, hm⟩ := hab
    have e : ks = ks' := e
    subst e
    simp only [addGroup, nodeEq_congr hn.nodeEq hm.nodeEq]
    split
    · exact .cons ⟨rfl, hm⟩ hr
    · exact .cons ⟨rfl, hm⟩ ih

theorem groups_sim {S : Strategies} {kids kids' : List (Key × Node)} (h : All₂ (SimK q S) kids kids') : ∀ {g g' : List (Node × List Key)},
    All₂ (SimG q S) g g' → All₂ (SimG q S) (kids.foldl (fun g kn => addGroup S kn.1 kn.2 g) g) (kids'.foldl (fun g kn => addGroup S kn.1 kn.2 g) g') := by
  induction h with
  | nil => intro g g' hg; exact hg
  | cons h _ ih =>
    intro g g' hg
    simp only [List.foldl_cons]
    rw [h.1]
    exact ih (addGroup_sim h.2 hg)

theorem renameGroups_sim {S : Strategies} {U : Uni} {parent : Str} {g g' : List (Node × List Key)} (h : All₂ (SimG q S) g g') : ∀ counts,
    All₂ (SimG q S) (renameGroups U parent counts g) (renameGroups U parent counts g') := by
  induction h with
  | nil => intro _; simp only [renameGroups]; exact .nil
  | @cons a b l₁ l₂ hab hr ih =>
    intro counts
    obtain ⟨m, ks⟩ := a
    obtain ⟨m', ks'⟩ := b
    obtain ⟨e, hm⟩ := hab
    have e : ks = ks' := e
    subst e
    have hm : Sim q S m m' := hm
    simp only [renameGroups, ← hm.hdr]
    split
    · split
      · exact .cons ⟨rfl, sim_rename hm⟩ (ih _)
      · exact .cons ⟨rfl, sim_rename hm⟩ (ih _)
    · exact .cons ⟨rfl, hm⟩ (ih _)

/-- Both searches fail or find similar groups. -/
def SimO (q : Prop) (S : Strategies) : Option (Node × List Key) → Option (Node × List Key) → Prop
  | none, none => True
  | some a, some b => SimG q S a b
  | _, _ => False

theorem findGroup_sim {S : Strategies} {key : Key} {g g' : List (Node × List Key)} (h : All₂ (SimG q S) g g') :
    SimO q S (findGroup key g) (findGroup key g') := by
  induction h with
  | nil => trivial
  | @cons a b l₁ l₂ hab hr ih =>
    obtain ⟨m, ks⟩ := a
    obtain ⟨m', ks'⟩ := b
    obtain ⟨e, hm⟩ := hab
    have e : ks = ks' := e
    subst e
    simp only [findGroup]
    split
    · exact ⟨rfl, hm⟩
    · exact ih

theorem shareEqual_sim {E E' : Env} (hU : E'.U = E.U) (hS : E'.S = E.S) {parent : Str} {kids kids' : List (Key × Node)}
    (h : All₂ (SimK q E.S) kids kids') :
    (shareEqual E parent kids).1 = (shareEqual E' parent kids').1 ∧ All₂ (Sim q E.S) (shareEqual E parent kids).2 (shareEqual E' parent kids').2 := by
  have hg := renameGroups_sim (U := E.U) (parent := parent) (groups_sim h (g := []) (g' := []) .nil) []
  have hkeys : kids.map (·.1) = kids'.map (·.1) := h.map_eq (fun _ _ h => h.1)
  simp only [shareEqual, hU, hS, List.map_map, hkeys]
  generalize renameGroups E.U parent [] (kids.foldl (fun g kn => addGroup E.S kn.1 kn.2 g) []) = G at hg
  generalize renameGroups E.U parent [] (kids'.foldl (fun g kn => addGroup E.S kn.1 kn.2 g) []) = G' at hg
  constructor
  · apply h.map_eq
    intro a b hab
    have := findGroup_sim (key := a.1) hg
    simp only [Function.comp]
    rw [← hab.1]
    revert this
    cases findGroup a.1 G <;> cases findGroup a.1 G' <;> intro this
    · rfl
    · exact this.elim
    · exact this.elim
    · dsimp only; rw [this.1]
  · apply h.map
    intro a b hab
    have := findGroup_sim (key := a.1) hg
    simp only [Function.comp]
    rw [← hab.1]
    revert this
    cases findGroup a.1 G <;> cases findGroup a.1 G' <;> intro this
    · exact hab.2
    · exact this.elim
    · exact this.elim
    · exact this.2

theorem mapKids_sim {S : Strategies} {r r' : Str → Val → Except Err Node} {parent : Str} {suffix : Key → Str} :
    ∀ {items : List (Key × Val)} {kids : List (Key × Node)},
    (∀ kv ∈ items, ∀ nm n, r nm kv.2 = .ok n → ∃ n', r' nm kv.2 = .ok n' ∧ Sim q S n n') →
    mapKids r parent suffix items = .ok kids → ∃ kids', mapKids r' parent suffix items = .ok kids' ∧ All₂ (SimK q S) kids kids'
  | [], kids, _, h => by
    simp only [mapKids, Except.ok.injEq] at h
    subst h
    exact ⟨[], rfl, .nil⟩
  | (k, v) :: items, kids, hr, h => by
    simp only [mapKids, bind, Except.bind, pure, Except.pure] at h ⊢
    cases h1 : r (parent ++ suffix k) v with
    | error e => rw [h1] at h; cases h
    | ok n =>
      obtain ⟨n', h1', hs⟩ := hr (k, v) (by simp) _ _ h1
      rw [h1] at h
      simp only [h1']
      dsimp only at h
      cases h2 : mapKids r parent suffix items with
      | error e => rw [h2] at h; cases h
      | ok rest =>
        obtain ⟨rest', h2', hss⟩ := mapKids_sim (fun kv hkv => hr kv (by simp [hkv])) h2
        rw [h2] at h
        simp only [Except.ok.injEq] at h
        subst h
        exact ⟨(k, n') :: rest', by simp only [h2'], .cons ⟨rfl, hs⟩ hss⟩

/-! ### Sequences -/

theorem All₂.any_eq {α β} {R : α → β → Prop} {p : α → Bool} {q : β → Bool} (hpq : ∀ a b, R a b → p a = q b) {l : List α} {l' : List β}
    (h : All₂ R l l') : l.any p = l'.any q := by
  induction h with
  | nil => rfl
  | cons h _ ih => simp only [List.any_cons, hpq _ _ h, ih]

theorem setFold_sim {E : Env} {r r' : Str → Val → Except Err Node} {parent : Str} : ∀ {l : List Val} {acc acc' x : List Node × List Str},
    (∀ e ∈ l, ∀ nm n, r nm e = .ok n → ∃ n', r' nm e = .ok n' ∧ Sim q E.S n n') →
    All₂ (Sim q E.S) acc.1 acc'.1 → acc.2 = acc'.2 → foldE (setStep E r parent) acc l = .ok x →
    ∃ x', foldE (setStep E r' parent) acc' l = .ok x' ∧ All₂ (Sim q E.S) x.1 x'.1
  | [], acc, acc', x, _, h1, _, h => by
    simp only [foldE, Except.ok.injEq] at h
    subst h
    exact ⟨acc', rfl, h1⟩
  | e :: l, (kids, names), (kids', names'), x, hr, h1, h2, h => by
    dsimp only at h1 h2
    subst h2
    have hrest := fun e' (he' : e' ∈ l) => hr e' (List.mem_cons_of_mem _ he')
    simp only [foldE, setStep, bind, Except.bind, pure, Except.pure] at h ⊢
    cases hb : r (freshName (parent ++ E.U.capitalize e.ty.name) names) e with
    | error y => rw [hb] at h; cases h
    | ok c =>
      obtain ⟨c', hb', hc⟩ := hr e (by simp) _ _ hb
      rw [hb] at h
      rw [hb']
      dsimp only at h ⊢
      have hany : kids.any (nodeEq E.S c) = kids'.any (nodeEq E.S c') := h1.any_eq (fun a b hab => nodeEq_congr hc.nodeEq hab.nodeEq)
      rw [← hany, ← hc.typed]
      by_cases ha : kids.any (nodeEq E.S c) = true
      · rw [if_pos ha] at h ⊢
        by_cases ht : isTypedDict E.S c = true
        · rw [if_pos ht] at h ⊢
          refine setFold_sim hrest ?_ ?_ h
          · refine h1.map ?_
            intro a b hab
            rw [nodeEq_congr hc.nodeEq hab.nodeEq]
            split
            · exact sim_update hab hc
            · exact hab
          · rfl
        · rw [if_neg ht] at h ⊢
          refine setFold_sim hrest ?_ ?_ h
          · exact h1
          · rfl
      · rw [if_neg ha] at h ⊢
        refine setFold_sim hrest ?_ ?_ h
        · exact h1.snoc hc
        · rfl

theorem findEq_sim {S : Strategies} {c c' : Node} (hc : Sim q S c c') {l l' : List (Node × Str)} (h : All₂ (fun a b => a.2 = b.2 ∧ Sim q S a.1 b.1) l l') :
    findEq S c l = findEq S c' l' := by
  induction h with
  | nil => rfl
  | @cons a b l₁ l₂ hab hr ih =>
    obtain ⟨m, s⟩ := a
    obtain ⟨m', s'⟩ := b
    obtain ⟨e, hm⟩ := hab
    simp only at e
    subst e
    simp only [findEq, nodeEq_congr hc.nodeEq hm.nodeEq, ih]

theorem tupleFold_sim {E : Env} {r r' : Str → Val → Except Err Node} {parent : Str} :
    ∀ {l : List Val} {acc acc' x : List Node × List (Node × Str)},
    (∀ e ∈ l, ∀ nm n, r nm e = .ok n → ∃ n', r' nm e = .ok n' ∧ Sim q E.S n n') →
    All₂ (Sim q E.S) acc.1 acc'.1 → All₂ (fun a b => a.2 = b.2 ∧ Sim q E.S a.1 b.1) acc.2 acc'.2 →
    foldE (tupleStep E r parent) acc l = .ok x → ∃ x', foldE (tupleStep E r' parent) acc' l = .ok x' ∧ All₂ (Sim q E.S) x.1 x'.1
  | [], acc, acc', x, _, h1, _, h => by
    simp only [foldE, Except.ok.injEq] at h
    subst h
    exact ⟨acc', rfl, h1⟩
  | e :: l, (kids, names), (kids', names'), x, hr, h1, h2, h => by
    dsimp only at h1 h2
    have hrest := fun e' (he' : e' ∈ l) => hr e' (List.mem_cons_of_mem _ he')
    simp only [foldE, tupleStep, bind, Except.bind, pure, Except.pure] at h ⊢
    have hnames : names.map (·.2) = names'.map (·.2) := h2.map_eq (fun _ _ h => h.1)
    rw [← hnames]
    cases hb : r (freshName (parent ++ E.U.capitalize e.ty.name) (names.map (·.2))) e with
    | error y => rw [hb] at h; cases h
    | ok c =>
      obtain ⟨c', hb', hc⟩ := hr e (by simp) _ _ hb
      rw [hb] at h
      rw [hb']
      dsimp only at h ⊢
      rw [← findEq_sim hc h2]
      cases hq : findEq E.S c names with
      | none =>
        rw [hq] at h
        exact tupleFold_sim hrest (h1.snoc hc) (h2.snoc ⟨hc.name, hc⟩) h
      | some s =>
        rw [hq] at h
        exact tupleFold_sim hrest (h1.snoc (sim_rename hc)) h2 h

theorem sims_data {S : Strategies} {ds ds' : List Node} (h : All₂ (Sim q S) ds ds') : ∀ acc,
    ds.foldl (fun acc n => updateDict acc (nodeData n)) acc = ds'.foldl (fun acc n => updateDict acc (nodeData n)) acc := by
  induction h with
  | nil => intro _; rfl
  | cons h _ ih => intro acc; simp only [List.foldl_cons, h.nodeData, ih]

theorem sims_metas {S : Strategies} {ds ds' : List Node} (h : All₂ (Sim q S) ds ds') : ds.filterMap nodeMeta = ds'.filterMap nodeMeta := by
  induction h with
  | nil => rfl
  | cons h _ ih => simp only [List.filterMap_cons, h.nodeMeta, ih]

theorem sims_minName {S : Strategies} {ds ds' : List Node} (h : All₂ (Sim q S) ds ds') : ∀ s,
    ds.foldl (fun acc n => minStr acc n.name) s = ds'.foldl (fun acc n => minStr acc n.name) s := by
  induction h with
  | nil => intro _; rfl
  | cons h _ ih => intro acc; simp only [List.foldl_cons, h.name, ih]

theorem mergeDicts_sim {S : Strategies} {r r' : Str → Val → Except Err Node} {ds ds' : List Node} {m : Node} (h : All₂ (Sim q S) ds ds')
    (hr : ∀ nm n, r nm (.dict (ds.foldl (fun acc n => updateDict acc (nodeData n)) [])) = .ok n →
      ∃ n', r' nm (.dict (ds.foldl (fun acc n => updateDict acc (nodeData n)) [])) = .ok n' ∧ Sim q S n n' ∧ ∃ d i, n.hdr.kind = .dict d i)
    (h1 : mergeDicts r ds = .ok m) : ∃ m', mergeDicts r' ds' = .ok m' ∧ Sim q S m m' := by
  have e1 := sims_data h []
  have e2 := sims_metas h
  cases h with
  | nil => cases h1
  | @cons d d' ds ds' hd hds =>
    simp only [mergeDicts, bind, Except.bind] at h1 ⊢
    rw [← e1, ← e2, ← hd.nodeMeta, ← hd.name, ← sims_minName hds]
    split at h1
    · cases h1
    · rename_i n hn
      obtain ⟨n', hn', hs, dd, i, hk⟩ := hr _ _ hn
      rw [hn']
      cases hs with
      | @mk hh kids mid kids' hl hs hm =>
        simp only [pure, Except.pure, Except.ok.injEq] at h1 ⊢
        subst h1
        refine ⟨_, rfl, .mk hl hs ?_⟩
        rcases hm with rfl | ⟨⟨_, x, hx, _⟩, _⟩
        · exact .inl rfl
        · simp only [Node.hdr] at hk
          rw [hk] at hx; cases hx

theorem All₂.perm_left {α β} {R : α → β → Prop} {p l : List α} (hp : p.Perm l) : ∀ {l' : List β}, All₂ R l l' → ∃ mid, All₂ R p mid ∧ mid.Perm l' := by
  induction hp with
  | nil => intro l' h; cases h; exact ⟨[], .nil, .nil⟩
  | cons x _ ih =>
    intro l' h
    cases h with
    | cons h hr =>
      obtain ⟨mid, h1, h2⟩ := ih hr
      exact ⟨_ :: mid, .cons h h1, h2.cons _⟩
  | swap x y l =>
    intro l' h
    cases h with
    | cons h hr => cases hr with
      | cons h' hr => exact ⟨_, .cons h' (.cons h hr), .swap ..⟩
  | trans _ _ ih1 ih2 =>
    intro l' h
    obtain ⟨mid, h1, h2⟩ := ih2 h
    obtain ⟨mid', h3, h4⟩ := ih1 h1
    exact ⟨mid', h3, h4.trans h2⟩

theorem pairwise_mem {α} {R : α → α → Prop} (hs : ∀ a b, R a b → R b a) : ∀ {l : List α}, l.Pairwise R → ∀ {a b}, a ∈ l → b ∈ l → a ≠ b → R a b
  | [], _, _, _, h, _, _ => by simp at h
  | x :: l, h, a, b, ha, hb, hne => by
    rw [List.pairwise_cons] at h
    rcases List.mem_cons.mp ha with e | ha'
    · rcases List.mem_cons.mp hb with e' | hb'
      · exact absurd (e.trans e'.symm) hne
      · rw [e]; exact h.1 b hb'
    · rcases List.mem_cons.mp hb with e' | hb'
      · rw [e']; exact hs _ _ (h.1 a ha')
      · exact pairwise_mem hs h.2 ha' hb' hne

theorem perm_short {α} {l l' : List α} (h : l.Perm l') (hl : l'.length ≤ 1) : l = l' := by
  match l', hl with
  | [], _ => exact h.eq_nil
  | [a], _ => exact List.perm_singleton.mp h

end Verif
