import Verif.Lemmas.FitsBuild
import Verif.Lemmas.Holds
import Verif.Lemmas.HashOf
import Verif.Lemmas.Render
import Verif.Lemmas.LikeBuild
import Verif.Spec.InnerDicts
/-
The declarations of dictionaries inside dictionaries.
-/
namespace Verif
open Verif.Spec

/-- The first node of a group stands for it. -/
def SharesFirst (S : Strategies) (before : List (Key × Node)) (n0 n : Node) : Prop :=
  ∃ m, (n0 = m ∨ ∃ k, (k, m) ∈ before ∧ nodeEq S n0 m = true) ∧ (n = m ∨ ∃ x, n = m.rename x)

/-- Where the members of the groups come from. -/
def GroupsFirst (S : Strategies) (done : List (Key × Node)) (g : List (Node × List Key)) : Prop :=
  ∀ p ∈ g, (∃ k, (k, p.1) ∈ done) ∧ ∀ k ∈ p.2, ∃ a n0 b, done = a ++ (k, n0) :: b ∧
    (n0 = p.1 ∨ ∃ k', (k', p.1) ∈ a ∧ nodeEq S n0 p.1 = true)

theorem groupsFirst_step {S : Strategies} {done : List (Key × Node)} {g : List (Node × List Key)} (h : GroupsFirst S done g)
    (kn : Key × Node) : GroupsFirst S (done ++ [kn]) (addGroup S kn.1 kn.2 g) := by
  intro p hp
  have old : ∀ {k a n0 b q}, done = a ++ (k, n0) :: b ∧ (n0 = q ∨ ∃ k', (k', q) ∈ a ∧ nodeEq S n0 q = true) →
      ∃ a n0 b, done ++ [kn] = a ++ (k, n0) :: b ∧ (n0 = q ∨ ∃ k', (k', q) ∈ a ∧ nodeEq S n0 q = true) := by
    rintro k a n0 b q ⟨e, h⟩
    exact ⟨a, n0, b ++ [kn], by rw [e]; simp, h⟩
  rcases mem_addGroup hp with hp | rfl | ⟨ks, h1, h2, h3⟩
  · obtain ⟨⟨k, hk⟩, h2⟩ := h p hp
    refine ⟨⟨k, by simp [hk]⟩, fun k hk => ?_⟩
    obtain ⟨a, n0, b, hh⟩ := h2 k hk
    exact old hh
  · refine ⟨⟨kn.1, by simp⟩, fun k hk => ?_⟩
    simp only [List.mem_singleton] at hk
    subst hk
    exact ⟨done, kn.2, [], by simp, .inl rfl⟩
  · obtain ⟨⟨k, hk⟩, h2'⟩ := h _ h1
    refine ⟨⟨k, by simp [hk]⟩, fun k' hk' => ?_⟩
    rw [h3] at hk'
    rcases List.mem_append.mp hk' with hk' | hk'
    · obtain ⟨a, n0, b, hh⟩ := h2' k' hk'
      exact old hh
    · simp only [List.mem_singleton] at hk'
      subst hk'
      exact ⟨done, kn.2, [], by simp, .inr ⟨k, hk, h2⟩⟩

theorem groupsFirst_foldl {S : Strategies} : ∀ {kids done : List (Key × Node)} {g : List (Node × List Key)}, GroupsFirst S done g →
    GroupsFirst S (done ++ kids) (kids.foldl (fun g kn => addGroup S kn.1 kn.2 g) g)
  | [], done, g, h => by simpa using h
  | kn :: kids, done, g, h => by
    have := groupsFirst_foldl (kids := kids) (groupsFirst_step h kn)
    simpa using this

/-- With distinct keys there is one way to split a list at a key. -/
theorem split_at_key {β} : ∀ {a a' b b' : List (Key × β)} {k : Key} {x x' : β},
    ((a ++ (k, x) :: b).map (·.1)).Nodup → a ++ (k, x) :: b = a' ++ (k, x') :: b' → a = a' ∧ x = x'
  | [], [], _, _, _, _, _, _, e => by
    simp only [List.nil_append, List.cons.injEq, Prod.mk.injEq, true_and] at e
    exact ⟨rfl, e.1⟩
  | [], p :: a', b, b', k, x, x', hn, e => by
    simp only [List.nil_append, List.cons_append, List.cons.injEq] at e
    simp only [List.nil_append, List.map_cons, List.nodup_cons] at hn
    exact absurd (by rw [e.2]; simp) hn.1
  | p :: a, [], b, b', k, x, x', hn, e => by
    simp only [List.nil_append, List.cons_append, List.cons.injEq] at e
    simp only [List.cons_append, List.map_cons, List.nodup_cons] at hn
    exact absurd (by rw [e.1]; simp) hn.1
  | p :: a, p' :: a', b, b', k, x, x', hn, e => by
    simp only [List.cons_append, List.cons.injEq] at e
    simp only [List.cons_append, List.map_cons, List.nodup_cons] at hn
    obtain ⟨e1, e2⟩ := split_at_key hn.2 e.2
    exact ⟨by rw [e.1, e1], e2⟩

/-- Every child of a mapping is replaced by the first one with an equal type, possibly with another name. -/
theorem shareEqual_first {E : Env} {parent : Str} {kids a b : List (Key × Node)} {k : Key} {n0 : Node} (hn : (kids.map (·.1)).Nodup)
    (e : kids = a ++ (k, n0) :: b) : ∃ n, (k, n) ∈ (kids.map (·.1)).zip (shareEqual E parent kids).2 ∧ SharesFirst E.S a n0 n := by
  have hg : GroupsFirst E.S kids (kids.foldl (fun g kn => addGroup E.S kn.1 kn.2 g) []) := by
    have := groupsFirst_foldl (S := E.S) (kids := kids) (done := []) (g := []) (by intro p hp; cases hp)
    simpa using this
  have hc : Groups E.S kids (kids.foldl (fun g kn => addGroup E.S kn.1 kn.2 g) []) := by
    have := groups_foldl (S := E.S) (kids := kids) (done := []) (g := []) ⟨by simp, by simp⟩
    simpa using this
  have hkn : (k, n0) ∈ kids := by rw [e]; simp
  have hk : ∃ p ∈ renameGroups E.U parent [] (kids.foldl (fun g kn => addGroup E.S kn.1 kn.2 g) []), k ∈ p.2 := by
    obtain ⟨p, hp, hm⟩ := hc.cover _ hkn
    have : p.2 ∈ (renameGroups E.U parent [] (kids.foldl (fun g kn => addGroup E.S kn.1 kn.2 g) [])).map (·.2) := by
      rw [renameGroups_keys]; exact List.mem_map_of_mem hp
    obtain ⟨q, hq, e⟩ := List.mem_map.mp this
    exact ⟨q, hq, by rw [e]; exact hm⟩
  obtain ⟨p, hp⟩ := findGroup_some hk
  obtain ⟨hm, hkey⟩ := findGroup_mem hp
  obtain ⟨q, hq, e2, e1⟩ := renameGroups_mem hm
  obtain ⟨_, hs⟩ := hg q hq
  rw [e2] at hkey
  obtain ⟨a', n0', b', hd, h1⟩ := hs _ hkey
  have hn' := hn
  rw [e] at hn'
  obtain ⟨rfl, rfl⟩ := split_at_key hn' (e ▸ hd)
  refine ⟨p.1, ?_, q.1, h1, e1⟩
  simp only [shareEqual, List.map_map]
  have hz : ∀ {γ : Type} (g : Key × Node → γ) (y : γ) (l : List (Key × Node)), g (k, n0) = y → (k, n0) ∈ l →
      (k, y) ∈ (l.map (·.1)).zip (l.map g) := by
    rintro γ g y l rfl
    induction l with
    | nil => simp
    | cons z l ih =>
      intro h
      simp only [List.map_cons, List.zip_cons_cons, List.mem_cons] at h ⊢
      rcases h with rfl | h
      · exact .inl rfl
      · exact .inr (ih h)
  exact hz _ _ _ (by simp only [Function.comp, hp]) hkn

/-! ### Nodes below a node -/

/-- The second node is visited below the first one. -/
inductive VisitedBelow : Node → Node → Prop
  | child {h : Hdr} {kids : List Node} {n : Node} : n ∈ iterate h.slots kids → VisitedBelow (.mk h kids) n
  | deeper {h : Hdr} {kids : List Node} {m n : Node} : m ∈ iterate h.slots kids → VisitedBelow m n → VisitedBelow (.mk h kids) n

/-- They are described by the same text, up to the names. -/
def SameTexts (n n' : Node) : Prop := n'.hdr.kind = n.hdr.kind ∧ n'.hdr.slots = n.hdr.slots ∧ n'.kids.length = n.kids.length

theorem SameTexts.trans {a b c : Node} (h : SameTexts a b) (h' : SameTexts b c) : SameTexts a c :=
  ⟨h'.1.trans h.1, h'.2.1.trans h.2.1, h'.2.2.trans h.2.2⟩

theorem sameTexts_renameAux {new : Str} {len c : Nat} : ∀ {n : Node}, SameTexts n (n.renameAux new len c)
  | .mk h kids => ⟨by simp [Node.renameAux, Node.hdr], by simp [Node.renameAux, Node.hdr], by
      simp only [Node.renameAux, Node.kids]
      exact (renameList_kids (new := new) (len := len) (c := c) (slots := h.slots) (l := kids)).length_eq.symm⟩

theorem iterate_all₂ {α β} {R : α → β → Prop} : ∀ {slots : List Slot} {l : List α} {l' : List β}, All₂ R l l' → ∀ x ∈ iterate slots l, ∃ y ∈ iterate slots l', R x y
  | [], _, _, _, x, hx => by simp [iterate] at hx
  | s :: ss, _, _, .nil, x, hx => by simp [iterate] at hx
  | s :: ss, _, _, .cons (a := a) (b := b) h t, x, hx => by
    simp only [iterate, List.zip_cons_cons, List.takeWhile_cons] at hx ⊢
    split at hx
    · rename_i hs
      rw [if_pos hs] 
      simp only [List.map_cons, List.mem_cons] at hx ⊢
      rcases hx with rfl | hx
      · exact ⟨_, .inl rfl, h⟩
      · obtain ⟨y, hy, hr⟩ := iterate_all₂ (slots := ss) t x hx
        exact ⟨y, .inr hy, hr⟩
    · simp at hx

theorem visitedBelow_renameAux {new : Str} {len : Nat} {n m : Node} (h : VisitedBelow n m) :
    ∀ c, ∃ m', VisitedBelow (n.renameAux new len c) m' ∧ SameTexts m m' := by
  induction h with
  | child hm =>
    intro c
    obtain ⟨y, hy, c', rfl⟩ := iterate_all₂ renameList_kids _ hm
    exact ⟨_, by rw [Node.renameAux]; exact .child hy, sameTexts_renameAux⟩
  | deeper hm _ ih =>
    intro c
    obtain ⟨y, hy, c', rfl⟩ := iterate_all₂ renameList_kids _ hm
    obtain ⟨m', h1, h2⟩ := ih c'
    exact ⟨m', by rw [Node.renameAux]; exact .deeper hy h1, h2⟩

/-- Nodes below that get a declaration are declared. -/
theorem visitedBelow_emitted {E : Env} {im : Str → List Str} {n m : Node} (h : VisitedBelow n m) (hp : (m.out E im).perm = true) :
    (m.out E im).top ∈ (n.out E im).emitted := by
  have kid : ∀ {h : Hdr} {kids : List Node} {m : Node}, m ∈ iterate h.slots kids → ∀ d, (d ∈ (m.out E im).emitted ∨
      ((m.out E im).perm = true ∧ d = (m.out E im).top)) → d ∈ ((Node.mk h kids).out E im).emitted := by
    intro h kids m hm d hd
    rw [out_mk]
    simp only [combine]
    have hi : m.out E im ∈ iterate h.slots (outList E im kids) := by
      have : All₂ (fun n o => o = n.out E im) kids (outList E im kids) := by
        rw [outList_eq_map]
        clear hm
        induction kids with
        | nil => exact .nil
        | cons a l ih => exact .cons rfl ih
      obtain ⟨y, hy, rfl⟩ := iterate_all₂ this _ hm
      exact hy
    unfold emitOf
    have hne : (outList E im kids).isEmpty = false := by
      cases hk : outList E im kids with
      | nil => rw [hk] at hi; simp [iterate] at hi
      | cons a l => rfl
    rw [hne]
    simp only [Bool.false_eq_true, if_false, List.mem_append, List.mem_flatMap]
    refine .inl ⟨_, hi, ?_⟩
    rcases hd with hd | ⟨hd, rfl⟩
    · exact .inl hd
    · right; rw [hd]; simp
  induction h with
  | child hm => exact kid hm _ (.inr ⟨hp, rfl⟩)
  | deeper hm _ ih => exact kid hm _ (.inl (ih hp))

theorem visitedBelow_sameTexts {n n' m : Node} {x : Str} (h : n = n' ∨ n = n'.rename x) (hb : VisitedBelow n' m) : ∃ m', VisitedBelow n m' ∧ SameTexts m m' := by
  rcases h with rfl | rfl
  · exact ⟨m, hb, rfl, rfl, rfl⟩
  · exact visitedBelow_renameAux hb 1

/-! ### Dictionaries -/

theorem build_kind_dict {E : Env} {f : Nat} {root : Bool} {name : Str} {v : Val} {n : Node} (h : build E f root name v = .ok n)
    (ht : n.hdr.kind.tag = .dict) : ∃ t ks vs, v = .map .dict t ks vs := by
  cases f with
  | zero => cases h
  | succ f =>
    have leaf : ∀ {k : NKind} {t : Ty}, (if nameOk E.U name = true then (Except.ok (.mk { kind := k, name, root, ty := t, slots := [] } []) : Except Err Node)
        else .error (.badName name)) = .ok n → n.hdr.kind = k := by
      intro k t h
      split at h
      · injection h with h; subst h; rfl
      · cases h
    have node : ∀ {k : NKind} {t : Ty} {c : Except Err (List Slot × List Node)}, (match c with
        | .ok (slots, kids) => (.ok (.mk { kind := k, name, root, ty := t, slots } kids) : Except Err Node)
        | .error e => .error e) = .ok n → n.hdr.kind = k := by
      intro k t c h
      split at h
      · injection h with h; subst h; rfl
      · cases h
    cases v with
    | inst => simp only [build] at h; rw [leaf h] at ht; cases ht
    | cls => simp only [build] at h; rw [leaf h] at ht; cases ht
    | module => simp only [build] at h; rw [leaf h] at ht; cases ht
    | io => simp only [build] at h; rw [leaf h] at ht; cases ht
    | ndarray => simp only [build] at h; rw [leaf h] at ht; cases ht
    | func g =>
      simp only [build] at h
      split at h
      · cases h
      · rename_i n' hl
        split at h
        · cases h
        · injection h with h
          subst h
          rw [leaf hl] at ht
          cases ht
    | seq k t es =>
      simp only [build] at h
      split at h
      · have h := node h
        rw [h] at ht
        cases k <;> cases ht
      · cases h
    | map k t ks vs =>
      cases k with
      | dict => exact ⟨t, ks, vs, rfl⟩
      | proxy =>
        simp only [build] at h
        split at h
        · rw [node h] at ht; cases ht
        · cases h
      | frame i =>
        simp only [build] at h
        split at h
        · rw [node h] at ht; cases ht
        · cases h

/-- Equal dictionaries have the same keys. -/
theorem nodeEq_same_keys {S : Strategies} {n m : Node} {d d' : List (Key × Val)} {x x' : DMeta} (hk : n.hdr.kind = .dict d x) (hk' : m.hdr.kind = .dict d' x')
    (hx : x.isTyped S = true) (hl : n.hdr.slots.length ≤ n.kids.length) (hl' : m.hdr.slots.length ≤ m.kids.length) (h : nodeEq S n m = true) :
    ∀ k, k ∈ n.hdr.slots.map (·.key) ↔ k ∈ m.hdr.slots.map (·.key) := by
  obtain ⟨h1, kids1⟩ := n
  obtain ⟨h2, kids2⟩ := m
  simp only [Node.hdr, Node.kids] at hk hk' hl hl' ⊢
  have he := eqv_of_nodeEq h
  simp only [Node.hash, hashOf, hk, hk', hx, if_true] at he
  have len : ∀ l : List Node, (hashList S l).length = l.length := by
    intro l
    induction l with
    | nil => rfl
    | cons a l ih => simp [hashList, ih]
  have left : ∀ {k : Key} {h : Hdr} {kids : List Node}, h.slots.length ≤ kids.length → k ∈ h.slots.map (·.key) →
      ∃ g, (k, g) ∈ (h.slots.map (·.key)).zip (hashList S kids) := by
    intro k h kids hl hk
    obtain ⟨i, hi, rfl⟩ := List.mem_iff_getElem.mp hk
    simp only [List.length_map] at hi
    refine ⟨(hashList S kids)[i]'(by rw [len]; omega), ?_⟩
    rw [List.mem_iff_getElem]
    exact ⟨i, by simp only [List.length_zip, List.length_map, len]; omega, by simp⟩
  cases hx' : x'.isTyped S with
  | true =>
    simp only [hx', if_true] at he
    obtain ⟨a, b⟩ := eqv_set.mp he
    intro k
    constructor
    · intro hk
      obtain ⟨g, hg⟩ := left hl hk
      obtain ⟨y, hy, hyy⟩ := a (.typed k g) (List.mem_map.mpr ⟨_, hg, rfl⟩)
      obtain ⟨g', rfl, _⟩ := eqv_typed hyy
      obtain ⟨⟨k', g''⟩, hm, e⟩ := List.mem_map.mp hy
      injection e with e1 e2
      subst e1
      exact (List.of_mem_zip hm).1
    · intro hk
      obtain ⟨g, hg⟩ := left hl' hk
      obtain ⟨y, hy, hyy⟩ := b (.typed k g) (List.mem_map.mpr ⟨_, hg, rfl⟩)
      obtain ⟨g', rfl, _⟩ := eqv_typed (eqv_swap hyy)
      obtain ⟨⟨k', g''⟩, hm, e⟩ := List.mem_map.mp hy
      injection e with e1 e2
      subst e1
      exact (List.of_mem_zip hm).1
  | false =>
    simp only [hx', Bool.false_eq_true, if_false] at he
    obtain ⟨a, b⟩ := eqv_set.mp he
    intro k
    constructor
    · intro hk
      obtain ⟨g, hg⟩ := left hl hk
      obtain ⟨y, hy, hyy⟩ := a (.typed k g) (List.mem_map.mpr ⟨_, hg, rfl⟩)
      obtain ⟨g', rfl, _⟩ := eqv_typed hyy
      obtain ⟨⟨k', g''⟩, hm, e⟩ := List.mem_map.mp hy
      cases e
    · intro hk
      obtain ⟨g, hg⟩ := left hl' hk
      obtain ⟨y, hy, hyy⟩ := b (.mapping k.ty g) (List.mem_map.mpr ⟨_, hg, rfl⟩)
      obtain ⟨⟨k', g''⟩, hm, e⟩ := List.mem_map.mp hy
      subst e
      simp [H.eqv] at hyy

theorem visible_keys_of {ks : List Key} {vs : List Val} (hl : ks.length = vs.length) :
    (visibleItems (ks.zip vs)).map (·.1) = ks.filter (fun k => !k.hidden) := by
  unfold visibleItems
  induction ks generalizing vs with
  | nil => simp
  | cons k r ih =>
    cases vs with
    | nil => simp at hl
    | cons v vs =>
      have ih := ih (vs := vs) (by simpa using hl)
      simp only [List.zip_cons_cons, List.filter_cons]
      cases k.hidden <;> simp [ih]

/-- The keys of a built dictionary. -/
theorem build_dict_keys {E : Env} (hS : E.S.dict = .typedDict) {f : Nat} {root : Bool} {name : Str} {t : Ty} {ks : List Key} {vs : List Val} {n : Node}
    (hl : ks.length = vs.length) (h : build E f root name (.map .dict t ks vs) = .ok n) :
    n.hdr.kind = .dict (ks.zip vs) (DMeta.ofData (ks.zip vs)) ∧ n.hdr.slots.map (·.key) = ks.filter (fun k => !k.hidden) ∧
      n.hdr.slots.length = n.kids.length := by
  cases f with
  | zero => cases h
  | succ f =>
    obtain ⟨kids, hk, rfl⟩ := build_dict h
    have hd : dictData E.S (ks.zip vs) = ks.zip vs := by simp [dictData, hS]
    rw [hd] at hk ⊢
    refine ⟨rfl, ?_, ?_⟩
    · simp only [Node.hdr]
      rw [shareEqual_keys, mapKids_keys hk, visible_keys_of hl]
    · simp only [Node.hdr, Node.kids]
      exact shareEqual_length _ _ _

theorem kid_iterated {k : Key} {n : Node} : ∀ {slots : List Slot} {kids : List Node}, (k, n) ∈ (slots.map (·.key)).zip kids →
    Key.none ∉ slots.map (·.key) → n ∈ iterate slots kids
  | [], _, h, _ => by simp at h
  | _ :: _, [], h, _ => by simp at h
  | s :: ss, m :: kids, h, hn => by
    simp only [List.map_cons, List.zip_cons_cons, List.mem_cons, Prod.mk.injEq, not_or] at h hn
    have hs : (s.key != Key.none) = true := by simpa using fun e => hn.1 e.symm
    simp only [iterate, List.zip_cons_cons, List.takeWhile_cons, hs, if_true, List.map_cons, List.mem_cons]
    rcases h with ⟨_, rfl⟩ | h
    · exact .inl rfl
    · exact .inr (kid_iterated h hn.2)

theorem all₂_split {α β} {R : α → β → Prop} : ∀ {a : List α} {x : α} {b : List α} {l : List β}, All₂ R (a ++ x :: b) l →
    ∃ a' x' b', l = a' ++ x' :: b' ∧ All₂ R a a' ∧ R x x'
  | [], _, _, _, .cons h _ => ⟨[], _, _, rfl, .nil, h⟩
  | _ :: a, _, _, _, .cons h t => by
    obtain ⟨a', x', b', rfl, h1, h2⟩ := all₂_split t
    exact ⟨_ :: a', x', b', rfl, .cons h h1, h2⟩

/-- The tree of a dictionary that is found by following keys. -/
theorem inner_node {E : Env} (hS : E.S.dict = .typedDict) {v : Val} {ks : List Str} {vs : List Val} (h : InnerDict v ks vs) :
    ∀ {f : Nat} {root : Bool} {name : Str} {n : Node}, build E f root name v = .ok n →
    ∃ f0 r0 nm0 t0 n0 n', build E f0 r0 nm0 (.map .dict t0 (ks.map .str) vs) = .ok n0 ∧ SameTexts n0 n' ∧ (n' = n ∨ VisitedBelow n n') := by
  induction h with
  | here t ks vs => intro f root name n h; exact ⟨f, root, name, t, n, n, h, ⟨rfl, rfl, rfl⟩, .inl rfl⟩
  | @step t t' keys vals before after k ks' vs' ks vs hl hnd hno hz hk hl' hsep _ ih =>
    intro f root name n h
    cases f with
    | zero => cases h
    | succ f =>
      obtain ⟨kids, hm, rfl⟩ := build_dict h
      have hd : dictData E.S (keys.zip vals) = keys.zip vals := by simp [dictData, hS]
      rw [hd] at hm ⊢
      have hkeys : kids.map (·.1) = keys.filter (fun k => !k.hidden) := by rw [mapKids_keys hm, visible_keys_of hl]
      have hkn : (kids.map (·.1)).Nodup := by rw [hkeys]; exact hnd.filter _
      have hkno : Key.none ∉ kids.map (·.1) := by rw [hkeys]; exact fun h => hno (List.mem_filter.mp h).1
      have hall := mapKids_all₂ (R := fun v n => ∃ nm, build E f false nm v = .ok n) (fun kv _ nm n h => ⟨nm, h⟩) hm
      rw [hz] at hall
      have e : visibleItems (before ++ (k, .map .dict t' (ks'.map .str) vs') :: after) =
          visibleItems before ++ (k, .map .dict t' (ks'.map .str) vs') :: visibleItems after := by
        simp [visibleItems, List.filter_cons, hk]
      rw [e] at hall
      obtain ⟨a, ⟨k1, n1⟩, b, ek, ha, e1, nm, hb⟩ := all₂_split hall
      dsimp only at e1 hb
      subst e1
      obtain ⟨n, hn, m, hm1, hm2⟩ := shareEqual_first (E := E) (parent := name) hkn ek
      have hmn : n1 = m := by
        rcases hm1 with rfl | ⟨k2, hk2, heq⟩
        · rfl
        · exfalso
          obtain ⟨⟨k3, v2⟩, hv2, e3, nm2, hb2⟩ := ha.mem_right _ hk2
          dsimp only at e3 hb2
          subst e3
          obtain ⟨hv2, hvis⟩ := List.mem_filter.mp hv2
          obtain ⟨x1, x2, x3⟩ := build_dict_keys hS (by simpa using hl') hb
          have htag : m.hdr.kind.tag = .dict := by
            have := (nodeEq_iff.mp heq).1
            rw [x1] at this
            exact this.symm
          obtain ⟨t2, keys2, vals2, rfl⟩ := build_kind_dict hb2 htag
          obtain ⟨hl2, hne⟩ := hsep _ _ _ _ hv2 (by simpa using hvis)
          obtain ⟨y1, y2, y3⟩ := build_dict_keys hS hl2 hb2
          have hty : (DMeta.ofData ((ks'.map Key.str).zip vs')).isTyped E.S = true := by
            simp [DMeta.isTyped, DMeta.ofData, allStr_strs, hS]
          have hsame := nodeEq_same_keys x1 y1 hty (by omega) (by omega) heq
          rw [x2, y2] at hsame
          refine hne fun k hk => ?_
          have := hsame k
          simp only [List.mem_filter, hk, Bool.not_false, and_true] at this
          exact this.symm
      subst hmn
      have hit : n ∈ iterate (shareEqual E name kids).1 (shareEqual E name kids).2 := by
        rw [← shareEqual_keys (E := E) (parent := name)] at hn hkno
        exact kid_iterated hn hkno
      obtain ⟨f0, r0, nm0, t0, n0, n', b0, hal, hbel⟩ := ih hb
      have hren : ∃ x, n = n1 ∨ n = n1.rename x := by
        rcases hm2 with h | ⟨x, h⟩
        · exact ⟨[], .inl h⟩
        · exact ⟨x, .inr h⟩
      obtain ⟨x, hren⟩ := hren
      rcases hbel with rfl | hbel
      · refine ⟨f0, r0, nm0, t0, n0, n, b0, ?_, .inr (.child hit)⟩
        rcases hren with rfl | rfl
        · exact hal
        · exact hal.trans sameTexts_renameAux
      · obtain ⟨m', h1, h2⟩ := visitedBelow_sameTexts hren hbel
        exact ⟨f0, r0, nm0, t0, n0, m', b0, hal.trans h2, .inr (.deeper hit h1)⟩

/-- The declaration of a typed dictionary, whatever its name. -/
theorem sameTexts_raw {E : Env} {im : Str → List Str} (hS : E.S.dict = .typedDict) {f : Nat} {root : Bool} {name : Str} {t : Ty} {ks : List Str}
    {vs : List Val} {n0 n : Node} (hl : ks.length = vs.length) (h : build E f root name (.map .dict t (ks.map .str) vs) = .ok n0) (ha : SameTexts n0 n) :
    (n.out E im).perm = true ∧
    ∃ entries, (n.out E im).top.text = recordText n.name (isFunctional E.U (DMeta.ofData ((ks.map Key.str).zip vs)))
        (recordDoc E (DMeta.ofData ((ks.map Key.str).zip vs)) ((ks.map Key.str).zip vs)) entries ∧
      entries.map (·.key) = visible ks ∧
      ∀ e ∈ entries, e.doc = entryDoc (DMeta.ofData ((ks.map Key.str).zip vs)) e.key := by
  obtain ⟨h1, h2, h3⟩ := build_dict_keys hS (by simpa using hl) h
  obtain ⟨a1, a2, a3⟩ := ha
  obtain ⟨hd, kids⟩ := n
  have a1 : hd.kind = n0.hdr.kind := a1
  have a2 : hd.slots = n0.hdr.slots := a2
  have a3 : kids.length = n0.kids.length := a3
  rw [h1] at a1
  have hkeys : hd.slots.map (·.key) = (visible ks).map Key.str := by
    have hv := visible_keys_strs (vs := vs) hl
    rw [a2, h2, ← visible_keys_of (by simpa using hl), hv]
    rfl
  have hlen : hd.slots.length = kids.length := by rw [a2, h3, a3]
  have hty : (DMeta.ofData ((ks.map Key.str).zip vs)).isTyped E.S = true := by
    simp [DMeta.isTyped, DMeta.ofData, allStr_strs, hS]
  rw [out_mk]
  refine ⟨?_, rawEntries E (DMeta.ofData ((ks.map Key.str).zip vs)) ((hd.slots.map (·.key)).zip (outList E im kids)), ?_, ?_, ?_⟩
  · simp only [combine, permOf, a1, hty, Bool.true_or]
  · simp only [combine, topOf, a1, hty, if_true]
    exact typed_raw
  · rw [hkeys]
    apply rawEntries_keys
    rw [outList_length, ← hlen]
    have := congrArg List.length hkeys
    simp only [List.length_map] at this
    omega
  · intro e he
    obtain ⟨x, _, rfl⟩ := List.mem_map.mp he
    rfl

end Verif
