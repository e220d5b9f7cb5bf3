import Verif.Lemmas.Dict
import Verif.Lemmas.Merge
/-
Renaming and sharing do not change what a node stands for.
-/
namespace Verif
open Verif.Spec

/-! ### Renaming -/

mutual
theorem hash_renameAux {S : Strategies} {new : Str} {len : Nat} : ∀ (c : Nat) (n : Node),
    (n.renameAux new len c).hash S = n.hash S
  | c, .mk h kids => by
    simp only [Node.renameAux, Node.hash]
    rw [hashList_rename (S := S) c h.slots kids]
    cases hk : h.kind <;> simp only [hashOf, hk]
theorem hashList_rename {S : Strategies} {new : Str} {len : Nat} : ∀ (c : Nat) (slots : List Slot) (l : List Node),
    hashList S (renameList new len c slots l) = hashList S l
  | _, [], [] => rfl
  | _, _ :: _, [] => rfl
  | c, [], k :: r => by
    simp only [renameList, hashList]
    rw [hash_renameAux (S := S) c k, hashList_rename (S := S) c [] r]
  | c, s :: ss, k :: r => by
    simp only [renameList, hashList]
    rw [hash_renameAux (S := S) (c * s.mult) k, hashList_rename (S := S) c ss r]
end

theorem hash_rename {S : Strategies} {new : Str} {n : Node} : (n.rename new).hash S = n.hash S := hash_renameAux 1 n

theorem kind_rename {new : Str} {n : Node} : (n.rename new).hdr.kind = n.hdr.kind := by
  cases n with
  | mk h kids => simp [Node.rename, Node.renameAux, Node.hdr]

theorem typed_rename {S : Strategies} {new : Str} {n : Node} : isTypedDict S (n.rename new) = isTypedDict S n := by
  cases n with
  | mk h kids => simp [Node.rename, Node.renameAux, isTypedDict]

theorem nodeData_rename {new : Str} {n : Node} : nodeData (n.rename new) = nodeData n := by
  cases n with
  | mk h kids => simp [Node.rename, Node.renameAux, nodeData]

/-! ### Sharing -/

/-- The first node stands for the second, up to its name: it is the same or an equal one from the list. -/
def Shares (S : Strategies) (kids : List (Key × Node)) (n0 n : Node) : Prop :=
  ∃ k m, (k, m) ∈ kids ∧ (n0 = m ∨ nodeEq S n0 m = true) ∧ (n = m ∨ ∃ x, n = m.rename x)

/-- The groups cover the processed children. -/
structure Groups (S : Strategies) (done : List (Key × Node)) (g : List (Node × List Key)) : Prop where
  src : ∀ p ∈ g, (∃ k, (k, p.1) ∈ done) ∧ ∀ k ∈ p.2, ∃ n0, (k, n0) ∈ done ∧ (n0 = p.1 ∨ nodeEq S n0 p.1 = true)
  cover : ∀ kn ∈ done, ∃ p ∈ g, kn.1 ∈ p.2

theorem mem_addGroup {S : Strategies} {key : Key} {n : Node} : ∀ {g : List (Node × List Key)} {p}, p ∈ addGroup S key n g →
    p ∈ g ∨ p = (n, [key]) ∨ ∃ ks, (p.1, ks) ∈ g ∧ nodeEq S n p.1 = true ∧ p.2 = ks ++ [key]
  | [], p, h => by simp [addGroup] at h; exact .inr (.inl h)
  | (m, ks) :: r, p, h => by
    simp only [addGroup] at h
    split at h
    · rename_i he
      rcases List.mem_cons.mp h with rfl | h
      · exact .inr (.inr ⟨ks, by simp, he, rfl⟩)
      · exact .inl (by simp [h])
    · rcases List.mem_cons.mp h with rfl | h
      · exact .inl (by simp)
      · rcases mem_addGroup h with h | h | ⟨ks', h1, h2, h3⟩
        · exact .inl (by simp [h])
        · exact .inr (.inl h)
        · exact .inr (.inr ⟨ks', by simp [h1], h2, h3⟩)

theorem addGroup_keeps {S : Strategies} {key : Key} {n : Node} : ∀ {g : List (Node × List Key)} {p}, p ∈ g →
    ∃ q ∈ addGroup S key n g, ∀ k ∈ p.2, k ∈ q.2
  | (m, ks) :: r, p, h => by
    simp only [addGroup]
    split
    · rcases List.mem_cons.mp h with rfl | h
      · exact ⟨_, List.mem_cons_self .., fun k hk => by simp [hk]⟩
      · exact ⟨p, by simp [h], fun k hk => hk⟩
    · rcases List.mem_cons.mp h with rfl | h
      · exact ⟨_, List.mem_cons_self .., fun k hk => hk⟩
      · obtain ⟨q, hq, hs⟩ := addGroup_keeps (S := S) (key := key) (n := n) h
        exact ⟨q, by simp [hq], hs⟩

theorem addGroup_adds {S : Strategies} {key : Key} {n : Node} : ∀ {g : List (Node × List Key)},
    ∃ q ∈ addGroup S key n g, key ∈ q.2
  | [] => ⟨(n, [key]), by simp [addGroup]⟩
  | (m, ks) :: r => by
    simp only [addGroup]
    split
    · exact ⟨_, List.mem_cons_self .., by simp⟩
    · obtain ⟨q, hq, hs⟩ := addGroup_adds (S := S) (key := key) (n := n) (g := r)
      exact ⟨q, by simp [hq], hs⟩

theorem groups_step {S : Strategies} {done : List (Key × Node)} {g : List (Node × List Key)} (h : Groups S done g)
    (kn : Key × Node) : Groups S (done ++ [kn]) (addGroup S kn.1 kn.2 g) where
  src := by
    intro p hp
    rcases mem_addGroup hp with hp | rfl | ⟨ks, h1, h2, h3⟩
    · obtain ⟨⟨k, hk⟩, h2⟩ := h.src p hp
      refine ⟨⟨k, by simp [hk]⟩, fun k hk => ?_⟩
      obtain ⟨n0, a, b⟩ := h2 k hk
      exact ⟨n0, by simp [a], b⟩
    · refine ⟨⟨kn.1, by simp⟩, fun k hk => ?_⟩
      simp only [List.mem_singleton] at hk
      subst hk
      exact ⟨kn.2, by simp, .inl rfl⟩
    · obtain ⟨⟨k, hk⟩, h2'⟩ := h.src _ h1
      refine ⟨⟨k, by simp [hk]⟩, fun k hk => ?_⟩
      rw [h3] at hk
      rcases List.mem_append.mp hk with hk | hk
      · obtain ⟨n0, a, b⟩ := h2' k hk
        exact ⟨n0, by simp [a], b⟩
      · simp only [List.mem_singleton] at hk
        subst hk
        exact ⟨kn.2, by simp, .inr h2⟩
  cover := by
    intro x hx
    rcases List.mem_append.mp hx with hx | hx
    · obtain ⟨p, hp, hm⟩ := h.cover x hx
      obtain ⟨q, hq, hs⟩ := addGroup_keeps (S := S) (key := kn.1) (n := kn.2) hp
      exact ⟨q, hq, hs _ hm⟩
    · simp only [List.mem_singleton] at hx
      subst hx
      exact addGroup_adds

theorem groups_foldl {S : Strategies} : ∀ {kids done : List (Key × Node)} {g : List (Node × List Key)}, Groups S done g →
    Groups S (done ++ kids) (kids.foldl (fun g kn => addGroup S kn.1 kn.2 g) g)
  | [], done, g, h => by simpa using h
  | kn :: kids, done, g, h => by
    have := groups_foldl (kids := kids) (groups_step h kn)
    simpa using this

theorem renameGroups_mem {U : Uni} {parent : Str} : ∀ {g : List (Node × List Key)} {counts} {p},
    p ∈ renameGroups U parent counts g → ∃ q ∈ g, p.2 = q.2 ∧ (p.1 = q.1 ∨ ∃ x, p.1 = q.1.rename x)
  | [], _, _, h => by simp [renameGroups] at h
  | (n, ks) :: r, counts, p, h => by
    have tail : ∀ {c}, p ∈ renameGroups U parent c r →
        ∃ q ∈ (n, ks) :: r, p.2 = q.2 ∧ (p.1 = q.1 ∨ ∃ x, p.1 = q.1.rename x) := by
      intro c hc
      obtain ⟨q, hq, h'⟩ := renameGroups_mem hc
      exact ⟨q, by simp [hq], h'⟩
    simp only [renameGroups] at h
    split at h
    · split at h
      · rcases List.mem_cons.mp h with rfl | h
        · exact ⟨_, List.mem_cons_self .., rfl, .inr ⟨_, rfl⟩⟩
        · exact tail h
      · rcases List.mem_cons.mp h with rfl | h
        · exact ⟨_, List.mem_cons_self .., rfl, .inr ⟨_, rfl⟩⟩
        · exact tail h
    · rcases List.mem_cons.mp h with rfl | h
      · exact ⟨_, List.mem_cons_self .., rfl, .inl rfl⟩
      · exact tail h

theorem renameGroups_keys {U : Uni} {parent : Str} : ∀ {g : List (Node × List Key)} {counts},
    (renameGroups U parent counts g).map (·.2) = g.map (·.2)
  | [], _ => by simp [renameGroups]
  | (n, ks) :: r, counts => by
    simp only [renameGroups]
    split
    · split <;> simp [renameGroups_keys (g := r)]
    · simp [renameGroups_keys (g := r)]

theorem findGroup_some {key : Key} : ∀ {g : List (Node × List Key)}, (∃ p ∈ g, key ∈ p.2) → ∃ p, findGroup key g = some p
  | [], h => by simp at h
  | (n, ks) :: r, h => by
    simp only [findGroup]
    split
    · exact ⟨_, rfl⟩
    · rename_i hn
      obtain ⟨p, hp, hk⟩ := h
      rcases List.mem_cons.mp hp with rfl | hp
      · simp at hn; exact absurd hk hn
      · exact findGroup_some ⟨p, hp, hk⟩

theorem nodup_fst_unique {α β} : ∀ {l : List (α × β)} {a : α} {b b' : β}, (l.map (·.1)).Nodup → (a, b) ∈ l → (a, b') ∈ l → b = b'
  | [], _, _, _, _, h, _ => by simp at h
  | (a0, b0) :: r, a, b, b', hn, h1, h2 => by
    simp only [List.map_cons, List.nodup_cons, List.mem_map, not_exists, not_and] at hn
    simp only [List.mem_cons, Prod.mk.injEq] at h1 h2
    rcases h1 with ⟨rfl, rfl⟩ | h1 <;> rcases h2 with ⟨e, rfl⟩ | h2
    · rfl
    · exact absurd rfl (hn.1 _ h2)
    · subst e; exact absurd rfl (hn.1 _ h1)
    · exact nodup_fst_unique hn.2 h1 h2

theorem All₂.of_map {α β γ} {R : α → β → Prop} {f : γ → α} {g : γ → β} : ∀ {l : List γ}, (∀ x ∈ l, R (f x) (g x)) →
    All₂ R (l.map f) (l.map g)
  | [], _ => .nil
  | x :: r, h => .cons (h x (by simp)) (All₂.of_map (fun y hy => h y (by simp [hy])))

/-- Every child of a mapping is replaced by one that shares its type. -/
theorem shareEqual_spec {E : Env} {parent : Str} {kids : List (Key × Node)} (hn : (kids.map (·.1)).Nodup) :
    All₂ (fun kn n => Shares E.S kids kn.2 n) kids (shareEqual E parent kids).2 := by
  have hg : Groups E.S kids (kids.foldl (fun g kn => addGroup E.S kn.1 kn.2 g) []) := by
    have := groups_foldl (S := E.S) (kids := kids) (done := []) (g := []) ⟨by simp, by simp⟩
    simpa using this
  simp only [shareEqual, List.map_map]
  have : ∀ x : List (Key × Node), x = x.map id := fun x => (List.map_id x).symm
  conv => arg 2; rw [this kids]
  apply All₂.of_map
  intro kn hkn
  simp only [id, Function.comp]
  have hk : ∃ p ∈ renameGroups E.U parent [] (kids.foldl (fun g kn => addGroup E.S kn.1 kn.2 g) []), kn.1 ∈ p.2 := by
    obtain ⟨p, hp, hm⟩ := hg.cover kn hkn
    have : p.2 ∈ (renameGroups E.U parent [] (kids.foldl (fun g kn => addGroup E.S kn.1 kn.2 g) [])).map (·.2) := by
      rw [renameGroups_keys]; exact List.mem_map_of_mem hp
    obtain ⟨q, hq, e⟩ := List.mem_map.mp this
    exact ⟨q, hq, by rw [e]; exact hm⟩
  obtain ⟨p, hp⟩ := findGroup_some hk
  rw [hp]
  obtain ⟨hm, hkey⟩ := findGroup_mem hp
  obtain ⟨q, hq, e2, e1⟩ := renameGroups_mem hm
  obtain ⟨⟨k, hk⟩, hs⟩ := hg.src q hq
  rw [e2] at hkey
  obtain ⟨n0, h0, h1⟩ := hs _ hkey
  have : n0 = kn.2 := nodup_fst_unique hn h0 hkn
  subst this
  exact ⟨k, q.1, hk, h1, e1⟩

end Verif
