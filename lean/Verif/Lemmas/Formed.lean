import Verif.Lemmas.Build
import Verif.Lemmas.Depth
/-
Only the root of a tree is marked as root, and every slot has its child.
-/
namespace Verif

mutual
/-- A node below the root: neither it nor anything below it is marked as root, and there is one slot per child. -/
def Formed : Node → Prop
  | .mk h kids => h.root = false ∧ h.slots.length = kids.length ∧ FormedList kids
def FormedList : List Node → Prop
  | [] => True
  | k :: r => Formed k ∧ FormedList r
end

theorem formedList_iff : ∀ {l : List Node}, FormedList l ↔ ∀ k ∈ l, Formed k
  | [] => by simp [FormedList]
  | k :: r => by simp [FormedList, formedList_iff (l := r)]

mutual
theorem formed_renameAux {new : Str} {len : Nat} : ∀ (c : Nat) (n : Node), Formed n → Formed (n.renameAux new len c)
  | c, .mk h kids, hs => by
    simp only [Node.renameAux, Formed] at hs ⊢
    exact ⟨hs.1, by rw [renameList_length]; exact hs.2.1, formed_renameList c h.slots kids hs.2.2⟩
theorem formed_renameList {new : Str} {len : Nat} : ∀ (c : Nat) (slots : List Slot) (l : List Node), FormedList l →
    FormedList (renameList new len c slots l)
  | _, [], [], _ => by simp [renameList, FormedList]
  | _, _ :: _, [], _ => by simp [renameList, FormedList]
  | c, [], k :: r, h => by
    simp only [renameList, FormedList] at h ⊢
    exact ⟨formed_renameAux c k h.1, formed_renameList c [] r h.2⟩
  | c, s :: ss, k :: r, h => by
    simp only [renameList, FormedList] at h ⊢
    exact ⟨formed_renameAux _ k h.1, formed_renameList c ss r h.2⟩
end

theorem formed_rename {n : Node} {x : Str} (h : Formed n) : Formed (n.rename x) := formed_renameAux 1 n h

theorem formed_update {k c : Node} (h : Formed k) : Formed (updateNode k c) := by
  obtain ⟨h1, k1⟩ := k
  obtain ⟨h2, k2⟩ := c
  simp only [updateNode]
  split
  · exact h
  · exact h

theorem formed_rec {E : Env} {rec : Str → Val → Except Err Node} {parent : Str} {es : List Val}
    (hrec : ∀ nm v, Ens (rec nm v) Formed (fun _ => True)) : RecSpec E rec parent es Formed (fun _ => True) where
  elem _ _ _ _ := hrec _ _
  upd _ _ h _ := formed_update h
  merge ds hd _ := by
    cases ds with
    | nil => trivial
    | cons d r =>
      simp only [mergeDicts]
      refine Ens.bind (hrec _ _) ?_
      rintro ⟨h, kids⟩ hn
      exact hn

/-- A node with formed children. -/
def Under (root : Bool) (n : Node) : Prop := n.hdr.root = root ∧ n.hdr.slots.length = n.kids.length ∧ FormedList n.kids

theorem under_formed {n : Node} : Under false n ↔ Formed n := by
  obtain ⟨h, kids⟩ := n
  rfl

/-- Only the root of a tree is marked as root. -/
theorem build_formed {E : Env} (hE : E.Fair) : ∀ (f : Nat) (root : Bool) (name : Str) (v : Val),
    Ens (build E f root name v) (Under root) (fun _ => True)
  | 0, _, _, _ => trivial
  | f + 1, root, name, v => by
    have hrec : ∀ nm v, Ens (build E f false nm v) Formed (fun _ => True) := fun nm v =>
      (build_formed hE f false nm v).imp (fun _ h => under_formed.mp h) (fun _ h => h)
    have leaf : ∀ (k : NKind) (t : Ty), Ens (if nameOk E.U name then
        .ok (.mk { kind := k, name, root, ty := t, slots := [] } []) else .error (.badName name)) (Under root) (fun _ => True) := by
      intro k t
      split
      · exact ⟨rfl, rfl, trivial⟩
      · trivial
    have node : ∀ (k : NKind) (t : Ty) (c : Except Err (List Slot × List Node)),
        Ens c (fun r => r.1.length = r.2.length ∧ ∀ k ∈ r.2, Formed k) (fun _ => True) →
        Ens (match c with
          | .ok (slots, kids) => Except.ok (Node.mk { kind := k, name, root, ty := t, slots } kids)
          | .error e => .error e) (Under root) (fun _ => True) := by
      intro k t c hc
      cases c with
      | error e => trivial
      | ok r => exact ⟨rfl, hc.1, formedList_iff.mpr hc.2⟩
    have checked : ∀ {x : Except Err Node}, Ens x (Under root) (fun _ => True) →
        Ens (if nameOk E.U name then x else .error (.badName name)) (Under root) (fun _ => True) := by
      intro x hx
      split
      · exact hx
      · trivial
    have maps : ∀ items, Ens (mapChildren E (build E f false) name items)
        (fun r => r.1.length = r.2.length ∧ ∀ k ∈ r.2, Formed k) (fun _ => True) := by
      intro items
      refine Ens.bind (mapKids_ens (R := fun _ _ n => Formed n) (fun kv _ => hrec _ _)) ?_
      intro kids hk
      exact ⟨shareEqual_length _ _ _, shareEqual_all (fun kn hkn => (hk.2 kn hkn).elim fun _ h => h.2) (fun n x h _ => formed_rename h)⟩
    cases v with
    | inst t x => exact leaf _ _
    | cls m c => exact leaf _ _
    | module t => exact leaf _ _
    | io t => exact leaf _ _
    | ndarray t d => exact leaf _ _
    | func g =>
      have := leaf (.func g) (Val.func g).ty
      simp only [build]
      split
      · trivial
      · rename_i n hn
        rw [hn] at this
        split
        · trivial
        · exact this
    | seq k t es =>
      refine checked (node _ _ _ ?_)
      split
      · exact (tupleChildren_ens (formed_rec hrec) (fun _ _ _ h => formed_rename h)).imp (fun _ h => ⟨h.2.1, h.1⟩) (fun _ h => h)
      · exact (setChildren_ens hE (formed_rec hrec)).imp (fun r h => ⟨by rw [h.2, List.length_map], h.1⟩) (fun _ h => h)
    | map k t ks vs =>
      cases k with
      | dict => exact node _ _ _ (maps _)
      | proxy => exact checked (node _ _ _ (maps _))
      | frame i =>
        refine checked (node _ _ _ ?_)
        refine Ens.bind (mapKids_ens (R := fun _ _ n => Formed n) (fun kv _ => hrec _ _)) ?_
        intro kids hk
        refine ⟨by simp, ?_⟩
        intro k hk'
        obtain ⟨kn, hkn, rfl⟩ := List.mem_map.mp hk'
        exact (hk.2 kn hkn).elim fun _ h => h.2

end Verif
