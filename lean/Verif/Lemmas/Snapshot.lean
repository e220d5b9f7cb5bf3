import Verif.Spec.Snapshot
/-
C97: the text of a tree after harmless changes of the data.
-/
namespace Verif
open Verif.Spec

theorem classDoc_same {E : Env} {data data' : List (Key × Val)}
    (h : E.S.keyDoc = [] ∨ lookupKey (.str E.S.keyDoc) data' = lookupKey (.str E.S.keyDoc) data) : classDoc E data' = classDoc E data := by
  unfold classDoc
  rcases h with h | h
  · simp [h]
  · rw [h]

theorem combine_same {E : Env} {imp : Str → List Str} {h h' : Hdr} {kids : List Out} (hk : Harmless E.S h.kind h'.kind)
    (h1 : h'.name = h.name) (h2 : h'.root = h.root) (h3 : h'.ty = h.ty) (h4 : h'.slots = h.slots) :
    combine E imp h' kids = combine E imp h kids := by
  obtain ⟨k, nm, rt, ty, sl⟩ := h
  obtain ⟨k', nm', rt', ty', sl'⟩ := h'
  dsimp only at hk h1 h2 h3 h4
  subst h1 h2 h3 h4
  have same : k' = k → combine E imp ⟨k', nm', rt', ty', sl'⟩ kids = combine E imp ⟨k, nm', rt', ty', sl'⟩ kids := fun e => by rw [e]
  cases k with
  | dict data m =>
    cases k' with
    | dict data' m' =>
      obtain ⟨rfl, hd⟩ := hk
      simp only [combine, heightOf, permOf, topOf, typedTop, classDoc_same hd]
      rfl
    | _ => exact same hk
  | frame i =>
    cases k' with
    | frame i' =>
      obtain ⟨c, l⟩ := i
      obtain ⟨c', l'⟩ := i'
      unfold Harmless at hk
      dsimp only at hk
      subst hk
      rfl
    | _ => exact same hk
  | _ => exact same hk

mutual
theorem out_same {E : Env} {imp : Str → List Str} : ∀ {n n' : Node}, n.Later n' → HarmlessTree E.S n n' → n'.out E imp = n.out E imp
  | .mk h kids, .mk h' kids', hl, hh => by
    unfold Node.Later at hl
    unfold HarmlessTree at hh
    obtain ⟨_, h1, h2, h3, h4, hk⟩ := hl
    rw [Node.out, Node.out, outList_same hk hh.2]
    exact combine_same hh.1 h1 h2 h3 h4
theorem outList_same {E : Env} {imp : Str → List Str} : ∀ {l l' : List Node}, laterList l l' → HarmlessTrees E.S l l' →
    outList E imp l' = outList E imp l
  | [], [], _, _ => rfl
  | k :: r, k' :: r', hl, hh => by
    unfold laterList at hl
    unfold HarmlessTrees at hh
    rw [outList, outList, out_same hl.1 hh.1, outList_same hl.2 hh.2]
  | [], _ :: _, h, _ => h.elim
  | _ :: _, [], h, _ => h.elim
end

theorem nodeStrings_later {E : Env} {n n' : Node} (hl : n.Later n') (hh : HarmlessTree E.S n n') : nodeStrings E n' = nodeStrings E n := by
  funext b
  unfold nodeStrings Node.render
  rw [out_same hl hh]

theorem treeStep_later {E : Env} {n n' : Node} (hl : n.Later n') (hh : HarmlessTree E.S n n') (s : TreeState) (op : TreeOp) :
    n'.treeStep E s op = n.treeStep E s op := by
  have : ∀ cache b, n'.toStringCall E cache b = n.toStringCall E cache b := fun cache b => by
    unfold Node.toStringCall; rw [nodeStrings_later hl hh]
  cases op <;> simp only [Node.treeStep, this]

/-- Once the text is stored, the tree is not looked at. -/
theorem treeStep_cached {E : Env} (n n' : Node) {s : TreeState} {l : List Str} (h : s.cache = some l) (op : TreeOp) :
    n'.treeStep E s op = n.treeStep E s op ∧ (n.treeStep E s op).2.cache = some l := by
  have call : ∀ (n : Node) b, n.toStringCall E s.cache b = (.ok (formatNodeStrings l), some l) := fun n b => by
    unfold Node.toStringCall cachedCall; rw [h]; rfl
  cases op with
  | toString b => simp only [Node.treeStep, call, and_self]
  | toFile p create =>
    simp only [Node.treeStep, call, h]
    exact ⟨rfl, by split <;> rfl⟩

end Verif
