import Verif.Lemmas.Render
import Verif.Spec.Tree
/-
C34: renaming a tree.
-/
namespace Verif.Props
open Verif Verif.Spec

mutual
theorem unnamed_renameAux (new : Str) (len : Nat) : ∀ (n : Node) (c : Nat), unnamed (n.renameAux new len c) = unnamed n
  | .mk h kids, c => by
    simp only [Node.renameAux, unnamed, unnamed_renameList new len kids]
theorem unnamed_renameList (new : Str) (len : Nat) : ∀ (l : List Node) (c : Nat) (ss : List Slot),
    unnamedList (renameList new len c ss l) = unnamedList l
  | [], _, _ => by simp [renameList]
  | k :: r, c, [] => by
    simp only [renameList, unnamedList, unnamed_renameAux new len k, unnamed_renameList new len r]
  | k :: r, c, s :: ss => by
    simp only [renameList, unnamedList, unnamed_renameAux new len k, unnamed_renameList new len r]
end

mutual
theorem hash_unnamed (S : Strategies) : ∀ n : Node, (unnamed n).hash S = n.hash S
  | .mk h kids => by
    simp only [unnamed, Node.hash, hashList_unnamed S kids]
    rfl
theorem hashList_unnamed (S : Strategies) : ∀ l : List Node, hashList S (unnamedList l) = hashList S l
  | [] => rfl
  | k :: r => by simp only [unnamedList, hashList, hash_unnamed S k, hashList_unnamed S r]
end

theorem heightOf_congr {h h' : Hdr} {a b : List Out} (hk : h'.kind = h.kind) (hab : a.map (·.height) = b.map (·.height)) :
    heightOf h' a = heightOf h b := by
  have hfold : ∀ (a b : List Out) m, a.map (·.height) = b.map (·.height) →
      a.foldl (fun m k => max k.height m) m = b.foldl (fun m k => max k.height m) m := by
    intro a
    induction a with
    | nil => intro b m h; cases b <;> simp_all
    | cons x a ih =>
      intro b m h
      cases b with
      | nil => simp at h
      | cons y b =>
        simp only [List.map_cons, List.cons.injEq] at h
        simp only [List.foldl_cons, h.1]
        exact ih b _ h.2
  unfold heightOf
  rw [hk]
  split <;> first | rfl | (rw [hfold _ _ _ hab])

theorem iterate_map {α β} (f : α → β) (slots : List Slot) (l : List α) : iterate slots (l.map f) = (iterate slots l).map f := by
  unfold iterate
  have : slots.zip (l.map f) = (slots.zip l).map (fun x => (x.1, f x.2)) := by
    rw [List.zip_map_right]; rfl
  rw [this, List.takeWhile_map]
  simp [Function.comp_def]

mutual
theorem height_unnamed (E : Env) (im : Str → List Str) : ∀ n : Node, ((unnamed n).out E im).height = (n.out E im).height
  | .mk h kids => by
    simp only [unnamed, Node.out, combine]
    refine heightOf_congr rfl ?_
    have := heightList_unnamed E im kids
    rw [← iterate_map, ← iterate_map, this]
theorem heightList_unnamed (E : Env) (im : Str → List Str) : ∀ l : List Node,
    (outList E im (unnamedList l)).map (·.height) = (outList E im l).map (·.height)
  | [] => rfl
  | k :: r => by simp only [unnamedList, outList, List.map_cons, height_unnamed E im k, heightList_unnamed E im r]
end

/-- **C34**: renaming changes no structure. -/
theorem rename_keeps_structure (n : Node) (new : Str) : unnamed (n.rename new) = unnamed n := unnamed_renameAux _ _ n 1

/-- **C34**: after renaming, the root has the new name. -/
theorem rename_root (n : Node) (new : Str) : (n.rename new).name = new := name_rename

/-- **C34**: renaming keeps the structural hash, so it keeps all equality tests. -/
theorem rename_keeps_hash (S : Strategies) (n : Node) (new : Str) : (n.rename new).hash S = n.hash S := by
  rw [← hash_unnamed, rename_keeps_structure, hash_unnamed]

/-- **C34**: renaming keeps the height that decides about aliases. -/
theorem rename_keeps_height (E : Env) (n : Node) (new : Str) : ((n.rename new).render E).height = (n.render E).height := by
  unfold Node.render
  rw [← height_unnamed, rename_keeps_structure, height_unnamed]

mutual
theorem allNames_renameAux (new : Str) (len : Nat) : ∀ n : Node, Unshared n →
    allNames (n.renameAux new len 1) = (allNames n).map (fun x => new ++ x.drop len)
  | .mk h kids, hu => by
    simp only [Unshared] at hu
    simp only [Node.renameAux, allNames, List.map_cons, renameTimes, allNames_renameList new len kids h.slots hu.2 hu.1]
theorem allNames_renameList (new : Str) (len : Nat) : ∀ (l : List Node) (ss : List Slot), UnsharedList l →
    (∀ s ∈ ss, s.mult = 1) → allNamesList (renameList new len 1 ss l) = (allNamesList l).map (fun x => new ++ x.drop len)
  | [], _, _, _ => by simp [renameList, allNamesList]
  | k :: r, [], hu, hs => by
    simp only [UnsharedList] at hu
    simp only [renameList, allNamesList, List.map_append, allNames_renameAux new len k hu.1,
      allNames_renameList new len r [] hu.2 hs]
  | k :: r, s :: ss, hu, hs => by
    simp only [UnsharedList] at hu
    have h1 : s.mult = 1 := hs s (by simp)
    simp only [renameList, h1, Nat.mul_one, allNamesList, List.map_append, allNames_renameAux new len k hu.1,
      allNames_renameList new len r ss hu.2 (fun s hs' => hs s (by simp [hs']))]
end

/-- The claim that renaming replaces the old name by the new one in all names that start with it. -/
def RenameReplacesPrefix : Prop :=
  ∀ (n : Node) (new : Str), (∀ x ∈ allNames n, n.name <+: x) →
    allNames (n.rename new) = (allNames n).map (fun x => new ++ x.drop n.name.length)

/-- Without shared nodes, renaming replaces the old prefix of every name by the new one. -/
theorem rename_replaces_prefix_partial (n : Node) (new : Str) (h : Unshared n) :
    allNames (n.rename new) = (allNames n).map (fun x => new ++ x.drop n.name.length) := allNames_renameAux _ _ n h

/-- `{"x": [[1]], "y": [[1]]}`, whose two values share one tree. -/
def sharing : Val := .dict [(.str py!"x", .seq .list .list [.seq .list .list [.inst .int none]]),
  (.str py!"y", .seq .list .list [.seq .list .list [.inst .int none]])]

/-- The tree of `sharing` under the name `XA`. -/
def sharingTree : Node := match buildTree (exEnv {}) py!"XA" sharing with
  | .ok n => n
  | .error _ => .mk { kind := .inst, name := [], root := false, ty := .int, slots := [] } []

/-- With shared nodes the replacement is applied once per reference: `XAList` becomes `XDictictList`. -/
theorem rename_replaces_prefix_fails : ¬ RenameReplacesPrefix := by
  intro h
  have := h sharingTree py!"XDict" (by decide +kernel)
  exact absurd this (by decide +kernel)

/-- The garbled name is visible in the generated text: for `{"a": d, "b": d}` with `d = {"x": [[1]], "y": [[1]]}`. -/
theorem garbled_alias_name : declsOf (exEnv {}) py!"X" (.dict [(.str py!"a", sharing), (.str py!"b", sharing)]) =
    [py!"XDictictList: TypeAlias = List[List[int]]",
     py!"class XDict(TypedDict):\n    x: XDictictList\n    y: XDictictList",
     py!"class X(TypedDict):\n    a: XDict\n    b: XDict"] := by decide +kernel

example : Unshared (.mk { kind := .seq .list, name := py!"XA", root := false, ty := .list, slots := [Slot.seq 1] }
    [.mk { kind := .inst, name := py!"XAInt", root := false, ty := .int, slots := [] } []]) := by
  simp [Unshared, UnsharedList, Slot.seq]

end Verif.Props
