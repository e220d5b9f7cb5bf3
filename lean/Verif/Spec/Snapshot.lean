import Verif.Model.Later
/-
What may be changed in the data without an influence on its hint.
-/
namespace Verif.Spec
open Verif

/-- A change of what a node refers to that leaves alone: the documentation of dictionaries, whether all labels of a frame are literals,
functions, classes and arrays. Entries of dictionaries may be added, removed and replaced. -/
def Harmless (S : Strategies) : NKind → NKind → Prop
  | .dict data m, .dict data' m' => m' = m ∧ (S.keyDoc = [] ∨ lookupKey (.str S.keyDoc) data' = lookupKey (.str S.keyDoc) data)
  | .frame i, .frame i' => i'.literalLabels = i.literalLabels
  | k, k' => k' = k

mutual
/-- The same tree after harmless changes. -/
def HarmlessTree (S : Strategies) : Node → Node → Prop
  | .mk h kids, .mk h' kids' => Harmless S h.kind h'.kind ∧ HarmlessTrees S kids kids'
def HarmlessTrees (S : Strategies) : List Node → List Node → Prop
  | [], [] => True
  | k :: r, k' :: r' => HarmlessTree S k k' ∧ HarmlessTrees S r r'
  | _, _ => False
end

/-- The calls on a hint have the results they would have if the data had not been changed since `from_data`, if the changes
satisfy `P`. -/
def Snapshot (E : Env) (P : Node → Node → Prop) : Prop :=
  ∀ c v n, fromData E c v = .ok n → ∀ (fs : Fs) (calls : List (Node × TreeOp)), (∀ x ∈ calls, n.Later x.1 ∧ P n x.1) →
    laterRun E ⟨none, fs⟩ calls = n.treeRun E ⟨none, fs⟩ (calls.map (·.2))

end Verif.Spec
