import Verif.Model.Tree
/-
Notions on trees used in property statements.
-/
namespace Verif.Spec
open Verif

mutual
/-- The tree with all names blanked: what remains is its structure. -/
def unnamed : Node → Node
  | .mk h kids => .mk { h with name := [] } (unnamedList kids)
def unnamedList : List Node → List Node
  | [] => []
  | k :: r => unnamed k :: unnamedList r
end

mutual
/-- All names of a tree, in pre-order. -/
def allNames : Node → List Str
  | .mk h kids => h.name :: allNamesList kids
def allNamesList : List Node → List Str
  | [] => []
  | k :: r => allNames k ++ allNamesList r
end

mutual
/-- No node object is shared by several slots. -/
def Unshared : Node → Prop
  | .mk h kids => (∀ s ∈ h.slots, s.mult = 1) ∧ UnsharedList kids
def UnsharedList : List Node → Prop
  | [] => True
  | k :: r => Unshared k ∧ UnsharedList r
end

end Verif.Spec
