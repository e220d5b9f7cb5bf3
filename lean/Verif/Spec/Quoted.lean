import Verif.Spec.Types
import Verif.Spec.Values
import Verif.Spec.Imports
/-
Names in quotes (forward references).
-/
namespace Verif.Spec
open Verif

mutual
/-- The quoted parts of a type expression. -/
def TExpr.quotes : TExpr → List Str
  | .quoted n => [n]
  | .union ts => quotesList ts
  | .app _ t => t.quotes
  | .tuple ts => quotesList ts
  | .tupleOf t => t.quotes
  | .mapping _ k v => k.quotes ++ v.quotes
  | .name _ | .object | .callable _ => []
def quotesList : List TExpr → List Str
  | [] => []
  | t :: r => t.quotes ++ quotesList r
end

/-- The name of a class that has to be known to write the type of an object down: that of an instance, or of a class object. -/
def classNeeded : Val → Option Str
  | .inst t _ => if t = .noneType then none else some t.name
  | .cls _ n => some n
  | _ => none

/-- `u` is the value `v` or inside it. -/
inductive Inside : Val → Val → Prop
  | self (v) : Inside v v
  | elem {u e k t es} : e ∈ es → Inside u e → Inside u (.seq k t es)
  | entry {u e k t ks vs} : e ∈ vs → Inside u e → Inside u (.map k t ks vs)

/-- A quoted array type, not a class name. -/
def IsArrayType (x : Str) : Prop := ∃ d, x = py!"NDArray[np." ++ d ++ py!"]"

/-- Every class name in quotes is the name of a declaration or is bound by an import. -/
def ClassesResolve (sts : List ImportStmt) (ds : List TDecl) : Prop :=
  ∀ d ∈ ds, ∀ t ∈ d.body.types, ∀ x ∈ t.quotes, IsArrayType x ∨ x ∈ ds.map TDecl.name ∨ ∃ m, (m, x) ∈ sts.flatMap ImportStmt.bindings

end Verif.Spec
