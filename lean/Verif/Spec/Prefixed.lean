import Verif.Model.Tree
/-
Trees whose names have a common beginning.
-/
namespace Verif.Spec
open Verif

mutual
/-- The tree in which `p` is put in front of all names. -/
def prefixed (p : Str) : Node → Node
  | .mk h kids => .mk { h with name := p ++ h.name } (prefixedList p kids)
def prefixedList (p : Str) : List Node → List Node
  | [] => []
  | n :: r => prefixed p n :: prefixedList p r
end

/-- The order in which sets are iterated depends only on the hashes and classes of trees, and on the order in which they were added. -/
def OrderByHash (E : Env) : Prop :=
  ∀ site l (g : Node → Node), (∀ n, (g n).hash E.S = n.hash E.S ∧ (g n).hdr.kind.tag = n.hdr.kind.tag) → E.order site (l.map g) = (E.order site l).map g

/-- The order in which sets are iterated does not depend on the names of trees. (They do not contribute to the hash of a tree.) -/
def OrderIgnoresNames (E : Env) : Prop := ∀ p site l, E.order site (l.map (prefixed p)) = (E.order site l).map (prefixed p)

end Verif.Spec
