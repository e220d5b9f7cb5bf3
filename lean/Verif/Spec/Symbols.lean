import Verif.Spec.Types
import Verif.Spec.Imports
/-
The library symbols that a generated declaration uses.
-/
namespace Verif.Spec
open Verif

/-- The symbols that import statements of generated files can bind. -/
def librarySymbols : List Str := symbolTable.map (·.2.2)

/-- The symbol that has to be imported for an identifier: `pd` for `pd.Series`, otherwise the identifier itself. -/
def symbolOf (n : Str) : Str := if startsWith n py!"pd." then py!"pd" else n

mutual
/-- The symbols in a type expression. A forward reference to an array uses `NDArray` and `np`. -/
def exprSymbols : TExpr → List Str
  | .name n => [symbolOf n]
  | .quoted n => if startsWith n py!"NDArray[np." then [py!"NDArray", py!"np"] else []
  | .object => [py!"Optional", py!"object"]
  | .union ts => py!"Union" :: exprsSymbols ts
  | .app con t => symbolOf con :: exprSymbols t
  | .tuple ts => py!"Tuple" :: exprsSymbols ts
  | .tupleOf t => py!"Tuple" :: exprSymbols t
  | .mapping con k v => con :: (exprSymbols k ++ exprSymbols v)
  | .callable _ => [py!"Callable", py!"Any"]
def exprsSymbols : List TExpr → List Str
  | [] => []
  | t :: r => exprSymbols t ++ exprsSymbols r
end

/-- The symbols in a declaration, apart from those in the signature of a function. -/
def declSymbols (d : TDecl) : List Str :=
  match d.body with
  | .alias t => py!"TypeAlias" :: exprSymbols t
  | .record _ _ es => py!"TypedDict" :: es.flatMap (fun e =>
      (if e.readOnly then [py!"ReadOnly"] else []) ++ (if e.required then [] else [py!"NotRequired"]) ++ exprSymbols e.type)
  | .protocol _ => [py!"Protocol"]
  | .frame ovs _ => [py!"pd", py!"overload", py!"Literal", py!"Union", py!"npt", py!"np", py!"List", py!"Scalar", py!"Tuple",
      py!"Hashable"] ++ ovs.flatMap (fun o => exprSymbols o.2)

/-- Not a library symbol. -/
def Foreign (n : Str) : Prop := symbolOf n ∉ librarySymbols

end Verif.Spec
