import Verif.Spec.Calls
import Verif.Model.Val
/-
`FunctionDataTypeTree._has_return`.
-/
namespace Verif
open Spec

mutual
/-- A `return` anywhere in the parsed source, with `ast.walk` also in nested functions (function_data_type_tree.py:84). Bodies of lambdas and
expressions contain no statements. -/
def returnIn : Stmt → Bool
  | .ret _ => true
  | .block b => returnInAny b
  | .define b => returnInAny b
  | .yield => false
  | .other => false
def returnInAny : List Stmt → Bool
  | [] => false
  | s :: r => returnIn s || returnInAny r
end

/-- A function defined by `def` with the given signature and body, whose source is available (function_data_type_tree.py:37-84). -/
def defined (ps : List Formal) (ret : Option Str) (body : List Stmt) : FuncInfo :=
  { ty := .function, isLambda := false, sig := .ok (printSignature ps ret) ps.length, source := .ret (returnInAny body) }

/-- A lambda with the given signature. -/
def lambda (ps : List Formal) : FuncInfo :=
  { ty := .function, isLambda := true, sig := .ok (printSignature ps none) ps.length, source := .unparsable }

end Verif
