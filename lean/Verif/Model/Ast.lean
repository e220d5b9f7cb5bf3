import Verif.Py.Str
/-
Comparison of syntax trees, `compare_ast` (lazy_type_hint/utils/utils.py:23-59).
-/
namespace Verif

/-- What hangs in a syntax tree: nodes with their attributes (`vars(node)`, names and values side by side), lists, and constants
(strings, numbers, `None`), given by their type and value. Trees share no nodes. -/
inductive Ast
  | node (cls : Str) (names : List Str) (vals : List Ast)
  | list (items : List Ast)
  | leaf (ty val : Str)

/-- `None`. -/
def Ast.none : Ast := .leaf py!"NoneType" py!"None"

def Ast.isNone : Ast → Bool
  | .leaf t v => t == py!"NoneType" && v == py!"None"
  | _ => false

/-- `isinstance(n, (ast.Import, ast.ImportFrom))`. -/
def Ast.isImport : Ast → Bool
  | .node c _ _ => c == py!"Import" || c == py!"ImportFrom"
  | _ => false

/-- `getattr(node, k)` on the attributes. -/
def attr (k : Str) : List Str → List Ast → Option Ast
  | n :: ns, v :: vs => if n = k then some v else attr k ns vs
  | _, _ => .none

/-- `setattr(node, k, w)` for an existing attribute. -/
def setAttr (k : Str) (w : Ast) : List Str → List Ast → List Ast
  | n :: ns, v :: vs => if n = k then w :: vs else v :: setAttr k w ns vs
  | _, vs => vs

structure AstOpts where
  ignoreArgs : Bool := false
  ignoreImports : Bool := false

/-- Attributes that are not compared (utils.py:34-37). -/
def skippedAttr (o : AstOpts) (k : Str) : Bool :=
  [py!"lineno", py!"end_lineno", py!"col_offset", py!"end_col_offset", py!"ctx"].contains k || (o.ignoreArgs && k == py!"args")

def Ast.isList : Ast → Bool
  | .list _ => true
  | _ => false

/-- The body of the second node without its import statements (utils.py:40-41). Simplified: something that is not a list is kept;
the code would raise. -/
def Ast.dropImports : Ast → Ast
  | .list ys => .list (ys.filter (fun y => !y.isImport))
  | b => b

mutual
/-- `compare_ast` (utils.py:23-59): the result and the second tree afterwards, `none` for an `AttributeError`. `skip` says that the first
argument is a list from which import statements have been taken out (utils.py:39). -/
def compareAst (o : AstOpts) (skip : Bool) : Ast → Ast → Option (Bool × Ast)
  | .node c ns vs, b => match b with
    | .node c' ns' vs' => if c = c' then (compareAttrs o ns vs ns' vs').map (fun r => (r.1, .node c' ns' r.2)) else some (false, b)
    | _ => some (false, b)
  | .list xs, b => match b with
    | .list ys => (compareItems o skip xs ys).map (fun r => (r.1, .list r.2))
    | _ => some (false, b)
  | .leaf t x, b => match b with
    | .leaf t' y => some (decide (t = t') && decide (x = y), b)
    | _ => some (false, b)
/-- The loop over attributes (utils.py:33-49); the values of the second node afterwards. -/
def compareAttrs (o : AstOpts) : List Str → List Ast → List Str → List Ast → Option (Bool × List Ast)
  | k :: ns, v :: vs, ns', vs' =>
    if skippedAttr o k then compareAttrs o ns vs ns' vs' else
    match attr k ns' vs' with
    | .none => .none
    | some w =>
      let skip := o.ignoreImports && k == py!"body" && v.isList
      match compareAst o skip v (if skip then w.dropImports else w) with
      | .none => .none
      | some (r, w') => if r then compareAttrs o ns vs ns' (setAttr k w' ns' vs') else some (false, setAttr k w' ns' vs')
  | _, _, _, vs' => some (true, vs')
/-- The comparison of lists, with `zip_longest` (utils.py:53-57). -/
def compareItems (o : AstOpts) (skip : Bool) : List Ast → List Ast → Option (Bool × List Ast)
  | [], ys => some (ys.all Ast.isNone, ys)
  | x :: xs, ys =>
    if skip && x.isImport then compareItems o skip xs ys else
    match ys with
    | [] => match compareAst o false x .none with
      | .none => .none
      | some (r, _) => if r then compareItems o skip xs [] else some (false, [])
    | y :: ys => match compareAst o false x y with
      | .none => .none
      | some (r, y') => if r then (compareItems o skip xs ys).map (fun r => (r.1, y' :: r.2)) else some (false, y' :: ys)
end

/-- `[ast.Ellipsis()]`, which Python makes a constant. -/
def ellipsisBody : Ast := .list [.node py!"Constant" [py!"value"] [.leaf py!"ellipsis" py!"..."]]

mutual
/-- The tree that `remove_all_method_bodies` (lazy_type_hint/file_modifiers/py_file_modifier.py:180-184) leaves: `ast.walk` visits
all nodes, also those of bodies that are replaced. -/
def Ast.clearBodies : Ast → Ast
  | .node c ns vs =>
    .node c ns (if c = py!"FunctionDef" then setAttr py!"body" ellipsisBody ns (clearList vs) else clearList vs)
  | .list xs => .list (clearList xs)
  | .leaf t v => .leaf t v
def clearList : List Ast → List Ast
  | [] => []
  | x :: xs => x.clearBodies :: clearList xs
end

end Verif
