import Verif.Model.Ast
/-
When two syntax trees count as equal.
-/
namespace Verif.Spec
open Verif

/-- Positions and expression contexts; the arguments of functions and calls if they are to be ignored. -/
def unimportant (o : AstOpts) (k : Str) : Bool :=
  k == py!"lineno" || k == py!"col_offset" || k == py!"end_lineno" || k == py!"end_col_offset" || k == py!"ctx" ||
  (o.ignoreArgs && k == py!"args")

/-- A list without the `None`s at its end. -/
def trim : List Ast → List Ast
  | [] => []
  | x :: xs => match trim xs with
    | [] => if x.isNone then [] else [x]
    | r => x :: r

/-- An import statement, of either form. -/
def importStatement : Ast → Bool
  | .node c _ _ => decide (c = py!"Import") || decide (c = py!"ImportFrom")
  | _ => false

mutual
/-- What counts of a tree: the important attributes, without imports in bodies if these are to be ignored. -/
def essence (o : AstOpts) (noImports : Bool) : Ast → Ast
  | .node c ns vs => .node c (ns.filter (fun k => !unimportant o k)) (essenceAttrs o ns vs)
  | .list xs => .list (trim (essenceItems o noImports xs))
  | .leaf t x => .leaf t x
def essenceAttrs (o : AstOpts) : List Str → List Ast → List Ast
  | k :: ns, v :: vs =>
    if unimportant o k then essenceAttrs o ns vs else essence o (o.ignoreImports && k == py!"body") v :: essenceAttrs o ns vs
  | _, _ => []
def essenceItems (o : AstOpts) (noImports : Bool) : List Ast → List Ast
  | [] => []
  | x :: xs => if noImports && importStatement x then essenceItems o noImports xs else essence o false x :: essenceItems o noImports xs
end

mutual
/-- Trees as the parser makes them: the attributes of a node are those of its class. -/
def Shaped (attrs : Str → List Str) : Ast → Prop
  | .node c ns vs => ns = attrs c ∧ ns.Nodup ∧ ns.length = vs.length ∧ ShapedAll attrs vs
  | .list xs => ShapedAll attrs xs
  | .leaf _ _ => True
def ShapedAll (attrs : Str → List Str) : List Ast → Prop
  | [] => True
  | x :: xs => Shaped attrs x ∧ ShapedAll attrs xs
end

/-- Nodes that define functions. -/
def definesFunction (c : Str) : Bool := c == py!"FunctionDef" || c == py!"AsyncFunctionDef"

mutual
/-- The tree without the bodies of functions. -/
def outsideBodies : Ast → Ast
  | .node c ns vs => if definesFunction c then .node c (ns.filter (fun n => n != py!"body")) (outsideAttrs ns vs) else .node c ns (outsideList vs)
  | .list xs => .list (outsideList xs)
  | .leaf t v => .leaf t v
def outsideAttrs : List Str → List Ast → List Ast
  | n :: ns, v :: vs => if n = py!"body" then outsideAttrs ns vs else outsideBodies v :: outsideAttrs ns vs
  | _, _ => []
def outsideList : List Ast → List Ast
  | [] => []
  | x :: xs => outsideBodies x :: outsideList xs
end

mutual
/-- `P` holds for the class and attributes of every node. -/
def EveryNode (P : Str → List Str → List Ast → Prop) : Ast → Prop
  | .node c ns vs => P c ns vs ∧ EveryNodeList P vs
  | .list xs => EveryNodeList P xs
  | .leaf _ _ => True
def EveryNodeList (P : Str → List Str → List Ast → Prop) : List Ast → Prop
  | [] => True
  | x :: xs => EveryNode P x ∧ EveryNodeList P xs
end

/-- Every function has a body. -/
def HasBodies (t : Ast) : Prop := EveryNode (fun c ns vs => definesFunction c = true → ∃ b, attr py!"body" ns vs = some b) t

/-- The body of every function is `...`. -/
def NoBodies (t : Ast) : Prop := EveryNode (fun c ns vs => definesFunction c = true →
  attr py!"body" ns vs = some (.list [.node py!"Constant" [py!"value"] [.leaf py!"ellipsis" py!"..."]])) t

/-- There are no `async` functions. -/
def NoAsync (t : Ast) : Prop := EveryNode (fun c _ _ => c ≠ py!"AsyncFunctionDef") t

end Verif.Spec
