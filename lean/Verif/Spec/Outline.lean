import Verif.Model.Outline
import Verif.Spec.Depth
/-
C104: what the printed outline of a tree should look like, and how it is read.
-/
namespace Verif.Spec
open Verif

/-- An outline: an item, and the outlines of what is below it. -/
inductive Outline
  | item (label : Str) (below : List Outline)

mutual
/-- The lines of an outline whose first item is at the given level: one line per item, with four blanks per level, followed by what is
below it. -/
def Outline.lines (level : Nat) : Outline → List Str
  | .item label below => (List.replicate (4 * level) ' ' ++ label) :: outlineLines (level + 1) below
def outlineLines (level : Nat) : List Outline → List Str
  | [] => []
  | o :: r => o.lines level ++ outlineLines level r
end

/-- The blanks a line begins with. -/
def blanksBefore (line : Str) : Nat := (line.takeWhile (· = ' ')).length

/-- Reading an outline without knowing the tree: below a line is what follows it with more blanks in front. -/
def readOutline : Nat → List Str → List Outline
  | 0, _ => []
  | _, [] => []
  | fuel + 1, line :: rest =>
    let deeper := fun l => decide (blanksBefore line < blanksBefore l)
    .item (line.dropWhile (· = ' ')) (readOutline fuel (rest.takeWhile deeper)) :: readOutline fuel (rest.dropWhile deeper)

mutual
/-- The outline of a tree: its class and name, and below it all of its children. -/
def treeOutline : Node → Outline
  | .mk h kids => .item h.repr (treeOutlines kids)
def treeOutlines : List Node → List Outline
  | [] => []
  | k :: r => treeOutline k :: treeOutlines r
end

/-- Printing the tree at the given depth shows all of it. -/
def ShowsTree (depth : Nat) (n : Node) : Prop := n.printAllChildren true depth = (treeOutline n).lines depth

/-- Printing with `recursive=False` shows the tree and its children, but not what is below them. -/
def ShowsChildren (depth : Nat) (n : Node) : Prop :=
  n.printAllChildren false depth = (Outline.item n.hdr.repr (n.kids.map fun k => .item k.hdr.repr [])).lines depth

/-- The class of the tree for a value. -/
def classFor : Val → Str
  | .inst _ _ => py!"InstanceDataTypeTree"
  | .func _ => py!"FunctionDataTypeTree"
  | .cls _ _ => py!"TypeDataTypeTree"
  | .module _ => py!"ModuleTypeDataTypeTree"
  | .io _ => py!"IoDataTypeTree"
  | .ndarray _ _ => py!"NumpyDataTypeTree"
  | .seq .list _ _ => py!"ListDataTypeTree"
  | .seq .tuple _ _ => py!"TupleDataTypeTree"
  | .seq .iterator _ _ => py!"IteratorDataTypeTree"
  | .seq .series _ _ => py!"PandasSeriesDataTypeTree"
  | .seq _ _ _ => py!"SetDataTypeTree"
  | .map .dict _ _ _ => py!"DictDataTypeTree"
  | .map .proxy _ _ _ => py!"MappingProxyDataTypeTree"
  | .map (.frame _) _ _ _ => py!"PandasDataFrameDataTypeTree"

/-- The class in an item: what stands before the first dash. -/
def Outline.cls : Outline → Str
  | .item label _ => label.takeWhile (· ≠ '-')

/-- What is below an item. -/
def Outline.parts : Outline → List Outline
  | .item _ below => below

/-- No mapping in the data has the key `None`. -/
def NoNoneKeys (v : Val) : Prop :=
  Every (fun w => match w with
    | .map _ _ ks _ => Key.none ∉ ks
    | _ => True) v

end Verif.Spec
