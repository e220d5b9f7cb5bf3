import Verif.Model.Tree
/-
Choice of the tree class for a value (data_type_tree.py:104-121 and 149-157).
-/
namespace Verif

/-- The classes named in the `wraps` of the tree classes. -/
inductive Base
  | dict | list | dataFrame | series | iterator | mappingProxy | frozenset | set | tuple
  | function | staticmethod | classmethod | builtinFunction | method
  | bool | int | float | range | slice | str | noneType
  | ndarray | ioBase | moduleType | type
  deriving DecidableEq

/-- What the interpreter knows about the class of a value: whether it is exactly one of the wrapped classes, and
`isinstance(value, c)` for each of them. -/
structure RType where
  exact : Option Base
  isa : Base → Bool

/-- `DataTypeTree.subclasses` in registration order, which is the order of the imports in
data_type_tree/generic_type/__init__.py and data_type_tree/simple_data_type_tree/__init__.py; the trees for pandas and numpy
are only registered when the libraries are installed. -/
def registry (pandas numpy : Bool) : List (Base × ClassTag) :=
  [(.dict, .dict), (.list, .list)] ++
  (if pandas then [(.dataFrame, .frame), (.series, .series)] else []) ++
  [(.iterator, .iterator), (.mappingProxy, .proxy), (.frozenset, .set), (.set, .set), (.tuple, .tuple),
   (.function, .func), (.staticmethod, .func), (.classmethod, .func), (.builtinFunction, .func), (.method, .func),
   (.bool, .inst), (.int, .inst), (.float, .inst), (.range, .inst), (.slice, .inst), (.str, .inst), (.noneType, .inst)] ++
  (if numpy then [(.ndarray, .ndarray)] else []) ++
  [(.ioBase, .io), (.moduleType, .module), (.type, .cls)]

/-- `wraps` of a tree class. -/
def wrapsOf (reg : List (Base × ClassTag)) (tag : ClassTag) : List Base := (reg.filter (fun bt => decide (bt.2 = tag))).map (·.1)

/-- `subclasses[type_]` -/
def lookupBase (b : Base) : List (Base × ClassTag) → Option ClassTag
  | [] => none
  | (b', t) :: r => if b' = b then some t else lookupBase b r

/-- The loops of `get_subclass` (data_type_tree.py:109-113) over the values of `subclasses` and their `wraps`. -/
def firstMatch (reg : List (Base × ClassTag)) (t : RType) : List (Base × ClassTag) → ClassTag
  | [] => .inst
  | (_, tag) :: r => if (wrapsOf reg tag).any t.isa then tag else firstMatch reg t r

/-- `get_subclass` (data_type_tree.py:104-113). -/
def getSubclass (reg : List (Base × ClassTag)) (t : RType) : ClassTag :=
  match t.exact.bind (fun b => lookupBase b reg) with
  | some tag => tag
  | none => firstMatch reg t reg

/-- `_check_tree_is_correct_one` (data_type_tree.py:115-121, instance_data_type_tree.py:32-34): false when it raises. -/
def checkTree (reg : List (Base × ClassTag)) (tag : ClassTag) (t : RType) : Bool :=
  decide (tag = .inst) || (wrapsOf reg tag).any t.isa

end Verif
