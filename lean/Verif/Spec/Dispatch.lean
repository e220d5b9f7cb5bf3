import Verif.Model.Dispatch
/-
The kinds of values and what the interpreter guarantees about classes.
-/
namespace Verif.Spec
open Verif

/-- The kind of the instances of each class. -/
def ownKind : Base → ClassTag
  | .dict => .dict
  | .list => .list
  | .dataFrame => .frame
  | .series => .series
  | .iterator => .iterator
  | .mappingProxy => .proxy
  | .frozenset | .set => .set
  | .tuple => .tuple
  | .function | .staticmethod | .classmethod | .builtinFunction | .method => .func
  | .bool | .int | .float | .range | .slice | .str | .noneType => .inst
  | .ndarray => .ndarray
  | .ioBase => .io
  | .moduleType => .module
  | .type => .cls

/-- What holds of every class in CPython: instances of a class are instances of it, and all wrapped classes but `Iterator`
(which has a structural instance check) have incompatible layouts, so that no class inherits from two of different kinds. -/
structure Lawful (t : RType) : Prop where
  self : ∀ b, t.exact = some b → t.isa b = true
  layout : ∀ b b', b ≠ .iterator → b' ≠ .iterator → t.isa b = true → t.isa b' = true → ownKind b = ownKind b'

/-- The libraries that define the class are installed. -/
def Available (pandas numpy : Bool) : Base → Prop
  | .dataFrame | .series => pandas = true
  | .ndarray => numpy = true
  | _ => True

end Verif.Spec
