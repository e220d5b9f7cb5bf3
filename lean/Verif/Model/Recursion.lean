import Verif.Model.Generator
/-
Generation under the recursion limit of the interpreter.
-/
namespace Verif

/-- `LazyTypeHintABC.from_data` (generators/lazy_type_hint_abc.py:78-89) when trees can be constructed inside of each other
`levels` times (data_type_tree.py:77-102 calls `_instantiate_children`, which calls the factory for every child). One more raises
`RecursionError`, which is the failure `fuel`. A level takes a bounded number of frames of Python's stack, so `levels` stands for a
fraction of `sys.getrecursionlimit()`. -/
def fromDataWithin (E : Env) (levels : Nat) (className : Str) (v : Val) : Except GenErr Node :=
  if nameOk E.U className then
    match build E levels true className v with
    | .ok n => .ok n
    | .error e => .error (.build e)
  else .error .className

end Verif
