import Verif.Py.Unicode
/-
Specification of the name conversion.
-/
namespace Verif.Spec
open Verif

/-- `ys` consists of the characters of `xs` in order, each either unchanged or upper-cased. -/
inductive Recased (U : Uni) : Str → Str → Prop
  | nil : Recased U [] []
  | keep (c : Char) {xs ys : Str} : Recased U xs ys → Recased U (c :: xs) (c :: ys)
  | raise (c : Char) {xs ys : Str} : Recased U xs ys → Recased U (c :: xs) (U.upper c ++ ys)

/-- `s` without its leading run of decimal digits, unless there is nothing else. -/
def cutDigits (U : Uni) (s : Str) : Str :=
  if s.all U.isDecimal then s else s.dropWhile U.isDecimal

end Verif.Spec
