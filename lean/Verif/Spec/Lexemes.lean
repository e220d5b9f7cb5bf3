import Verif.Spec.Basic
/-
The words of a text, as a reader sees them.
-/
namespace Verif.Spec
open Verif

/-- Characters that words are made of: ASCII letters and digits, the underscore, and everything outside ASCII. -/
def ofWord (c : Char) : Bool := c.isAlphanum || c == '_' || decide (128 ≤ c.val)

/-- The text cut at all other characters. -/
def pieces : Str → List Str
  | [] => [[]]
  | c :: r =>
    if ofWord c then (match pieces r with
      | p :: ps => (c :: p) :: ps
      | [] => [[c]])
    else [] :: pieces r

/-- The words of a text, in order. -/
def lexemes (s : Str) : List Str := (pieces s).filter (fun w => !w.isEmpty)

example : lexemes py!"X: TypeAlias = Dict[str, pd.Series[int]]" =
    [py!"X", py!"TypeAlias", py!"Dict", py!"str", py!"pd", py!"Series", py!"int"] := by decide

end Verif.Spec
