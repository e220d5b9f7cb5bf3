import Verif.Model.TreeObject
/-
What calls on a generated hint should do: each call answers to its own arguments.
-/
namespace Verif.Spec
open Verif

/-- What one call should return and what the file system should be afterwards; `text b` is the hint with or without imports. -/
def callResult (text : Bool → Except StrErr Str) (fs : Fs) : TreeOp → TreeResult × Fs
  | .toString b => (.text (text b), fs)
  | .toFile p create => (.file (toFile (text true) fs p create).2, (toFile (text true) fs p create).1)

/-- What a history of calls should return and what the file system should be afterwards. -/
def callResults (text : Bool → Except StrErr Str) : Fs → List TreeOp → List TreeResult × Fs
  | fs, [] => ([], fs)
  | fs, op :: ops =>
    let r := callResult text fs op
    let rest := callResults text r.2 ops
    (r.1 :: rest.1, rest.2)

/-- Whether a call asks for imports: `to_file` always does. -/
def asksImports : TreeOp → Bool
  | .toString b => b
  | .toFile _ _ => true

end Verif.Spec
