import Verif.Py.Str
/-
Reports of the type checker, and tools.
-/
namespace Verif.Spec
open Verif

/-- An error as the checker prints it, with its code, and what follows up to the next error (line ends, positions, notes, summary). -/
structure Finding where
  text : Str
  code : Str
  rest : Str

/-- The message of an error with its code. -/
def Finding.message (f : Finding) : Str := f.text ++ py!"  [" ++ f.code ++ py!"]"

def Finding.print (f : Finding) : Str := py!"error: " ++ (f.message ++ f.rest)

/-- The marker of errors does not occur inside errors, and no bracket closes after the code. -/
def Finding.Clean (f : Finding) : Prop := contains py!"error: " (f.message ++ f.rest) = false ∧ ']' ∉ f.rest

/-- A message is to be ignored: it contains one of the keywords. -/
def Ignored (ignore : List Str) (s : Str) : Prop := ∃ k ∈ ignore, contains k s = true

instance (ignore : List Str) (s : Str) : Decidable (Ignored ignore s) := inferInstanceAs (Decidable (∃ k ∈ ignore, contains k s = true))

end Verif.Spec
