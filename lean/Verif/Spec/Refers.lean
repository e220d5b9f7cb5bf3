import Verif.Spec.Types
import Verif.Spec.Frames
import Verif.Spec.Lexemes
/-
Which declarations of a text are referred to.
-/
namespace Verif.Spec
open Verif

/-- A type in the declaration mentions the word. Keys, docstrings and the declared name itself do not count. -/
def RefersTo (d : TDecl) (x : Str) : Prop := ∃ t ∈ d.body.types, x ∈ lexemes t.print

/-- Every declaration is the one of the requested name, or is referred to by a declaration. -/
def AllReferenced (name : Str) (Γ : List TDecl) : Prop := ∀ d ∈ Γ, d.name = name ∨ ∃ e ∈ Γ, RefersTo e d.name

end Verif.Spec
