import Verif.Spec.Types
import Verif.Spec.Coherent
import Verif.Model.Generator
/-
More examples and what becomes of the hint.
-/
namespace Verif.Spec
open Verif

/-- There are elements, and none of them is a dictionary that gets a TypedDict. The further ones may be. -/
def NoRecords (S : Strategies) (es _more : List Val) : Prop := es ≠ [] ∧ ∀ e ∈ es, ¬ IsRecord S e

end Verif.Spec
