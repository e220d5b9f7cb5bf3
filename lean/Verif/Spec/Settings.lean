import Verif.Model.Strategies
/-
Settings that are told apart by the text of a hint only, and settings that ask for more general containers.
-/
namespace Verif.Spec
open Verif

/-- Settings that agree on what decides about the structure: whether dictionaries get TypedDicts, whether tuples are described place by
place, whether columns are described, and the two limits. They may differ in the containers for lists and dictionaries, in the height
from which on names are declared, in the key for documentation, in read-only fields, and in how columns are described. -/
structure SameStructure (S T : Strategies) : Prop where
  typed : S.dict = .typedDict ↔ T.dict = .typedDict
  tuple : S.tuple = T.tuple
  columns : S.pandas = .none ↔ T.pandas = .none
  merge : S.merge = T.merge
  checkMax : S.checkMax = T.checkMax

/-- The containers that `T` asks for are at least as general: `Sequence` rather than `List`, `Mapping` rather than `Dict`. -/
structure AsGeneral (S T : Strategies) : Prop where
  list : S.list = .sequence → T.list = .sequence
  map : S.dict = .mapping → T.dict = .mapping

end Verif.Spec
