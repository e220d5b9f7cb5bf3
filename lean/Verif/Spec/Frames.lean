import Verif.Model.Val
/-
Classes for data frames: one overload of `__getitem__` per column.
-/
namespace Verif.Spec
open Verif

/-- The literal for a label, given `repr` of strings: strings, integers and truth values have one. -/
def literalOf (reprStr : Str → Str) : Key → Option Str
  | .str s => some (reprStr s)
  | .other t r => if t = .int ∨ t = .bool then some r else none
  | .none => none

/-- A column: the literal of its label and the type of `df[label]`. -/
structure Column where
  label : Str
  type : Str

/-- `df[label]` has the type of the column. -/
def Column.overload (c : Column) : Str :=
  py!"    @overload  # type: ignore\n    def __getitem__(self, key: Literal[" ++ c.label ++ py!"]) -> " ++ c.type ++ py!":\n        ...\n"

/-- The method for all keys of the given type and the usual others. -/
def generalMethod (keys others : Str) : Str :=
  py!"    def __getitem__(\n        self,\n        key: Union[\n" ++ keys ++ others ++
  py!"            npt.NDArray[np.bool_],\n            npt.NDArray[np.str_],\n            List[Union[Scalar, Tuple[Hashable, ...]]],\n        ],\n" ++
  py!"    ) -> Union[pd.Series, pd.DataFrame]:\n"

/-- A class for a frame with these columns in which no other labels are known. -/
def closedFrame (name : Str) (cols : List Column) : Str :=
  py!"class " ++ name ++ py!"(pd.DataFrame):\n\n" ++ join py!"\n" (cols.map Column.overload) ++ py!"\n" ++
  generalMethod (py!"            Literal[" ++ join py!", " (cols.map (·.label)) ++ py!"],\n") [] ++ py!"        return super().__getitem__(key)"

/-- A class for a frame with these columns that may have others. -/
def openFrame (name : Str) (cols : List Column) : Str :=
  py!"class " ++ name ++ py!"(pd.DataFrame):\n\n" ++ join py!"\n" (cols.map Column.overload) ++ py!"\n    @overload\n" ++
  generalMethod py!"            \"pd.Series[bool]\",\n            str,\n" py!"            pd.DataFrame,\n            pd.Index,\n" ++ py!"        ...\n\n" ++
  generalMethod py!"            \"pd.Series[bool]\",\n            str,\n" py!"            pd.DataFrame,\n            pd.Index,\n" ++
  py!"        return super().__getitem__(key)"

end Verif.Spec
