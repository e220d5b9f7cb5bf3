import Verif.Model.Live
/-
What the stub of the live generator looks like when a given list of classes is registered, imported and overloaded.
-/
namespace Verif.Spec
open Verif

/-- Characters of class names. -/
def ClassName (U : Uni) (c : Str) : Prop := c ≠ [] ∧ ∀ x ∈ c, U.isAlnum x = true ∨ x = '_'

/-- Lines above the registry. -/
def headLines : List Str :=
  [ py!"import os",
    py!"import re",
    py!"import shutil",
    py!"from pathlib import Path",
    py!"from typing import Any, Callable, Dict, Final, Literal, Mapping, Optional, Sequence, TypeVar, Union, cast, final, overload",
    py!"from typing_extensions import TypeAlias, override",
    py!"from lazy_type_hint.data_type_tree import DataTypeTree",
    py!"from lazy_type_hint.file_modifiers.py_file_modifier import PyFileModifier",
    py!"from lazy_type_hint.file_modifiers.yaml_file_modifier import YAML_COMMENTS_POSITION",
    py!"from lazy_type_hint.generators.lazy_type_hint_abc import LazyTypeHintABC",
    py!"from lazy_type_hint.strategies import ParsingStrategies",
    py!"from lazy_type_hint.utils import TAB, is_string_python_keyword_compatible",
    py!"THIS_DIR = Path(__file__).parent",
    py!"",
    py!"class LazyTypeHintLiveError(Exception):",
    py!"    \"\"\"Raised by `LazyTypeHintLive` class.\"\"\"",
    py!"ObjectT = TypeVar('ObjectT')",
    py!"PathT = TypeVar('PathT', str, Path)",
    py!"",
    py!"class LazyTypeHintLive(LazyTypeHintABC):" ]

/-- `Union[Literal["A", "B"], Any]`, or `Any` without classes. -/
def registryValue : List Str → Str
  | [] => py!"Any"
  | cs => py!"Union[Literal[" ++ join py!", " (cs.map (fun c => py!"\"" ++ c ++ py!"\"")) ++ py!"], Any]"

/-- The line of the registry. -/
def registryLine (cs : List Str) : Str :=
  py!"    classes_created: 'TypeAlias' =" ++ (if cs = [] then py!" " else []) ++ registryValue cs

/-- Lines between the registry and the first method. -/
def initLines : List Str :=
  [ py!"    'Classes created by the class. Do not modify.'",
    py!"    @final",
    py!"    def __init__(self, strategies: ParsingStrategies=ParsingStrategies(), if_type_hint_exists: Literal['overwrite', 'validate']='overwrite') -> None:...",
    py!"" ]

/-- A method whose argument `class_name` and result get new types. -/
structure Method where
  name : Str
  pre : Str
  post : Str

def yamlMethod : Method :=
  { name := py!"from_yaml_file"
    pre := py!"    def from_yaml_file(self, loader: Callable[[PathT], ObjectT], path: PathT, *, class_name: "
    post := py!", comments_are: Optional[Union[YAML_COMMENTS_POSITION, Sequence[YAML_COMMENTS_POSITION]]]='side', **kwargs: Any) -> " }

def dataMethod : Method :=
  { name := py!"from_data"
    pre := py!"    def from_data(self, data: ObjectT, class_name: "
    post := py!", **kwargs: Any) -> " }

def Method.line (m : Method) (type result : Str) : Str := m.pre ++ type ++ m.post ++ result ++ py!":..."

/-- The method itself. -/
def Method.main (m : Method) : Str := m.line py!"str" py!"ObjectT"

/-- Its overload for a class. -/
def Method.overload (m : Method) (c : Str) : Str := m.line (py!"Literal[\"" ++ c ++ py!"\"]") c

def overloadLine : Str := py!"    @overload"
def overrideLine : Str := py!"    @override"

/-- Elements above a method: decorators, and overloads with decorators in the same element. The second list tells the classes. -/
inductive Elems (U : Uni) (m : Method) : List Str → List Str → Prop
  | nil : Elems U m [] []
  | deco {d S cs} : d = overloadLine ∨ d = overrideLine → Elems U m S cs → Elems U m (d :: S) cs
  | over {ds c S cs} : (∀ d ∈ ds, d = overloadLine ∨ d = overrideLine) → ClassName U c → Elems U m S cs →
      Elems U m (join py!"\n" (ds ++ [m.overload c]) :: S) (c :: cs)

def resetLines : List Str := [py!"", py!"    @classmethod", py!"    def reset(cls) -> None:..."]

/-- The line that imports a class from its file in the directory `build`. -/
def classImport (c : Str) : Str := py!"from lazy_type_hint.generators.build." ++ c ++ py!" import " ++ c

/-- The lines of a stub with registered classes `cs`, imports `is` and overloads `ys` and `ds`. -/
def IsStub (U : Uni) (cs is ys ds : List Str) (L : List Str) : Prop :=
  (∀ c ∈ cs, ClassName U c) ∧ (∀ c ∈ is, ClassName U c) ∧
  ∃ Y D tail, Elems U yamlMethod Y ys ∧ Elems U dataMethod D ds ∧ (tail = [] ∨ tail = [[]]) ∧
    L = is.map classImport ++ headLines ++ [registryLine cs] ++ initLines ++ (Y ++ [overrideLine, yamlMethod.main]) ++ [[]] ++
      (D ++ [overrideLine, dataMethod.main]) ++ resetLines ++ tail

end Verif.Spec
