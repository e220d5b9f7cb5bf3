import Verif.Py.Str
/-
The editor of stub files, `PyFileModifier` (lazy_type_hint/file_modifiers/py_file_modifier.py). A stub is a list of lines; an
inserted "line" may itself contain line breaks and stays one element until the file is read again.
-/
namespace Verif

/-- Exceptions of the editor: `IndexError` and `ValueError`. -/
inductive PyErr
  | index
  | value
  deriving DecidableEq

/-- `line.split(kw)[0]`: the text before the first occurrence, the whole line without one. -/
def textBefore (kw line : Str) : Str := match find kw line with
  | some i => line.take i
  | none => line

/-- `it_is_string` (py_file_modifier.py:94-98). -/
def itIsString (line kw : Str) : Bool := (textBefore kw line).contains '"' || (textBefore kw line).contains '\''

/-- The right-hand side of an assignment (py_file_modifier.py:43-45). -/
def assignedValue (line : Str) : Except PyErr Str :=
  let v := strip ((splitChar '=' line).getLastD [])
  match v with
  | [] => .error .index
  | c :: r => .ok (if c = '\'' ∨ c = '"' then r.dropLast else v)

/-- The test of `search_assignment` (py_file_modifier.py:42). -/
def isAssignment (var line : Str) : Bool := contains var line && line.contains '=' && !itIsString line var

/-- Worker of `search_assignment`; `i` is the index of the first line. -/
def searchAssignmentFrom (var : Str) : Nat → List Str → Except PyErr (List (Nat × Str))
  | _, [] => .ok []
  | i, line :: r =>
    if isAssignment var line then
      match assignedValue line with
      | .error e => .error e
      | .ok v => (searchAssignmentFrom var (i + 1) r).map ((i, v) :: ·)
    else searchAssignmentFrom var (i + 1) r

/-- `search_assignment` (py_file_modifier.py:28-50). -/
def searchAssignment (lines : List Str) (var : Str) : Except PyErr (List (Nat × Str)) := searchAssignmentFrom var 0 lines

/-- `replace_assignement` with a variable name (py_file_modifier.py:138-164). -/
def replaceAssignment (lines : List Str) (var value : Str) : Except PyErr (List Str) :=
  match searchAssignment lines var with
  | .error e => .error e
  | .ok [(i, _)] => .ok (lines.modify i (fun line => join py!"=" ((splitChar '=' line).dropLast ++ [value])))
  | .ok _ => .error .value

/-- The walk over decorators above a line (py_file_modifier.py:88-90). Simplified: for the first line the code looks at the last
line (index -1), here the walk ends. -/
def aboveDecorators (lines : List Str) : Nat → Nat
  | 0 => 0
  | i + 1 => if (lines.getD i []).contains '@' then aboveDecorators lines i else i + 1

/-- The test of `search_method` (py_file_modifier.py:87). -/
def isMethod (name line : Str) : Bool := startsWith (strip line) (py!"def " ++ name) && !itIsString line name

/-- `search_method(name, return_index_above_decorator=False)` (py_file_modifier.py:73-92); `i` is the index of the first line. -/
def searchMethodFrom (name : Str) : Nat → List Str → List Nat
  | _, [] => []
  | i, line :: r => if isMethod name line then i :: searchMethodFrom name (i + 1) r else searchMethodFrom name (i + 1) r

def searchMethod (lines : List Str) (name : Str) : List Nat := searchMethodFrom name 0 lines

/-- `search_method(name, return_index_above_decorator=True)`. -/
def searchMethodAbove (lines : List Str) (name : Str) : List Nat := (searchMethod lines name).map (aboveDecorators lines)

/-- `search_decorator` (py_file_modifier.py:52-71): looks only at the line directly above each method. Simplified as
`aboveDecorators` for a method in the first line. -/
def searchDecorator (lines : List Str) (deco name : Str) : List Nat :=
  (searchMethod lines name).filterMap (fun i => match i with
    | 0 => none
    | j + 1 => if contains ('@' :: deco) (lines.getD j []) then some j else none)

/-- `add_line` (py_file_modifier.py:100-111), `list.insert`. -/
def addLine (lines : List Str) (i : Nat) (line : Str) : List Str := lines.take i ++ line :: lines.drop i

/-- `add_imports` of one statement outside a type-checking block (py_file_modifier.py:250-269). -/
def addImport (lines : List Str) (line : Str) : List Str := line :: lines

/-- The walk to the end of a signature (py_file_modifier.py:286-287) over the lines from the first one on. -/
def signatureLines : List Str → Except PyErr (List Str)
  | [] => .error .index
  | line :: r => if line.contains ')' || line.contains ':' then .ok [line] else (signatureLines r).map (line :: ·)

/-- `get_signature` (py_file_modifier.py:271-289). -/
def getSignature (lines : List Str) (name : Str) : Except PyErr Str :=
  match (searchMethodAbove lines name).getLast? with
  | none => .error .index
  | some i => (signatureLines (lines.drop i)).map (join py!"\n")

/-- `search_line` (py_file_modifier.py:113-126). -/
def searchLine (kw : Str) : List Str → Except PyErr Nat
  | [] => .error .value
  | line :: r => if contains kw line then .ok 0 else (searchLine kw r).map (· + 1)

/-- `add_imports` (py_file_modifier.py:250-269). One statement is passed as a list of one. -/
def addImports (lines stmts : List Str) (inBlock : Bool) : Except PyErr (List Str) :=
  if inBlock then
    match searchLine py!"if TYPE_CHECKING:" lines with
    | .error e => .error e
    | .ok i => .ok ((stmts.map (TAB ++ ·)).foldr (fun line ls => addLine ls (i + 1) line) lines)
  else .ok (stmts.foldr (fun line ls => addLine ls 0 line) lines)

/-- `self.lines[i]`: negative indices count from the end. -/
def pyLine (lines : List Str) (i : Int) : Option Str :=
  if 0 ≤ i then lines[i.toNat]? else if 0 ≤ i + lines.length then lines[(i + lines.length).toNat]? else none

/-- Decorators above a private method (py_file_modifier.py:200-205): indices of lines with `@` from `i - 1` upwards. Above the
first line the code goes on with the last one. -/
def decoratorsAbove (lines : List Str) : Nat → Int → Except PyErr (List Int)
  | 0, _ => .error .index
  | fuel + 1, i =>
    match pyLine lines (i - 1) with
    | none => .error .index
    | some line => if line.contains '@' then (decoratorsAbove lines fuel (i - 1)).map ((i - 1) :: ·) else .ok []

/-- Index of the line that ends a signature (py_file_modifier.py:210-214), and the indices passed. -/
def signatureEnd (lines : List Str) : Nat → Nat → Except PyErr (Nat × List Nat)
  | 0, _ => .error .index
  | fuel + 1, i =>
    match lines[i]? with
    | none => .error .index
    | some line =>
      if contains py!"):" line || contains py!"->" line then .ok (i, [])
      else (signatureEnd lines fuel (i + 1)).map (fun (j, l) => (j, (i + 1) :: l))

/-- The body below a signature (py_file_modifier.py:225-230). -/
def bodyBelow (lines : List Str) (spaces : Nat) : Nat → Nat → List Nat
  | 0, _ => []
  | fuel + 1, i =>
    match lines[i]? with
    | none => []
    | some line => match line[spaces]? with
      | some c => if isSpace c then i :: bodyBelow lines spaces fuel (i + 1) else [i]
      | none => [i]

/-- Lines to remove for the private method in line `i` (py_file_modifier.py:197-230). -/
def privateLines (lines : List Str) (i : Nat) (line : Str) : Except PyErr (List Int) :=
  match decoratorsAbove lines (2 * lines.length + 2) i, signatureEnd lines (lines.length + 1) i with
  | .error e, _ | .ok _, .error e => .error e
  | .ok ds, .ok (j, args) =>
    let below := bodyBelow lines (line.takeWhile isSpace).length (lines.length + 1) (j + 1)
    .ok (ds ++ (i :: args ++ below).map Int.ofNat)

/-- Lines to remove, in the order in which they are found. -/
def allPrivateLines (lines : List Str) : Nat → List Str → Except PyErr (List Int)
  | _, [] => .ok []
  | i, line :: r =>
    if startsWith (strip line) py!"def _" && !startsWith (strip line) py!"def __" then
      match privateLines lines i line, allPrivateLines lines (i + 1) r with
      | .ok a, .ok b => .ok (a ++ b)
      | .error e, _ | .ok _, .error e => .error e
    else allPrivateLines lines (i + 1) r

/-- Insertion into a list sorted in descending order. -/
def insertDesc (i : Int) : List Int → List Int
  | [] => [i]
  | j :: r => if j ≤ i then i :: j :: r else j :: insertDesc i r

/-- `self.lines.pop(i)` for one index after the other (py_file_modifier.py:232-233). -/
def popAll (lines : List Str) : List Int → Except PyErr (List Str)
  | [] => .ok lines
  | i :: r =>
    let j := if 0 ≤ i then i else i + lines.length
    if 0 ≤ j ∧ j < lines.length then popAll (lines.eraseIdx j.toNat) r else .error .index

/-- `remove_all_private_methods` (py_file_modifier.py:186-233). -/
def removePrivate (lines : List Str) : Except PyErr (List Str) :=
  match allPrivateLines lines 0 lines with
  | .error e => .error e
  | .ok rm => popAll lines (rm.foldr insertDesc [])

/-- `remove_all_instance_variables` (py_file_modifier.py:235-248): keeps the line of `classes_created` and the one below. -/
def removeVariables (lines : List Str) (className : Str) : Except PyErr (List Str) :=
  match searchLine (py!"class " ++ className ++ py!"(") lines, (searchMethodAbove lines py!"__init__").getLast? with
  | .error e, _ => .error e
  | .ok _, none => .error .index
  | .ok u, some l =>
    .ok ((lines.zipIdx.filter (fun p => !(u + 1 ≤ p.2 ∧ p.2 < l) ||
      contains py!"classes_created" p.1 || contains py!"classes_created" (lines.getD (p.2 - 1) []))).map (·.1))

/-- The module lazy_type_hint/generators/lazy_type_hint_live.py after `remove_all_method_bodies` (py_file_modifier.py:166-184), as
Python 3.11 prints it: `ast.unparse` with every method body replaced by `...`. -/
def unparsedModule : List Str :=
  [ py!"import os",
    py!"import re",
    py!"import shutil",
    py!"from pathlib import Path",
    py!"from typing import Any, Callable, Dict, Final, Literal, Mapping, Optional, Sequence, TypeVar, Union, cast, final, overload",
    py!"from typing_extensions import TypeAlias, override",
    py!"from lazy_type_hint.data_type_tree import DataTypeTree",
    py!"from lazy_type_hint.file_modifiers.py_file_modifier import PyFileModifier",
    py!"from lazy_type_hint.file_modifiers.yaml_file_modifier import YAML_COMMENTS_POSITION",
    py!"from lazy_type_hint.generators.lazy_type_hint_abc import LazyTypeHintABC",
    py!"from lazy_type_hint.strategies import ParsingStrategies",
    py!"from lazy_type_hint.utils import TAB, is_string_python_keyword_compatible",
    py!"THIS_DIR = Path(__file__).parent",
    py!"",
    py!"class LazyTypeHintLiveError(Exception):",
    py!"    \"\"\"Raised by `LazyTypeHintLive` class.\"\"\"",
    py!"ObjectT = TypeVar('ObjectT')",
    py!"PathT = TypeVar('PathT', str, Path)",
    py!"",
    py!"class LazyTypeHintLive(LazyTypeHintABC):",
    py!"    \"\"\"Generate type hints for any data structure and use them out of the box.\"\"\"",
    py!"    this_file_pyi: PyFileModifier",
    py!"    '.pyi representation of this same module.'",
    py!"    strategies: ParsingStrategies",
    py!"    'Strategies to follow when parsing the objects.'",
    py!"    if_type_hint_exists: Literal['overwrite', 'validate']",
    py!"    'Strategy to follow if existing type hints were found for the same class name.'",
    py!"    classes_created: 'TypeAlias' = Any",
    py!"    'Classes created by the class. Do not modify.'",
    py!"    _methods_to_be_overloaded: Final = ('from_data', 'from_yaml_file')",
    py!"    'Methods that will be modified in the PYI interface when new classes are added.'",
    py!"    _this_file_pyi_path: Final = Path(__file__).with_suffix('.pyi')",
    py!"    'Path to the .pyi file associated to this same module.'",
    py!"    _custom_class_dir_path: Final = _this_file_pyi_path.parent / 'build'",
    py!"    'Path where the new classes will be generated.c'",
    py!"",
    py!"    @final",
    py!"    def __init__(self, strategies: ParsingStrategies=ParsingStrategies(), if_type_hint_exists: Literal['overwrite', 'validate']='overwrite') -> None:...",
    py!"",
    py!"    def _get_classes_added(self) -> Mapping[str, Path]:...",
    py!"",
    py!"    @override",
    py!"    def from_yaml_file(self, loader: Callable[[PathT], ObjectT], path: PathT, *, class_name: str, comments_are: Optional[Union[YAML_COMMENTS_POSITION, Sequence[YAML_COMMENTS_POSITION]]]='side', **kwargs: Any) -> ObjectT:...",
    py!"",
    py!"    @override",
    py!"    def from_data(self, data: ObjectT, class_name: str, **kwargs: Any) -> ObjectT:...",
    py!"",
    py!"    @staticmethod",
    py!"    def _remove_docstrings(string: str) -> str:...",
    py!"",
    py!"    @classmethod",
    py!"    def reset(cls) -> None:...",
    py!"",
    py!"    @final",
    py!"    def _generate_this_file_pyi(self) -> PyFileModifier:...",
    py!"",
    py!"    def _create_custom_class_py(self, string: str, class_name: str) -> None:...",
    py!"",
    py!"    @final",
    py!"    def _add_new_class_to_loader_pyi(self, *, new_class: str) -> None:...",
    py!"",
    py!"    @final",
    py!"    def _add_import_to_this_file_pyi(self, new_class: str) -> None:...",
    py!"",
    py!"    @final",
    py!"    def _add_overload_to_this_file_pyi(self, *, new_class: str, method_name: str, input_argument: str='class_name') -> None:...",
    py!"",
    py!"    @final",
    py!"    def _add_class_created_to_this_file_pyi(self, new_class: str) -> None:...",
    py!"",
    py!"    @final",
    py!"    def _update_this_file_pyi(self) -> None:..." ]

/-- `_generate_this_file_pyi` (generators/lazy_type_hint_live.py:165-173). -/
def generateStub : Except PyErr (List Str) :=
  match removePrivate unparsedModule with
  | .error e => .error e
  | .ok lines => removeVariables lines py!"LazyTypeHintLive"

end Verif
