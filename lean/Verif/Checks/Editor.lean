import Verif.Checks.Trees
import Verif.Model.PyFile
import Verif.Model.OrderedSet
import Verif.Model.Cache
/-
Expected values of the repository's unit tests for frames, series, functions, the utilities and the editor of stub files,
evaluated in the model. These are tests of the reading of the code, not proofs of properties.
-/
namespace Verif.Checks
open Verif

/-! test_utils/test_docstring_formatter.py, test_split_string -/
example : ([(py!"This is a test", 90, [py!"This is a test"]),
  (py!"This is a test", 10, [py!"This is a", py!"test"]),
  (py!"", 90, [py!""]),
  (py!"Thisisatest", 2, [py!"Thisisatest"]),
  (py!"Hello\nworld", 90, [py!"Hello", py!"world"]),
  (py!"Hello\n\nworld", 90, [py!"Hello", py!"", py!"world"]),
  (py!"This Thisisatest", 6, [py!"This", py!"Thisisatest"])] : List _).all (fun c => splitString c.1 c.2.1 == c.2.2) = true := by decide +kernel

/-! test_utils/test_docstring_formatter.py, test_format_string_as_docstring -/
example : ([(py!"This is a test", 21, py!"", py!"\"\"\"This is a test.\"\"\""),
  (py!"This is a test", 10, py!"", py!"\"\"\"\nThis is a\ntest.\n\"\"\""),
  (py!"Thisisatest", 10, py!"", py!"\"\"\"Thisisatest.\"\"\""),
  (py!"Thisisatest with mix words", 10, py!"", py!"\"\"\"\nThisisatest\nwith mix\nwords.\n\"\"\""),
  (py!"Thisisatest\n", 10, py!"", py!"\"\"\"Thisisatest.\"\"\""),
  (py!"Hello\nworld\n", 90, py!"", py!"\"\"\"\nHello\nworld.\n\"\"\""),
  (py!"Thisisatest with mix words\n", 10, py!"", py!"\"\"\"\nThisisatest\nwith mix\nwords.\n\"\"\""),
  (py!"This is a test", 21, py!" ", py!" \"\"\"This is a test.\"\"\""),
  (py!"This is a test", 10, py!" ", py!" \"\"\"\n This is a\n test.\n \"\"\""),
  (py!"Thisisatest", 10, py!" ", py!" \"\"\"Thisisatest.\"\"\""),
  (py!"Thisisatest with mix words", 10, py!" ", py!" \"\"\"\n Thisisatest\n with mix\n words.\n \"\"\""),
  (py!"Thisisatest\n", 10, py!" ", py!" \"\"\"Thisisatest.\"\"\""),
  (py!"Hello\nworld\n", 90, py!" ", py!" \"\"\"\n Hello\n world.\n \"\"\""),
  (py!"Thisisatest with mix words\n", 10, py!" ", py!" \"\"\"\n Thisisatest\n with mix\n words.\n \"\"\"")] : List _).all (fun c => formatDoc c.1 c.2.1 c.2.2.1 == c.2.2.2) = true := by decide +kernel

/-! test_utils/test_utils.py, test_is_string_python_keyword_compatible -/
example : ([(py!"build0", true),
  (py!"bu_ild", true),
  (py!"_build0", true),
  (py!".build", false),
  (py!"bu.ild", false),
  (py!"bu ild", false),
  (py!"0build", false),
  (py!" build", false)] : List _).all (fun c => nameOk asciiUni c.1 == c.2) = true := by decide +kernel

/-! test_utils/test_import_manager.py, TestAllUnknownSymbolsFromSignature -/
example : ([(py!"", []),
  (py!"def (a: float):", []),
  (py!"def (a: float, b: float):", []),
  (py!"def (a: float, /, b: float):", []),
  (py!"def (a: float, *, b: float):", []),
  (py!"def (a: Sequence[int]):", [py!"Sequence"]),
  (py!"def (a: Sequence[int]) -> int:", [py!"Sequence"]),
  (py!"def (a: Sequence[int]) -> Tuple[int, ...]:", [py!"Sequence", py!"tuple"])] : List _).all (fun c => sameElems (dedup (sigImports asciiUni c.1)) (c.2 : List Str)) = true := by decide +kernel

/-! test_utils/test_import_manager.py, TestFormatSinglePackage, TestFormat -/
example : formatPackage 80 py!"typing" [py!"List", py!"Tuple", py!"Dict"] = py!"from typing import Dict, List, Tuple" := by
  decide +kernel
example : formatPackage 30 py!"typing" [py!"List", py!"Tuple", py!"Dict"] =
    py!"from typing import (\n    Dict,\n    List,\n    Tuple,\n)" := by decide +kernel
example : formatImports 120 [py!"list", py!"tuple", py!"dict", py!"MappingProxyType"] =
    .ok py!"from types import MappingProxyType\nfrom typing import Dict, List, Tuple" := by decide +kernel
example : formatImports 35 [py!"list", py!"tuple", py!"dict", py!"MappingProxyType"] =
    .ok py!"from types import MappingProxyType\nfrom typing import (\n    Dict,\n    List,\n    Tuple,\n)" := by decide +kernel
example : formatImports 80 [] = .ok [] := by decide +kernel

/-! test_utils/test_ordered_set.py -/
example : (OSet.ofAdds [1, 2, 3, 2]).asList = [1, 2, 3] := by decide +kernel

/-! test_utils/test_utils.py, TestCacheReturnedValue -/
example : cachedRun (fun x : Nat => (.ok x : Except Unit Nat)) none [10, 20] = [.ok 10, .ok 10] := by rfl

/-- The text of the fixture `file_handler` number 1. -/
def fixture1 : List Str := [py!"class LazyTypeHint:",
  py!"loader_pyi: str",
  py!"classes_created: \"TypeAlias\" = Any",
  py!"custom_class_dir: Final = \"build\"",
  py!"number: Final = 2",
  py!"tab: Final = \"    \"",
  py!"",
  py!"@final",
  py!"def __init__(self) -> None:",
  py!"    self.loader_pyi_path = Path(__file__).with_suffix(\".pyi\")",
  py!"    if not self.loader_pyi_path.exists():",
  py!"        self.loaded_pyi_content = self.generate_loader_pyi()",
  py!"    else:",
  py!"        self.loaded_pyi_content = self.loader_pyi_path.read_text(encoding=\"utf-8\")",
  py!"",
  py!"def get_classes_added(self) -> Set[str]:",
  py!"    to_find = \"classes_created\"",
  py!"    for line in self.loaded_pyi_content.splitlines():",
  py!"        if \"classes_created\" in line:",
  py!"            break",
  py!"    else:",
  py!"        raise LazyTypeHintError(f\"No `{to_find}` was found in this file.\")",
  py!"",
  py!"    value = line.split(\"=\")[-1].strip()",
  py!"    if value == \"Any\":",
  py!"        return set()",
  py!"    pattern = r'\"(.*?)\"'",
  py!"    matches = re.findall(pattern, value)",
  py!"    return set(matches)",
  py!"",
  py!"@staticmethod",
  py!"def test(self) -> None:",
  py!"    ...",
  py!"",
  py!"@staticmethod",
  py!"def _find_line_idx(string: str, *, keyword: str) -> int:",
  py!"    for idx, line in enumerate(string.splitlines()):",
  py!"        if keyword in line and \"test\" not in line and \"@overload\" not in line:",
  py!"            return idx",
  py!"    raise LazyTypeHintError(",
  py!"        f\"It was not possible to find {keyword} among the lines of the given string.\"",
  py!"    )",
  py!"    ",
  py!"@overload",
  py!"def run():",
  py!"    pass",
  py!"",
  py!"@overload",
  py!"def run():",
  py!"    pass"]

/-- The text of the fixture `file_handler` number 2. -/
def fixture2 : List Str := [py!"",
  py!"",
  py!"def method1():",
  py!"    pass",
  py!"",
  py!"def method2(value: int):",
  py!"    return 2+2",
  py!"",
  py!"def _method2(value: int):...",
  py!"",
  py!"class LazyTypeHint:",
  py!"",
  py!"    @overload",
  py!"    def _method3(self, a: int) -> None: ",
  py!"        pass",
  py!"",
  py!"    @overload",
  py!"    def _method4(self, a: int): ",
  py!"        pass",
  py!"",
  py!"    def _method5(self,",
  py!"        a: int,",
  py!"    ): ",
  py!"        pass",
  py!"",
  py!"    @overload",
  py!"    def method3(self):",
  py!"        pass"]

/-- The last piece of the line of the first assignment to a variable is the wanted value after `replace_assignement`. -/
def replacedIs (c : Str × Str) : Bool :=
  match replaceAssignment fixture1 c.1 c.2 with
  | .error _ => false
  | .ok ls => match searchAssignment ls c.1 with
    | .ok ((i, _) :: _) => strip ((splitChar '=' (ls.getD i [])).getLastD []) == c.2
    | _ => false

/-! test_file_modifiers/test_file_modifier/test_py_file_modifier.py, test_search_decorator -/
example : ([(py!"staticmethod", py!"test", [30]),
  (py!"overload", py!"run", [43, 47]),
  (py!"new_decorator", py!"run", []),
  (py!"final", py!"__init__", [7]),
  (py!"final", py!"new_method", [])] : List _).all (fun c => searchDecorator fixture1 c.1 c.2.1 == c.2.2) = true := by decide +kernel

/-! test_file_modifiers/test_file_modifier/test_py_file_modifier.py, test_search_method -/
example : ([(py!"__init__", false, [8]),
  (py!"__init__", true, [7]),
  (py!"test", false, [31]),
  (py!"test", true, [30]),
  (py!"_find_line_idx", false, [35]),
  (py!"_find_line_idx", true, [34]),
  (py!"run", false, [44, 48]),
  (py!"run", true, [43, 47])] : List _).all (fun c => (if c.2.1 then searchMethodAbove fixture1 c.1 else searchMethod fixture1 c.1) == c.2.2) = true := by decide +kernel

/-! test_file_modifiers/test_file_modifier/test_py_file_modifier.py, test_it_is_string -/
example : ([(py!"def test()", py!"test", false),
  (py!"'def' test()", py!"test", true)] : List _).all (fun c => itIsString c.1 c.2.1 == c.2.2) = true := by decide +kernel

/-! test_file_modifiers/test_file_modifier/test_py_file_modifier.py, test_add_line -/
example : ([(py!"def test()", 30),
  (py!"@overload", 40)] : List _).all (fun c => (addLine fixture1 c.2 c.1)[c.2]? == some c.1 && (addLine fixture1 c.2 c.1).length == fixture1.length + 1) = true := by decide +kernel

/-! test_file_modifiers/test_file_modifier/test_py_file_modifier.py, test_search_assignement -/
example : ([(py!"custom_class_dir", [(3, py!"build")]),
  (py!"classes_created", [(2, py!"Any")]),
  (py!"number", [(4, py!"2")]),
  (py!"tab", [(5, py!"    ")]),
  (py!"new", [])] : List _).all (fun c => match searchAssignment fixture1 c.1 with
  | .ok l => l == c.2
  | .error _ => false) = true := by decide +kernel

/-! test_file_modifiers/test_file_modifier/test_py_file_modifier.py, test_search_line -/
example : ([(py!"number", 4),
  (py!"def", 8)] : List _).all (fun c => match searchLine c.1 fixture1 with
  | .ok i => i == c.2
  | .error _ => false) = true := by decide +kernel

/-! test_file_modifiers/test_file_modifier/test_py_file_modifier.py, test_replace_assignment (with variable names) -/
example : ([(py!"classes_created", py!"float"),
  (py!"tab", py!"2")] : List _).all replacedIs = true := by decide +kernel

/-! test_file_modifiers/test_file_modifier/test_py_file_modifier.py, test_get_signature -/
example : ([(py!"__init__", py!"@final\ndef __init__(self) -> None:"),
  (py!"get_classes_added", py!"def get_classes_added(self) -> Set[str]:")] : List _).all (fun c => match getSignature fixture1 c.1 with
  | .ok s => s == c.2
  | .error _ => false) = true := by decide +kernel

/-! test_file_modifiers/test_file_modifier/test_py_file_modifier.py, test_remove_private_methods -/
example : removePrivate fixture2 = .ok [py!"",
  py!"",
  py!"def method1():",
  py!"    pass",
  py!"",
  py!"def method2(value: int):",
  py!"    return 2+2",
  py!"",
  py!"class LazyTypeHint:",
  py!"",
  py!"    @overload",
  py!"    def method3(self):",
  py!"        pass"] := by decide +kernel

/-! test_data_type/test_generic_data_type_tree/test_pandas_data_frame_data_type_tree.py, TestGetStrPyForAutocomplete -/
example : ([⟨{ pandas := .autocomplete }, py!"Example", .map (.frame ⟨py!"Index([])", true⟩) ⟨py!"DataFrame", 0⟩ [] [],
    py!"Example: TypeAlias = pd.DataFrame", some 0⟩,
  ⟨{ pandas := .autocomplete }, py!"Example", .map (.frame ⟨py!"Index([frozenset({1, 2})])", false⟩) ⟨py!"DataFrame", 0⟩ [] [],
    py!"Example: TypeAlias = pd.DataFrame", some 0⟩,
  ⟨{ pandas := .autocomplete }, py!"Example", .map (.frame ⟨py!"Index([1])", true⟩) ⟨py!"DataFrame", 0⟩ [.other .int py!"1"] [.seq .series ⟨py!"Series", 0⟩ [.inst .int none, .inst .int none, .inst .int none]],
    py!"class Example(pd.DataFrame):\n\n    @overload  # type: ignore\n    def __getitem__(self, key: Literal[1]) -> pd.Series[int]:\n        ...\n\n    @overload\n    def __getitem__(\n        self,\n        key: Union[\n            \"pd.Series[bool]\",\n            str,\n            pd.DataFrame,\n            pd.Index,\n            npt.NDArray[np.bool_],\n            npt.NDArray[np.str_],\n            List[Union[Scalar, Tuple[Hashable, ...]]],\n        ],\n    ) -> Union[pd.Series, pd.DataFrame]:\n        ...\n\n    def __getitem__(\n        self,\n        key: Union[\n            \"pd.Series[bool]\",\n            str,\n            pd.DataFrame,\n            pd.Index,\n            npt.NDArray[np.bool_],\n            npt.NDArray[np.str_],\n            List[Union[Scalar, Tuple[Hashable, ...]]],\n        ],\n    ) -> Union[pd.Series, pd.DataFrame]:\n        return super().__getitem__(key)", some 1⟩,
  ⟨{ pandas := .autocomplete }, py!"Example", .map (.frame ⟨py!"Index(['values'])", true⟩) ⟨py!"DataFrame", 0⟩ [.str py!"values"] [.seq .series ⟨py!"Series", 0⟩ [.inst .int none, .inst .int none, .inst .int none]],
    py!"class Example(pd.DataFrame):\n\n    @overload  # type: ignore\n    def __getitem__(self, key: Literal['values']) -> pd.Series[int]:\n        ...\n\n    @overload\n    def __getitem__(\n        self,\n        key: Union[\n            \"pd.Series[bool]\",\n            str,\n            pd.DataFrame,\n            pd.Index,\n            npt.NDArray[np.bool_],\n            npt.NDArray[np.str_],\n            List[Union[Scalar, Tuple[Hashable, ...]]],\n        ],\n    ) -> Union[pd.Series, pd.DataFrame]:\n        ...\n\n    def __getitem__(\n        self,\n        key: Union[\n            \"pd.Series[bool]\",\n            str,\n            pd.DataFrame,\n            pd.Index,\n            npt.NDArray[np.bool_],\n            npt.NDArray[np.str_],\n            List[Union[Scalar, Tuple[Hashable, ...]]],\n        ],\n    ) -> Union[pd.Series, pd.DataFrame]:\n        return super().__getitem__(key)", some 1⟩,
  ⟨{ pandas := .autocomplete }, py!"Example", .map (.frame ⟨py!"Index(['A', 'C'])", true⟩) ⟨py!"DataFrame", 0⟩ [.str py!"A", .str py!"C"] [.seq .series ⟨py!"Series", 0⟩ [.inst .int none, .inst .int none, .inst .int none], .seq .series ⟨py!"Series", 0⟩ [.inst .int none, .inst .int none, .inst .int none]],
    py!"class Example(pd.DataFrame):\n\n    @overload  # type: ignore\n    def __getitem__(self, key: Literal['A']) -> pd.Series[int]:\n        ...\n\n    @overload  # type: ignore\n    def __getitem__(self, key: Literal['C']) -> pd.Series[int]:\n        ...\n\n    @overload\n    def __getitem__(\n        self,\n        key: Union[\n            \"pd.Series[bool]\",\n            str,\n            pd.DataFrame,\n            pd.Index,\n            npt.NDArray[np.bool_],\n            npt.NDArray[np.str_],\n            List[Union[Scalar, Tuple[Hashable, ...]]],\n        ],\n    ) -> Union[pd.Series, pd.DataFrame]:\n        ...\n\n    def __getitem__(\n        self,\n        key: Union[\n            \"pd.Series[bool]\",\n            str,\n            pd.DataFrame,\n            pd.Index,\n            npt.NDArray[np.bool_],\n            npt.NDArray[np.str_],\n            List[Union[Scalar, Tuple[Hashable, ...]]],\n        ],\n    ) -> Union[pd.Series, pd.DataFrame]:\n        return super().__getitem__(key)", some 2⟩,
  ⟨{ pandas := .autocomplete }, py!"Example", .map (.frame ⟨py!"Index([('A', 'B'), ('C', 'D')])", true⟩) ⟨py!"DataFrame", 0⟩ [.str py!"A", .str py!"C"] [.map (.frame ⟨py!"Index(['B'])", true⟩) ⟨py!"DataFrame", 0⟩ [.str py!"B"] [.seq .series ⟨py!"Series", 0⟩ [.inst .int none, .inst .int none, .inst .int none]], .map (.frame ⟨py!"Index(['D'])", true⟩) ⟨py!"DataFrame", 0⟩ [.str py!"D"] [.seq .series ⟨py!"Series", 0⟩ [.inst .int none, .inst .int none, .inst .int none]]],
    py!"class Example(pd.DataFrame):\n\n    @overload  # type: ignore\n    def __getitem__(self, key: Literal['A']) -> ExampleA:\n        ...\n\n    @overload  # type: ignore\n    def __getitem__(self, key: Literal['C']) -> ExampleC:\n        ...\n\n    @overload\n    def __getitem__(\n        self,\n        key: Union[\n            \"pd.Series[bool]\",\n            str,\n            pd.DataFrame,\n            pd.Index,\n            npt.NDArray[np.bool_],\n            npt.NDArray[np.str_],\n            List[Union[Scalar, Tuple[Hashable, ...]]],\n        ],\n    ) -> Union[pd.Series, pd.DataFrame]:\n        ...\n\n    def __getitem__(\n        self,\n        key: Union[\n            \"pd.Series[bool]\",\n            str,\n            pd.DataFrame,\n            pd.Index,\n            npt.NDArray[np.bool_],\n            npt.NDArray[np.str_],\n            List[Union[Scalar, Tuple[Hashable, ...]]],\n        ],\n    ) -> Union[pd.Series, pd.DataFrame]:\n        return super().__getitem__(key)", some 2⟩,
  ⟨{ pandas := .autocomplete }, py!"Example", .map (.frame ⟨py!"Index([('A', 'B'), ('C',)])", true⟩) ⟨py!"DataFrame", 0⟩ [.str py!"A", .str py!"C"] [.map (.frame ⟨py!"Index(['B'])", true⟩) ⟨py!"DataFrame", 0⟩ [.str py!"B"] [.seq .series ⟨py!"Series", 0⟩ [.inst .int none, .inst .int none, .inst .int none]], .map (.frame ⟨py!"Index([frozenset({})])", false⟩) ⟨py!"DataFrame", 0⟩ [] []],
    py!"class Example(pd.DataFrame):\n\n    @overload  # type: ignore\n    def __getitem__(self, key: Literal['A']) -> ExampleA:\n        ...\n\n    @overload  # type: ignore\n    def __getitem__(self, key: Literal['C']) -> pd.DataFrame:\n        ...\n\n    @overload\n    def __getitem__(\n        self,\n        key: Union[\n            \"pd.Series[bool]\",\n            str,\n            pd.DataFrame,\n            pd.Index,\n            npt.NDArray[np.bool_],\n            npt.NDArray[np.str_],\n            List[Union[Scalar, Tuple[Hashable, ...]]],\n        ],\n    ) -> Union[pd.Series, pd.DataFrame]:\n        ...\n\n    def __getitem__(\n        self,\n        key: Union[\n            \"pd.Series[bool]\",\n            str,\n            pd.DataFrame,\n            pd.Index,\n            npt.NDArray[np.bool_],\n            npt.NDArray[np.str_],\n            List[Union[Scalar, Tuple[Hashable, ...]]],\n        ],\n    ) -> Union[pd.Series, pd.DataFrame]:\n        return super().__getitem__(key)", some 2⟩,
  ⟨{ pandas := .autocomplete }, py!"Example", .map (.frame ⟨py!"Index([('A', frozenset({1})), ('C',)])", true⟩) ⟨py!"DataFrame", 0⟩ [.str py!"A", .str py!"C"] [.map (.frame ⟨py!"Index([frozenset({1})])", false⟩) ⟨py!"DataFrame", 0⟩ [] [], .map (.frame ⟨py!"Index([frozenset({})])", false⟩) ⟨py!"DataFrame", 0⟩ [] []],
    py!"class Example(pd.DataFrame):\n\n    @overload  # type: ignore\n    def __getitem__(self, key: Literal['A']) -> pd.DataFrame:\n        ...\n\n    @overload  # type: ignore\n    def __getitem__(self, key: Literal['C']) -> pd.DataFrame:\n        ...\n\n    @overload\n    def __getitem__(\n        self,\n        key: Union[\n            \"pd.Series[bool]\",\n            str,\n            pd.DataFrame,\n            pd.Index,\n            npt.NDArray[np.bool_],\n            npt.NDArray[np.str_],\n            List[Union[Scalar, Tuple[Hashable, ...]]],\n        ],\n    ) -> Union[pd.Series, pd.DataFrame]:\n        ...\n\n    def __getitem__(\n        self,\n        key: Union[\n            \"pd.Series[bool]\",\n            str,\n            pd.DataFrame,\n            pd.Index,\n            npt.NDArray[np.bool_],\n            npt.NDArray[np.str_],\n            List[Union[Scalar, Tuple[Hashable, ...]]],\n        ],\n    ) -> Union[pd.Series, pd.DataFrame]:\n        return super().__getitem__(key)", some 2⟩,
  ⟨{ pandas := .autocomplete }, py!"Example", .map (.frame ⟨py!"Index([(2, 'A'), ('C',)])", true⟩) ⟨py!"DataFrame", 0⟩ [.other .int py!"2", .str py!"C"] [.map (.frame ⟨py!"Index(['A'])", true⟩) ⟨py!"DataFrame", 0⟩ [.str py!"A"] [.seq .series ⟨py!"Series", 0⟩ [.inst .int none, .inst .int none, .inst .int none]], .map (.frame ⟨py!"Index([frozenset({})])", false⟩) ⟨py!"DataFrame", 0⟩ [] []],
    py!"class Example(pd.DataFrame):\n\n    @overload  # type: ignore\n    def __getitem__(self, key: Literal[2]) -> Example2:\n        ...\n\n    @overload  # type: ignore\n    def __getitem__(self, key: Literal['C']) -> pd.DataFrame:\n        ...\n\n    @overload\n    def __getitem__(\n        self,\n        key: Union[\n            \"pd.Series[bool]\",\n            str,\n            pd.DataFrame,\n            pd.Index,\n            npt.NDArray[np.bool_],\n            npt.NDArray[np.str_],\n            List[Union[Scalar, Tuple[Hashable, ...]]],\n        ],\n    ) -> Union[pd.Series, pd.DataFrame]:\n        ...\n\n    def __getitem__(\n        self,\n        key: Union[\n            \"pd.Series[bool]\",\n            str,\n            pd.DataFrame,\n            pd.Index,\n            npt.NDArray[np.bool_],\n            npt.NDArray[np.str_],\n            List[Union[Scalar, Tuple[Hashable, ...]]],\n        ],\n    ) -> Union[pd.Series, pd.DataFrame]:\n        return super().__getitem__(key)", some 2⟩,
  ⟨{ pandas := .autocomplete }, py!"Example", .map (.frame ⟨py!"Index([(True, 'A'), ('C',)])", true⟩) ⟨py!"DataFrame", 0⟩ [.other .bool py!"True", .str py!"C"] [.map (.frame ⟨py!"Index(['A'])", true⟩) ⟨py!"DataFrame", 0⟩ [.str py!"A"] [.seq .series ⟨py!"Series", 0⟩ [.inst .int none, .inst .int none, .inst .int none]], .map (.frame ⟨py!"Index([frozenset({})])", false⟩) ⟨py!"DataFrame", 0⟩ [] []],
    py!"class Example(pd.DataFrame):\n\n    @overload  # type: ignore\n    def __getitem__(self, key: Literal[True]) -> ExampleTrue:\n        ...\n\n    @overload  # type: ignore\n    def __getitem__(self, key: Literal['C']) -> pd.DataFrame:\n        ...\n\n    @overload\n    def __getitem__(\n        self,\n        key: Union[\n            \"pd.Series[bool]\",\n            str,\n            pd.DataFrame,\n            pd.Index,\n            npt.NDArray[np.bool_],\n            npt.NDArray[np.str_],\n            List[Union[Scalar, Tuple[Hashable, ...]]],\n        ],\n    ) -> Union[pd.Series, pd.DataFrame]:\n        ...\n\n    def __getitem__(\n        self,\n        key: Union[\n            \"pd.Series[bool]\",\n            str,\n            pd.DataFrame,\n            pd.Index,\n            npt.NDArray[np.bool_],\n            npt.NDArray[np.str_],\n            List[Union[Scalar, Tuple[Hashable, ...]]],\n        ],\n    ) -> Union[pd.Series, pd.DataFrame]:\n        return super().__getitem__(key)", some 2⟩,
  ⟨{ pandas := .autocomplete }, py!"Example", .map (.frame ⟨py!"Index([('A', 'B'), 'C'])", false⟩) ⟨py!"DataFrame", 0⟩ [.other .tuple py!"('A', 'B')", .str py!"C"] [.seq .series ⟨py!"Series", 0⟩ [.inst .int none, .inst .int none, .inst .int none], .seq .series ⟨py!"Series", 0⟩ [.inst .int none, .inst .int none, .inst .int none]],
    py!"class Example(pd.DataFrame):\n\n    @overload  # type: ignore\n    def __getitem__(self, key: Literal['C']) -> pd.Series[int]:\n        ...\n\n    @overload\n    def __getitem__(\n        self,\n        key: Union[\n            \"pd.Series[bool]\",\n            str,\n            pd.DataFrame,\n            pd.Index,\n            npt.NDArray[np.bool_],\n            npt.NDArray[np.str_],\n            List[Union[Scalar, Tuple[Hashable, ...]]],\n        ],\n    ) -> Union[pd.Series, pd.DataFrame]:\n        ...\n\n    def __getitem__(\n        self,\n        key: Union[\n            \"pd.Series[bool]\",\n            str,\n            pd.DataFrame,\n            pd.Index,\n            npt.NDArray[np.bool_],\n            npt.NDArray[np.str_],\n            List[Union[Scalar, Tuple[Hashable, ...]]],\n        ],\n    ) -> Union[pd.Series, pd.DataFrame]:\n        return super().__getitem__(key)", some 2⟩,
  ⟨{ pandas := .autocomplete }, py!"Example", .map (.frame ⟨py!"Index([('A', 'B'), ('C', 1)])", true⟩) ⟨py!"DataFrame", 0⟩ [.str py!"A", .str py!"C"] [.map (.frame ⟨py!"Index(['B'])", true⟩) ⟨py!"DataFrame", 0⟩ [.str py!"B"] [.seq .series ⟨py!"Series", 0⟩ [.inst .int none, .inst .int none, .inst .int none]], .map (.frame ⟨py!"Index([1])", true⟩) ⟨py!"DataFrame", 0⟩ [.other .int py!"1"] [.seq .series ⟨py!"Series", 0⟩ [.inst .int none, .inst .int none, .inst .int none]]],
    py!"class Example(pd.DataFrame):\n\n    @overload  # type: ignore\n    def __getitem__(self, key: Literal['A']) -> ExampleA:\n        ...\n\n    @overload  # type: ignore\n    def __getitem__(self, key: Literal['C']) -> ExampleC:\n        ...\n\n    @overload\n    def __getitem__(\n        self,\n        key: Union[\n            \"pd.Series[bool]\",\n            str,\n            pd.DataFrame,\n            pd.Index,\n            npt.NDArray[np.bool_],\n            npt.NDArray[np.str_],\n            List[Union[Scalar, Tuple[Hashable, ...]]],\n        ],\n    ) -> Union[pd.Series, pd.DataFrame]:\n        ...\n\n    def __getitem__(\n        self,\n        key: Union[\n            \"pd.Series[bool]\",\n            str,\n            pd.DataFrame,\n            pd.Index,\n            npt.NDArray[np.bool_],\n            npt.NDArray[np.str_],\n            List[Union[Scalar, Tuple[Hashable, ...]]],\n        ],\n    ) -> Union[pd.Series, pd.DataFrame]:\n        return super().__getitem__(key)", some 2⟩,
  ⟨{ pandas := .autocomplete }, py!"Example", .map (.frame ⟨py!"Index(['A', 2])", true⟩) ⟨py!"DataFrame", 0⟩ [.str py!"A", .other .int py!"2"] [.seq .series ⟨py!"Series", 0⟩ [.inst .int none], .seq .series ⟨py!"Series", 0⟩ [.inst .int none]],
    py!"class Example(pd.DataFrame):\n\n    @overload  # type: ignore\n    def __getitem__(self, key: Literal['A']) -> pd.Series[int]:\n        ...\n\n    @overload  # type: ignore\n    def __getitem__(self, key: Literal[2]) -> pd.Series[int]:\n        ...\n\n    @overload\n    def __getitem__(\n        self,\n        key: Union[\n            \"pd.Series[bool]\",\n            str,\n            pd.DataFrame,\n            pd.Index,\n            npt.NDArray[np.bool_],\n            npt.NDArray[np.str_],\n            List[Union[Scalar, Tuple[Hashable, ...]]],\n        ],\n    ) -> Union[pd.Series, pd.DataFrame]:\n        ...\n\n    def __getitem__(\n        self,\n        key: Union[\n            \"pd.Series[bool]\",\n            str,\n            pd.DataFrame,\n            pd.Index,\n            npt.NDArray[np.bool_],\n            npt.NDArray[np.str_],\n            List[Union[Scalar, Tuple[Hashable, ...]]],\n        ],\n    ) -> Union[pd.Series, pd.DataFrame]:\n        return super().__getitem__(key)", some 2⟩,
  ⟨{ pandas := .autocomplete }, py!"Example", .map (.frame ⟨py!"Index([('A',), 2])", false⟩) ⟨py!"DataFrame", 0⟩ [.other .tuple py!"('A',)", .other .int py!"2"] [.seq .series ⟨py!"Series", 0⟩ [.inst .int none], .seq .series ⟨py!"Series", 0⟩ [.inst .int none]],
    py!"class Example(pd.DataFrame):\n\n    @overload  # type: ignore\n    def __getitem__(self, key: Literal[2]) -> pd.Series[int]:\n        ...\n\n    @overload\n    def __getitem__(\n        self,\n        key: Union[\n            \"pd.Series[bool]\",\n            str,\n            pd.DataFrame,\n            pd.Index,\n            npt.NDArray[np.bool_],\n            npt.NDArray[np.str_],\n            List[Union[Scalar, Tuple[Hashable, ...]]],\n        ],\n    ) -> Union[pd.Series, pd.DataFrame]:\n        ...\n\n    def __getitem__(\n        self,\n        key: Union[\n            \"pd.Series[bool]\",\n            str,\n            pd.DataFrame,\n            pd.Index,\n            npt.NDArray[np.bool_],\n            npt.NDArray[np.str_],\n            List[Union[Scalar, Tuple[Hashable, ...]]],\n        ],\n    ) -> Union[pd.Series, pd.DataFrame]:\n        return super().__getitem__(key)", some 2⟩] : List _).all topIs = true := by decide +kernel

/-! test_data_type/test_generic_data_type_tree/test_pandas_data_frame_data_type_tree.py, TestGetStrPyFullTypeHint -/
example : ([⟨{ pandas := .full }, py!"Example", .map (.frame ⟨py!"Index([])", true⟩) ⟨py!"DataFrame", 0⟩ [] [],
    py!"Example: TypeAlias = pd.DataFrame", some 0⟩,
  ⟨{ pandas := .full }, py!"Example", .map (.frame ⟨py!"Index([1])", true⟩) ⟨py!"DataFrame", 0⟩ [.other .int py!"1"] [.seq .series ⟨py!"Series", 0⟩ [.inst .int none, .inst .int none, .inst .int none]],
    py!"class Example(pd.DataFrame):\n\n    @overload  # type: ignore\n    def __getitem__(self, key: Literal[1]) -> pd.Series[int]:\n        ...\n\n    def __getitem__(\n        self,\n        key: Union[\n            Literal[1],\n            npt.NDArray[np.bool_],\n            npt.NDArray[np.str_],\n            List[Union[Scalar, Tuple[Hashable, ...]]],\n        ],\n    ) -> Union[pd.Series, pd.DataFrame]:\n        return super().__getitem__(key)", some 1⟩,
  ⟨{ pandas := .full }, py!"Example", .map (.frame ⟨py!"Index([frozenset({1, 2})])", false⟩) ⟨py!"DataFrame", 0⟩ [] [],
    py!"Example: TypeAlias = pd.DataFrame", some 0⟩,
  ⟨{ pandas := .full }, py!"Example", .map (.frame ⟨py!"Index([frozenset({1, 2}), 'A'])", false⟩) ⟨py!"DataFrame", 0⟩ [] [],
    py!"Example: TypeAlias = pd.DataFrame", some 0⟩,
  ⟨{ pandas := .full }, py!"Example", .map (.frame ⟨py!"Index(['values'])", true⟩) ⟨py!"DataFrame", 0⟩ [.str py!"values"] [.seq .series ⟨py!"Series", 0⟩ [.inst .int none, .inst .int none, .inst .int none]],
    py!"class Example(pd.DataFrame):\n\n    @overload  # type: ignore\n    def __getitem__(self, key: Literal['values']) -> pd.Series[int]:\n        ...\n\n    def __getitem__(\n        self,\n        key: Union[\n            Literal['values'],\n            npt.NDArray[np.bool_],\n            npt.NDArray[np.str_],\n            List[Union[Scalar, Tuple[Hashable, ...]]],\n        ],\n    ) -> Union[pd.Series, pd.DataFrame]:\n        return super().__getitem__(key)", some 1⟩,
  ⟨{ pandas := .full }, py!"Example", .map (.frame ⟨py!"Index(['A', 'C'])", true⟩) ⟨py!"DataFrame", 0⟩ [.str py!"A", .str py!"C"] [.seq .series ⟨py!"Series", 0⟩ [.inst .int none, .inst .int none, .inst .int none], .seq .series ⟨py!"Series", 0⟩ [.inst .int none, .inst .int none, .inst .int none]],
    py!"class Example(pd.DataFrame):\n\n    @overload  # type: ignore\n    def __getitem__(self, key: Literal['A']) -> pd.Series[int]:\n        ...\n\n    @overload  # type: ignore\n    def __getitem__(self, key: Literal['C']) -> pd.Series[int]:\n        ...\n\n    def __getitem__(\n        self,\n        key: Union[\n            Literal['A', 'C'],\n            npt.NDArray[np.bool_],\n            npt.NDArray[np.str_],\n            List[Union[Scalar, Tuple[Hashable, ...]]],\n        ],\n    ) -> Union[pd.Series, pd.DataFrame]:\n        return super().__getitem__(key)", some 2⟩,
  ⟨{ pandas := .full }, py!"Example", .map (.frame ⟨py!"Index([('A', 'B'), ('C', 'D')])", true⟩) ⟨py!"DataFrame", 0⟩ [.str py!"A", .str py!"C"] [.map (.frame ⟨py!"Index(['B'])", true⟩) ⟨py!"DataFrame", 0⟩ [.str py!"B"] [.seq .series ⟨py!"Series", 0⟩ [.inst .int none, .inst .int none, .inst .int none]], .map (.frame ⟨py!"Index(['D'])", true⟩) ⟨py!"DataFrame", 0⟩ [.str py!"D"] [.seq .series ⟨py!"Series", 0⟩ [.inst .int none, .inst .int none, .inst .int none]]],
    py!"class Example(pd.DataFrame):\n\n    @overload  # type: ignore\n    def __getitem__(self, key: Literal['A']) -> ExampleA:\n        ...\n\n    @overload  # type: ignore\n    def __getitem__(self, key: Literal['C']) -> ExampleC:\n        ...\n\n    def __getitem__(\n        self,\n        key: Union[\n            Literal['A', 'C'],\n            npt.NDArray[np.bool_],\n            npt.NDArray[np.str_],\n            List[Union[Scalar, Tuple[Hashable, ...]]],\n        ],\n    ) -> Union[pd.Series, pd.DataFrame]:\n        return super().__getitem__(key)", some 2⟩,
  ⟨{ pandas := .full }, py!"Example", .map (.frame ⟨py!"Index([(2, 'B'), ('C', 'D')])", true⟩) ⟨py!"DataFrame", 0⟩ [.other .int py!"2", .str py!"C"] [.map (.frame ⟨py!"Index(['B'])", true⟩) ⟨py!"DataFrame", 0⟩ [.str py!"B"] [.seq .series ⟨py!"Series", 0⟩ [.inst .int none, .inst .int none, .inst .int none]], .map (.frame ⟨py!"Index(['D'])", true⟩) ⟨py!"DataFrame", 0⟩ [.str py!"D"] [.seq .series ⟨py!"Series", 0⟩ [.inst .int none, .inst .int none, .inst .int none]]],
    py!"class Example(pd.DataFrame):\n\n    @overload  # type: ignore\n    def __getitem__(self, key: Literal[2]) -> Example2:\n        ...\n\n    @overload  # type: ignore\n    def __getitem__(self, key: Literal['C']) -> ExampleC:\n        ...\n\n    def __getitem__(\n        self,\n        key: Union[\n            Literal[2, 'C'],\n            npt.NDArray[np.bool_],\n            npt.NDArray[np.str_],\n            List[Union[Scalar, Tuple[Hashable, ...]]],\n        ],\n    ) -> Union[pd.Series, pd.DataFrame]:\n        return super().__getitem__(key)", some 2⟩,
  ⟨{ pandas := .full }, py!"Example", .map (.frame ⟨py!"Index([(True, 'B'), ('C', 'D')])", true⟩) ⟨py!"DataFrame", 0⟩ [.other .bool py!"True", .str py!"C"] [.map (.frame ⟨py!"Index(['B'])", true⟩) ⟨py!"DataFrame", 0⟩ [.str py!"B"] [.seq .series ⟨py!"Series", 0⟩ [.inst .int none, .inst .int none, .inst .int none]], .map (.frame ⟨py!"Index(['D'])", true⟩) ⟨py!"DataFrame", 0⟩ [.str py!"D"] [.seq .series ⟨py!"Series", 0⟩ [.inst .int none, .inst .int none, .inst .int none]]],
    py!"class Example(pd.DataFrame):\n\n    @overload  # type: ignore\n    def __getitem__(self, key: Literal[True]) -> ExampleTrue:\n        ...\n\n    @overload  # type: ignore\n    def __getitem__(self, key: Literal['C']) -> ExampleC:\n        ...\n\n    def __getitem__(\n        self,\n        key: Union[\n            Literal[True, 'C'],\n            npt.NDArray[np.bool_],\n            npt.NDArray[np.str_],\n            List[Union[Scalar, Tuple[Hashable, ...]]],\n        ],\n    ) -> Union[pd.Series, pd.DataFrame]:\n        return super().__getitem__(key)", some 2⟩,
  ⟨{ pandas := .full }, py!"Example", .map (.frame ⟨py!"Index([('A', 'B'), ('C',)])", true⟩) ⟨py!"DataFrame", 0⟩ [.str py!"A", .str py!"C"] [.map (.frame ⟨py!"Index(['B'])", true⟩) ⟨py!"DataFrame", 0⟩ [.str py!"B"] [.seq .series ⟨py!"Series", 0⟩ [.inst .int none, .inst .int none, .inst .int none]], .map (.frame ⟨py!"Index([frozenset({})])", false⟩) ⟨py!"DataFrame", 0⟩ [] []],
    py!"class Example(pd.DataFrame):\n\n    @overload  # type: ignore\n    def __getitem__(self, key: Literal['A']) -> ExampleA:\n        ...\n\n    @overload  # type: ignore\n    def __getitem__(self, key: Literal['C']) -> pd.DataFrame:\n        ...\n\n    def __getitem__(\n        self,\n        key: Union[\n            Literal['A', 'C'],\n            npt.NDArray[np.bool_],\n            npt.NDArray[np.str_],\n            List[Union[Scalar, Tuple[Hashable, ...]]],\n        ],\n    ) -> Union[pd.Series, pd.DataFrame]:\n        return super().__getitem__(key)", some 2⟩,
  ⟨{ pandas := .full }, py!"Example", .map (.frame ⟨py!"Index([('A', frozenset({1, 2})), ('C',)])", true⟩) ⟨py!"DataFrame", 0⟩ [.str py!"A", .str py!"C"] [.map (.frame ⟨py!"Index([frozenset({1, 2})])", false⟩) ⟨py!"DataFrame", 0⟩ [] [], .map (.frame ⟨py!"Index([frozenset({})])", false⟩) ⟨py!"DataFrame", 0⟩ [] []],
    py!"class Example(pd.DataFrame):\n\n    @overload  # type: ignore\n    def __getitem__(self, key: Literal['A']) -> pd.DataFrame:\n        ...\n\n    @overload  # type: ignore\n    def __getitem__(self, key: Literal['C']) -> pd.DataFrame:\n        ...\n\n    def __getitem__(\n        self,\n        key: Union[\n            Literal['A', 'C'],\n            npt.NDArray[np.bool_],\n            npt.NDArray[np.str_],\n            List[Union[Scalar, Tuple[Hashable, ...]]],\n        ],\n    ) -> Union[pd.Series, pd.DataFrame]:\n        return super().__getitem__(key)", some 2⟩,
  ⟨{ pandas := .full }, py!"Example", .map (.frame ⟨py!"Index([('A', 'B'), 'C'])", false⟩) ⟨py!"DataFrame", 0⟩ [.other .tuple py!"('A', 'B')", .str py!"C"] [.seq .series ⟨py!"Series", 0⟩ [.inst .int none, .inst .int none, .inst .int none], .seq .series ⟨py!"Series", 0⟩ [.inst .int none, .inst .int none, .inst .int none]],
    py!"class Example(pd.DataFrame):\n\n    @overload  # type: ignore\n    def __getitem__(self, key: Literal['C']) -> pd.Series[int]:\n        ...\n\n    def __getitem__(\n        self,\n        key: Union[\n            Literal['C'], Hashable,\n            npt.NDArray[np.bool_],\n            npt.NDArray[np.str_],\n            List[Union[Scalar, Tuple[Hashable, ...]]],\n        ],\n    ) -> Union[pd.Series, pd.DataFrame]:\n        return super().__getitem__(key)", some 2⟩,
  ⟨{ pandas := .full }, py!"Example", .map (.frame ⟨py!"Index([('A', 'B'), ('C', 1)])", true⟩) ⟨py!"DataFrame", 0⟩ [.str py!"A", .str py!"C"] [.map (.frame ⟨py!"Index(['B'])", true⟩) ⟨py!"DataFrame", 0⟩ [.str py!"B"] [.seq .series ⟨py!"Series", 0⟩ [.inst .int none, .inst .int none, .inst .int none]], .map (.frame ⟨py!"Index([1])", true⟩) ⟨py!"DataFrame", 0⟩ [.other .int py!"1"] [.seq .series ⟨py!"Series", 0⟩ [.inst .int none, .inst .int none, .inst .int none]]],
    py!"class Example(pd.DataFrame):\n\n    @overload  # type: ignore\n    def __getitem__(self, key: Literal['A']) -> ExampleA:\n        ...\n\n    @overload  # type: ignore\n    def __getitem__(self, key: Literal['C']) -> ExampleC:\n        ...\n\n    def __getitem__(\n        self,\n        key: Union[\n            Literal['A', 'C'],\n            npt.NDArray[np.bool_],\n            npt.NDArray[np.str_],\n            List[Union[Scalar, Tuple[Hashable, ...]]],\n        ],\n    ) -> Union[pd.Series, pd.DataFrame]:\n        return super().__getitem__(key)", some 2⟩,
  ⟨{ pandas := .full }, py!"Example", .map (.frame ⟨py!"Index(['A', 1])", true⟩) ⟨py!"DataFrame", 0⟩ [.str py!"A", .other .int py!"1"] [.seq .series ⟨py!"Series", 0⟩ [.inst .int none, .inst .int none, .inst .int none], .seq .series ⟨py!"Series", 0⟩ [.inst .int none, .inst .int none, .inst .int none]],
    py!"class Example(pd.DataFrame):\n\n    @overload  # type: ignore\n    def __getitem__(self, key: Literal['A']) -> pd.Series[int]:\n        ...\n\n    @overload  # type: ignore\n    def __getitem__(self, key: Literal[1]) -> pd.Series[int]:\n        ...\n\n    def __getitem__(\n        self,\n        key: Union[\n            Literal['A', 1],\n            npt.NDArray[np.bool_],\n            npt.NDArray[np.str_],\n            List[Union[Scalar, Tuple[Hashable, ...]]],\n        ],\n    ) -> Union[pd.Series, pd.DataFrame]:\n        return super().__getitem__(key)", some 2⟩,
  ⟨{ pandas := .full }, py!"Example", .map (.frame ⟨py!"Index([('A',), 1])", false⟩) ⟨py!"DataFrame", 0⟩ [.other .tuple py!"('A',)", .other .int py!"1"] [.seq .series ⟨py!"Series", 0⟩ [.inst .int none, .inst .int none, .inst .int none], .seq .series ⟨py!"Series", 0⟩ [.inst .int none, .inst .int none, .inst .int none]],
    py!"class Example(pd.DataFrame):\n\n    @overload  # type: ignore\n    def __getitem__(self, key: Literal[1]) -> pd.Series[int]:\n        ...\n\n    def __getitem__(\n        self,\n        key: Union[\n            Literal[1], Hashable,\n            npt.NDArray[np.bool_],\n            npt.NDArray[np.str_],\n            List[Union[Scalar, Tuple[Hashable, ...]]],\n        ],\n    ) -> Union[pd.Series, pd.DataFrame]:\n        return super().__getitem__(key)", some 2⟩] : List _).all topIs = true := by decide +kernel

/-! test_data_type/test_generic_data_type_tree/test_pandas_data_frame_data_type_tree.py, TestHash -/
example : ([({ pandas := .full }, .map (.frame ⟨py!"Index([])", true⟩) ⟨py!"DataFrame", 0⟩ [] [], .map (.frame ⟨py!"Index([])", true⟩) ⟨py!"DataFrame", 0⟩ [] [], true),
  ({ pandas := .full }, .map (.frame ⟨py!"Index(['A'])", true⟩) ⟨py!"DataFrame", 0⟩ [.str py!"A"] [.seq .series ⟨py!"Series", 0⟩ [.inst .int none, .inst .int none, .inst .int none]], .map (.frame ⟨py!"Index([])", true⟩) ⟨py!"DataFrame", 0⟩ [] [], false),
  ({ pandas := .full }, .map (.frame ⟨py!"Index(['A'])", true⟩) ⟨py!"DataFrame", 0⟩ [.str py!"A"] [.seq .series ⟨py!"Series", 0⟩ [.inst .int none, .inst .int none, .inst .int none]], .map (.frame ⟨py!"Index(['A'])", true⟩) ⟨py!"DataFrame", 0⟩ [.str py!"A"] [.seq .series ⟨py!"Series", 0⟩ [.inst .int none, .inst .int none, .inst .int none]], true),
  ({ pandas := .full }, .map (.frame ⟨py!"Index(['A'])", true⟩) ⟨py!"DataFrame", 0⟩ [.str py!"A"] [.seq .series ⟨py!"Series", 0⟩ [.inst .int none, .inst .int none, .inst .int none]], .map (.frame ⟨py!"Index(['B'])", true⟩) ⟨py!"DataFrame", 0⟩ [.str py!"B"] [.seq .series ⟨py!"Series", 0⟩ [.inst .int none, .inst .int none, .inst .int none]], false),
  ({ pandas := .full }, .map (.frame ⟨py!"Index([('A', 'B')])", true⟩) ⟨py!"DataFrame", 0⟩ [.str py!"A"] [.map (.frame ⟨py!"Index(['B'])", true⟩) ⟨py!"DataFrame", 0⟩ [.str py!"B"] [.seq .series ⟨py!"Series", 0⟩ [.inst .int none, .inst .int none, .inst .int none]]], .map (.frame ⟨py!"Index(['B'])", true⟩) ⟨py!"DataFrame", 0⟩ [.str py!"B"] [.seq .series ⟨py!"Series", 0⟩ [.inst .int none, .inst .int none, .inst .int none]], false),
  ({ pandas := .none }, .map (.frame ⟨py!"Index([])", true⟩) ⟨py!"DataFrame", 0⟩ [] [], .map (.frame ⟨py!"Index([])", true⟩) ⟨py!"DataFrame", 0⟩ [] [], true),
  ({ pandas := .none }, .map (.frame ⟨py!"Index(['A'])", true⟩) ⟨py!"DataFrame", 0⟩ [.str py!"A"] [.seq .series ⟨py!"Series", 0⟩ [.inst .int none, .inst .int none, .inst .int none]], .map (.frame ⟨py!"Index([])", true⟩) ⟨py!"DataFrame", 0⟩ [] [], true),
  ({ pandas := .none }, .map (.frame ⟨py!"Index(['A'])", true⟩) ⟨py!"DataFrame", 0⟩ [.str py!"A"] [.seq .series ⟨py!"Series", 0⟩ [.inst .int none, .inst .int none, .inst .int none]], .map (.frame ⟨py!"Index(['A'])", true⟩) ⟨py!"DataFrame", 0⟩ [.str py!"A"] [.seq .series ⟨py!"Series", 0⟩ [.inst .int none, .inst .int none, .inst .int none]], true),
  ({ pandas := .none }, .map (.frame ⟨py!"Index(['A'])", true⟩) ⟨py!"DataFrame", 0⟩ [.str py!"A"] [.seq .series ⟨py!"Series", 0⟩ [.inst .int none, .inst .int none, .inst .int none]], .map (.frame ⟨py!"Index(['B'])", true⟩) ⟨py!"DataFrame", 0⟩ [.str py!"B"] [.seq .series ⟨py!"Series", 0⟩ [.inst .int none, .inst .int none, .inst .int none]], true),
  ({ pandas := .none }, .map (.frame ⟨py!"Index([('A', 'B')])", true⟩) ⟨py!"DataFrame", 0⟩ [.str py!"A"] [.map (.frame ⟨py!"Index(['B'])", true⟩) ⟨py!"DataFrame", 0⟩ [.str py!"B"] [.seq .series ⟨py!"Series", 0⟩ [.inst .int none, .inst .int none, .inst .int none]]], .map (.frame ⟨py!"Index(['B'])", true⟩) ⟨py!"DataFrame", 0⟩ [.str py!"B"] [.seq .series ⟨py!"Series", 0⟩ [.inst .int none, .inst .int none, .inst .int none]], true)] : List _).all sameHash = true := by decide +kernel

/-! test_data_type/test_generic_data_type_tree/test_pandas_series_data_type_tree.py -/
example : ([⟨{ minHeight := 0 }, py!"Example", .seq .series ⟨py!"Series", 0⟩ [], py!"Example: TypeAlias = pd.Series[Any]", none⟩,
  ⟨{ minHeight := 0 }, py!"Example", .seq .series ⟨py!"Series", 0⟩ [.inst .int none, .inst .int none, .inst .int none], py!"Example: TypeAlias = pd.Series[int]", none⟩,
  ⟨{ minHeight := 0 }, py!"Example", .seq .series ⟨py!"Series", 0⟩ [.inst .int none, .inst .int none, .inst .float none], py!"Example: TypeAlias = pd.Series[float]", none⟩,
  ⟨{ minHeight := 0 }, py!"Example", .seq .series ⟨py!"Series", 0⟩ [.inst .int none, .inst .int none, .inst .str (some py!"a")], py!"Example: TypeAlias = pd.Series[Union[int, str]]", none⟩,
  ⟨{ minHeight := 0 }, py!"Example", .seq .series ⟨py!"Series", 0⟩ [.inst .int none, .inst .int none, .seq .list .list []], py!"Example: TypeAlias = pd.Series[Union[ExampleList, int]]", none⟩] : List _).all topIs = true := by decide +kernel

/-! test_data_type/test_simple_data_type_tree/test_func_data_type_tree.py, TestFunction.test_get_str_top_node (with the texts of `inspect.signature` after the removal of the module name) -/
example : ([⟨{}, py!"Example", .func ⟨.function, false, .ok py!"()" 0, .ret false⟩, py!"class Example(Protocol):\n    def __call__() -> None: ...", none⟩,
  ⟨{}, py!"Example", .func ⟨.function, false, .ok py!"() -> bool" 0, .ret false⟩, py!"class Example(Protocol):\n    def __call__() -> bool: ...", none⟩,
  ⟨{}, py!"Example", .func ⟨.function, false, .ok py!"() -> Sequence[bool]" 0, .ret false⟩, py!"class Example(Protocol):\n    def __call__() -> Sequence[bool]: ...", none⟩,
  ⟨{}, py!"Example", .func ⟨.function, false, .ok py!"(a: int)" 1, .ret false⟩, py!"class Example(Protocol):\n    def __call__(a: int) -> None: ...", none⟩,
  ⟨{}, py!"Example", .func ⟨.function, false, .ok py!"(a: Sequence[int])" 1, .ret false⟩, py!"class Example(Protocol):\n    def __call__(a: Sequence[int]) -> None: ...", none⟩,
  ⟨{}, py!"Example", .func ⟨.function, false, .ok py!"(*, a: int)" 2, .ret false⟩, py!"class Example(Protocol):\n    def __call__(*, a: int) -> None: ...", none⟩,
  ⟨{}, py!"Example", .func ⟨.function, false, .ok py!"(a: int, b: int, /, c: int)" 4, .ret false⟩, py!"class Example(Protocol):\n    def __call__(a: int, b: int, /, c: int) -> None: ...", none⟩,
  ⟨{}, py!"Example", .func ⟨.function, false, .ok py!"(a: int, b: int, /, c: int, *, d: int)" 6, .ret false⟩, py!"class Example(Protocol):\n    def __call__(a: int, b: int, /, c: int, *, d: int) -> None: ...", none⟩,
  ⟨{}, py!"Example", .func ⟨.function, false, .ok py!"(a, b, /, c, *, d)" 6, .ret false⟩, py!"class Example(Protocol):\n    def __call__(a, b, /, c, *, d) -> None: ...", none⟩,
  ⟨{}, py!"Example", .func ⟨.function, false, .ok py!"(a, b, /, c, *, d)" 6, .ret true⟩, py!"class Example(Protocol):\n    def __call__(a, b, /, c, *, d) -> Any: ...", none⟩,
  ⟨{}, py!"Example", .func ⟨.function, false, .ok py!"(a, b, /, c, *, d) -> Sequence[List[int]]" 6, .ret false⟩, py!"class Example(Protocol):\n    def __call__(a, b, /, c, *, d) -> Sequence[List[int]]: ...", none⟩,
  ⟨{}, py!"Example", .func ⟨.function, false, .ok py!"(a: 'TestFunction')" 1, .ret false⟩, py!"class Example(Protocol):\n    def __call__(a: 'TestFunction') -> None: ...", none⟩] : List _).all topIs = true := by decide +kernel

/-! test_data_type/test_simple_data_type_tree, the other classes -/
example : ([⟨{}, py!"Example", .inst .noneType none, py!"Example: TypeAlias = Optional[object]", none⟩,
  ⟨{}, py!"Example", .inst ⟨py!"DummyClass", 1⟩ none, py!"Example: TypeAlias = \"DummyClass\"", none⟩,
  ⟨{}, py!"Example", .cls .type py!"DummyClass", py!"Example: TypeAlias = Type[\"DummyClass\"]", none⟩,
  ⟨{}, py!"Example", .cls .type py!"bool", py!"Example: TypeAlias = Type[bool]", none⟩,
  ⟨{}, py!"Example", .cls .type py!"int", py!"Example: TypeAlias = Type[int]", none⟩,
  ⟨{}, py!"Example", .module ⟨py!"module", 0⟩, py!"Example: TypeAlias = ModuleType", none⟩,
  ⟨{}, py!"Example", .io ⟨py!"TextIOWrapper", 0⟩, py!"Example: TypeAlias = TextIO", none⟩,
  ⟨{}, py!"Example", .func ⟨⟨py!"builtin_function_or_method", 0⟩, false, .valueError, .unavailable⟩, py!"Example: TypeAlias = Callable", none⟩,
  ⟨{}, py!"Example", .ndarray ⟨py!"ndarray", 0⟩ py!"int32", py!"Example: TypeAlias = \"NDArray[np.int32]\"", none⟩,
  ⟨{}, py!"Example", .ndarray ⟨py!"ndarray", 0⟩ py!"float64", py!"Example: TypeAlias = \"NDArray[np.float64]\"", none⟩,
  ⟨{}, py!"Example", .ndarray ⟨py!"ndarray", 0⟩ py!"complex128", py!"Example: TypeAlias = \"NDArray[np.complex128]\"", none⟩] : List _).all topIs = true := by decide +kernel

/-! test_file_modifiers/test_file_modifier/test_py_file_modifier.py, test_add_imports -/
example : addImports [py!"import C", py!"", py!"if TYPE_CHECKING:", py!"    import D"] [py!"from A import B", py!"from B import C"] false =
    .ok [py!"from A import B", py!"from B import C", py!"import C", py!"", py!"if TYPE_CHECKING:", py!"    import D"] := by decide +kernel
example : addImports [py!"import C", py!"", py!"if TYPE_CHECKING:", py!"    import D"] [py!"from A import B", py!"from B import C"] true =
    .ok [py!"import C", py!"", py!"if TYPE_CHECKING:", py!"    from A import B", py!"    from B import C", py!"    import D"] := by decide +kernel

end Verif.Checks
