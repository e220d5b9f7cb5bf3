import Verif.Model.Generator
/-
The examples of README.md (lines 71-318), evaluated in the model. These are tests of the reading of the code, not proofs of
properties. Where the README differs from the code, the example shows what the code does.
-/
namespace Verif.Checks
open Verif

private def s : Val := .inst .str none
private def i : Val := .inst .int none
private def record (l : List (Str × Val)) : Val := .dict (l.map fun x => (.str x.1, x.2))

/-- README 71-77. -/
example : declsOf (exEnv {}) py!"Data" (record [(py!"name", s), (py!"age", i)]) =
    [py!"class Data(TypedDict):\n    name: str\n    age: int"] := by decide +kernel

/-- README 161-184. -/
example : declsOf (exEnv { keyDoc := py!"doc" }) py!"Example"
    (record [(py!"name", s), (py!"doc", .inst .str (some py!"Dictionary containing person data"))]) =
    [py!"class Example(TypedDict):\n    \"\"\"Dictionary containing person data.\"\"\"\n\n    name: str\n    doc: str"] := by
  decide +kernel

private def persons : Val := .seq .tuple .tuple [record [(py!"name", s), (py!"age", i)],
  record [(py!"name", s), (py!"age", i), (py!"married", .inst ⟨py!"bool", 77⟩ none)]]

/-- README 188-210; the README writes `MyClass = Tuple[...]`. -/
example : declsOf (exEnv { merge := 90 }) py!"MyClass" persons =
    [py!"class MyClassDict(TypedDict):\n    name: str\n    age: int",
     py!"class MyClassDict2(TypedDict):\n    name: str\n    age: int\n    married: bool",
     py!"MyClass: TypeAlias = Tuple[MyClassDict, MyClassDict2]"] := by decide +kernel

/-- README 212-227. -/
example : declsOf (exEnv { merge := 50 }) py!"MyClass" persons =
    [py!"class MyClassDict(TypedDict):\n    name: str\n    age: int\n    married: NotRequired[bool]",
     py!"MyClass: TypeAlias = Tuple[MyClassDict, MyClassDict]"] := by decide +kernel

/-- README 231-249. -/
example : declsOf (exEnv { dict := .dict }) py!"MyClass" (record [(py!"name", s)]) = [py!"MyClass: TypeAlias = Dict[str, str]"] ∧
    declsOf (exEnv { dict := .mapping }) py!"MyClass" (record [(py!"name", s)]) = [py!"MyClass: TypeAlias = Mapping[str, str]"] ∧
    declsOf (exEnv {}) py!"MyClass" (record [(py!"name", s)]) = [py!"class MyClass(TypedDict):\n    name: str"] ∧
    declsOf (exEnv { readOnly := true }) py!"MyClass" (record [(py!"name", s)]) =
      [py!"class MyClass(TypedDict):\n    name: ReadOnly[str]"] := by decide +kernel

/-- README 255-263 and 269-277. -/
example : declsOf (exEnv { list := .list }) py!"MyClass" (.seq .list .list [i, i, i]) = [py!"MyClass: TypeAlias = List[int]"] ∧
    declsOf (exEnv { list := .sequence }) py!"MyClass" (.seq .list .list [i, i, i]) = [py!"MyClass: TypeAlias = Sequence[int]"] ∧
    declsOf (exEnv { tuple := .anySize }) py!"MyClass" (.seq .tuple .tuple [i, i, i]) = [py!"MyClass: TypeAlias = Tuple[int, ...]"] ∧
    declsOf (exEnv { tuple := .fixed }) py!"MyClass" (.seq .tuple .tuple [i, i, i]) =
      [py!"MyClass: TypeAlias = Tuple[int, int, int]"] := by decide +kernel

/-- README 307-318, where the two results are exchanged: `0` gives the inner list a name and `1` writes it out. -/
example : declsOf (exEnv { minHeight := 0 }) py!"MyClass" (.seq .tuple .tuple [i, i, i, .seq .list .list [i, i]]) =
      [py!"MyClassList: TypeAlias = List[int]", py!"MyClass: TypeAlias = Tuple[int, int, int, MyClassList]"] ∧
    declsOf (exEnv { minHeight := 1 }) py!"MyClass" (.seq .tuple .tuple [i, i, i, .seq .list .list [i, i]]) =
      [py!"MyClass: TypeAlias = Tuple[int, int, int, List[int]]"] := by decide +kernel

end Verif.Checks
