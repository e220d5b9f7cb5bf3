import Verif.Py.Unicode
namespace Verif

/-- The keywords of `KEYWORDS_AVAILABLE` with their `PACKAGE` entry: keyword, package path, imported name
(lazy_type_hint/utils/import_manager.py:52-85). `".".join(reference[:-1])` is the package path, as every entry is a
pair. -/
def packageTable : List (Str × Str × Str) :=
  [ (py!"list", py!"typing", py!"List"),
    (py!"set", py!"typing", py!"Set"),
    (py!"tuple", py!"typing", py!"Tuple"),
    (py!"type", py!"typing", py!"Type"),
    (py!"dict", py!"typing", py!"Dict"),
    (py!"Sequence", py!"typing", py!"Sequence"),
    (py!"Hashable", py!"typing", py!"Hashable"),
    (py!"FrozenSet", py!"typing", py!"FrozenSet"),
    (py!"Mapping", py!"typing", py!"Mapping"),
    (py!"MappingProxyType", py!"types", py!"MappingProxyType"),
    (py!"TypedDict", py!"typing", py!"TypedDict"),
    (py!"Any", py!"typing", py!"Any"),
    (py!"Union", py!"typing", py!"Union"),
    (py!"Optional", py!"typing", py!"Optional"),
    (py!"NotRequired", py!"typing_extensions", py!"NotRequired"),
    (py!"ReadOnly", py!"typing_extensions", py!"ReadOnly"),
    (py!"Callable", py!"typing", py!"Callable"),
    (py!"ModuleType", py!"types", py!"ModuleType"),
    (py!"Protocol", py!"typing", py!"Protocol"),
    (py!"Literal", py!"typing", py!"Literal"),
    (py!"overload", py!"typing", py!"overload"),
    (py!"pandas", py!"pandas", py!"pandas"),
    (py!"npt", py!"npt", py!"npt"),
    (py!"NDArray", py!"numpy.typing", py!"NDArray"),
    (py!"numpy", py!"numpy", py!"numpy"),
    (py!"TypeAlias", py!"typing_extensions", py!"TypeAlias"),
    (py!"pd.Scalar", py!"pandas._typing", py!"Scalar"),
    (py!"TextIO", py!"typing", py!"TextIO"),
    (py!"Iterator", py!"typing", py!"Iterator"),
    (py!"annotations", py!"__future__", py!"annotations") ]

/-- `PACKAGE[keyword]`; `none` is `KeyError`. -/
def packageOf (kw : Str) : Option (Str × Str) := (packageTable.find? (fun e => e.1 == kw)).map (·.2)

/-- `import_statements[package].append(name)` on a `defaultdict(list)` (import_manager.py:137): an association list
in insertion order. -/
def addTo (pkg name : Str) : List (Str × List Str) → List (Str × List Str)
  | [] => [(pkg, [name])]
  | (p, ns) :: r => if p = pkg then (p, ns ++ [name]) :: r else (p, ns) :: addTo pkg name r

/-- First loop of `format` (import_manager.py:128-137), over the keywords in the iteration order of the set. -/
def groupImports : List (Str × List Str) → List Str → Except Str (List (Str × List Str))
  | acc, [] => .ok acc
  | acc, kw :: r => match packageOf kw with
    | none => .error kw
    | some (pkg, name) => groupImports (addTo pkg name acc) r

/-- `_format_single_package` (import_manager.py:146-159). `imports` is never empty. -/
def formatPackage (lineLength : Nat) (pkg : Str) (imports : List Str) : Str :=
  let first := imports.headD []
  let string :=
    if first = py!"pandas" then py!"import pandas as pd"
    else if first = py!"npt" then py!"import numpy.typing as npt"
    else if first = py!"numpy" then py!"import numpy as np"
    else py!"from " ++ pkg ++ py!" import " ++ join py!", " (sortStr imports)
  if string.length > lineLength then
    py!"from " ++ pkg ++ py!" import " ++ (py!"(\n" ++ TAB ++ join (py!",\n" ++ TAB) (sortStr imports)) ++ py!",\n)"
  else string

/-- `sorted(import_statements.items(), key=lambda x: x[0])`. -/
def sortPackages (g : List (Str × List Str)) : List (Str × List Str) := sortBy (fun a b => strLe a.1 b.1) g

/-- Second half of `format` (import_manager.py:139-144). -/
def formatGroups (lineLength : Nat) (g : List (Str × List Str)) : Str :=
  match (sortPackages g).map (fun p => formatPackage lineLength p.1 p.2) with
  | [] => []
  | l :: ls => join py!"\n" ((if contains py!"__future__" l then l ++ py!"\n" else l) :: ls)

/-- `ImportManager.format` (import_manager.py:127-144). The argument lists the elements of `_set` in the iteration
order of the Python set: some duplicate-free list. The error carries the offending keyword (`ValueError`). -/
def formatImports (lineLength : Nat) (kws : List Str) : Except Str Str :=
  (groupImports [] kws).map (formatGroups lineLength)

end Verif
