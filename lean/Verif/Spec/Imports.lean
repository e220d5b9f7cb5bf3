import Verif.Py.Str
/-
Specification of import blocks: abstract statements, what they bind, and their two textual layouts.
-/
namespace Verif.Spec
open Verif

/-- A Python import statement. -/
inductive ImportStmt
  /-- `from module import n1, n2, ...` -/
  | fromImport (module : Str) (names : List Str)
  /-- `import module as alias` -/
  | importAs (module alias : Str)

/-- The symbols a statement binds, each with the module it comes from. -/
def ImportStmt.bindings : ImportStmt → List (Str × Str)
  | .fromImport m ns => ns.map fun n => (m, n)
  | .importAs m a => [(m, a)]

/-- `Layout st text`: `text` is a way to write the statement, on one line or one name per line. -/
inductive Layout : ImportStmt → Str → Prop
  | oneLine (m : Str) (ns : List Str) : ns ≠ [] → Layout (.fromImport m ns) (py!"from " ++ m ++ py!" import " ++ join py!", " ns)
  | wrapped (m : Str) (ns : List Str) : ns ≠ [] → Layout (.fromImport m ns)
      (py!"from " ++ m ++ py!" import (\n    " ++ join py!",\n    " ns ++ py!",\n)")
  | alias (m a : Str) : Layout (.importAs m a) (py!"import " ++ m ++ py!" as " ++ a)

/-- `BlockText sts text`: `text` consists of the statements, one after the other, separated by one or two line breaks
(a last line break may follow). -/
inductive BlockText : List ImportStmt → Str → Prop
  | nil : BlockText [] []
  | one {st t} (e : Str) : Layout st t → e ∈ [[], py!"\n"] → BlockText [st] (t ++ e)
  | cons {st t sts r} (e : Str) : Layout st t → e ∈ [[], py!"\n"] → BlockText sts r → sts ≠ [] →
      BlockText (st :: sts) (t ++ e ++ py!"\n" ++ r)

/-- The lines of a wrapped import: the opening line for one module, one symbol, the closing parenthesis. -/
inductive WrapLine : Str → Prop
  | opening (m : Str) : ' ' ∉ m → WrapLine (py!"from " ++ m ++ py!" import (")
  | symbol (n : Str) : ' ' ∉ n → ',' ∉ n → WrapLine (py!"    " ++ n ++ py!",")
  | closing : WrapLine py!")"

/-- The symbols that can be requested: keyword, module, symbol bound in the generated file. -/
def symbolTable : List (Str × Str × Str) :=
  [ (py!"list", py!"typing", py!"List"), (py!"set", py!"typing", py!"Set"), (py!"tuple", py!"typing", py!"Tuple"),
    (py!"dict", py!"typing", py!"Dict"), (py!"type", py!"typing", py!"Type"),
    (py!"Sequence", py!"typing", py!"Sequence"), (py!"FrozenSet", py!"typing", py!"FrozenSet"),
    (py!"Hashable", py!"typing", py!"Hashable"), (py!"Mapping", py!"typing", py!"Mapping"),
    (py!"TypeAlias", py!"typing_extensions", py!"TypeAlias"),
    (py!"MappingProxyType", py!"types", py!"MappingProxyType"), (py!"TypedDict", py!"typing", py!"TypedDict"),
    (py!"Any", py!"typing", py!"Any"), (py!"Union", py!"typing", py!"Union"),
    (py!"Optional", py!"typing", py!"Optional"), (py!"NotRequired", py!"typing_extensions", py!"NotRequired"),
    (py!"ReadOnly", py!"typing_extensions", py!"ReadOnly"), (py!"Callable", py!"typing", py!"Callable"),
    (py!"Protocol", py!"typing", py!"Protocol"), (py!"Iterator", py!"typing", py!"Iterator"),
    (py!"Literal", py!"typing", py!"Literal"), (py!"overload", py!"typing", py!"overload"),
    (py!"pandas", py!"pandas", py!"pd"), (py!"pd.Scalar", py!"pandas._typing", py!"Scalar"),
    (py!"npt", py!"numpy.typing", py!"npt"), (py!"numpy", py!"numpy", py!"np"),
    (py!"NDArray", py!"numpy.typing", py!"NDArray"), (py!"ModuleType", py!"types", py!"ModuleType"),
    (py!"TextIO", py!"typing", py!"TextIO"), (py!"annotations", py!"__future__", py!"annotations") ]

/-- A keyword that can be requested. -/
def Known (kw : Str) : Prop := ∃ b, (kw, b) ∈ symbolTable

/-- Module and symbol for a known keyword. -/
def bindingOf (kw : Str) : Str × Str := ((symbolTable.find? (fun e => e.1 == kw)).map (·.2)).getD ([], [])

end Verif.Spec
