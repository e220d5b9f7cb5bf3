import Verif.Py.Str
/-
What the type-checker wrapper makes of the output of the checker (lazy_type_hint/utils/mypy.py). Running the checker is not modelled: its
two output streams are arguments.
-/
namespace Verif

/-- Worker of `splitStr`: `skip` characters of a separator just found are still to be dropped, `cur` is the piece so far, reversed. -/
def splitStrAux (sep : Str) : Nat → Str → Str → List Str
  | _, cur, [] => [cur.reverse]
  | skip + 1, cur, _ :: r => splitStrAux sep skip cur r
  | 0, cur, c :: r => if sep.isPrefixOf (c :: r) then cur.reverse :: splitStrAux sep (sep.length - 1) [] r else splitStrAux sep 0 (c :: cur) r

/-- `s.split(sep)` for non-empty `sep`. -/
def splitStr (sep s : Str) : List Str := splitStrAux sep 0 [] s

/-- `error[: error.rfind("]") + 1]` (mypy.py:80). -/
def upToBracket (s : Str) : Str := match rfindChar ']' s with
  | some i => s.take (i + 1)
  | none => []

/-- Is the error kept (mypy.py:81-86)? -/
def keptError (ignore : List Str) (e : Str) : Bool := !e.isEmpty && (ignore.isEmpty || ignore.all (fun k => !contains k e))

/-- The errors of `Mypy.scan_string` (mypy.py:73-87), given the text of `stdout` (the representation of bytes) and `stderr`. -/
def scanString (stdout stderr : Str) (ignore : List Str) : List Str :=
  if stderr ≠ [] then [stderr] else ((splitStr py!"error: " stdout).map upToBracket).filter (keptError ignore)

/-- The errors of `Mypy.scan_file` (mypy.py:117-130), `none` for a `ValueError`; `name` is the name of the file. -/
def scanFile (stdout stderr name : Str) (ignore : List Str) : Option (List Str) :=
  if stderr ≠ [] then none else
  let errors := (splitlines stdout).filter (contains py!"error: ")
  let errors := if ignore.isEmpty then errors else errors.filter (fun l => !ignore.all (fun k => contains k l))
  some (errors.filter (contains name))

end Verif
