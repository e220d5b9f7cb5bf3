import Verif.Model.Render
import Verif.Model.Signature
import Verif.Model.Cache
namespace Verif

/-- Rendering of a tree. -/
def Node.render (E : Env) (n : Node) : Out := n.out E (sigImports E.U)

/-- A match of `class\s+(\w+)\b` at the start of the text: group 1 and the length of the match. The greedy `\w+` always
ends at a word boundary. -/
def classMatch (U : Uni) (s : Str) : Option (Str × Nat) :=
  if startsWith s py!"class" then
    let r := s.drop 5
    let r' := lstrip r
    let w := r'.takeWhile (wordChar U)
    if r'.length < r.length ∧ w ≠ [] then some (w, 5 + (r.length - r'.length) + w.length) else none
  else none

/-- `re.search(r"class\s+(\w+)\b", s)`: group 1 of the first match. -/
def classSearch (U : Uni) : Str → Option Str
  | [] => none
  | c :: r => match classMatch U (c :: r) with
    | some (w, _) => some w
    | none => classSearch U r

/-- `re.sub(r"class\s+(\w+)\b", f"class {new}", s)`, for a replacement without backslashes. `skip` counts the characters
that belong to the match just replaced. -/
def classSub (U : Uni) (new : Str) : Nat → Str → Str
  | _, [] => []
  | skip + 1, _ :: r => classSub U new skip r
  | 0, c :: r => match classMatch U (c :: r) with
    | some (_, len) => py!"class " ++ new ++ classSub U new (len - 1) r
    | none => c :: classSub U new 0 r

/-- `rename_declaration` (lazy_type_hint/data_type_tree/data_type_tree.py:228-244). `newName` is the effect of
`new_name.format(name=...)`. Returns the declaration and the old name. -/
def renameDeclaration (U : Uni) (newName : Str → Str) (d : Str) : Str × Str :=
  if '=' ∈ d then
    match splitChar '=' d with
    | [] => (d, [])
    | first :: rest =>
      let old := strip first
      (newName old ++ py!" =" ++ rest.flatten, old)
  else if startsWith d py!"class " then
    match classSearch U d with
    | some old => (if old.isEmpty then d else classSub U (newName old) 0 d, old)
    | none => (d, [])
  else (d, [])

/-- Loop over the strings from index 2 on: classes get two blank lines (data_type_tree.py:279-282). -/
def spaceClasses : List Str → List Str
  | a :: b :: r => a :: b :: r.map (fun l => if startsWith l py!"class" then '\n' :: l else l)
  | l => l

/-- `_format_node_strings` (data_type_tree.py:266-284). The test `"" in line` holds for the first line, so the extra
line break always goes to the first string. -/
def formatNodeStrings (strs : List Str) : Str :=
  match strs with
  | [] => []
  | s :: r => join py!"\n\n" (spaceClasses ((s ++ py!"\n") :: r))

/-- Failures of `to_string`. -/
inductive StrErr
  | node (e : Err)
  /-- "No type hints could be built" -/
  | noHints
  | unknownImport (kw : Str)
  deriving DecidableEq

/-- `get_strs_all_nodes_unformatted` on a tree whose result is not cached yet (data_type_tree.py:208-226), without
`make_parent_class_inherit_from_original_type`. -/
def nodeStrings (E : Env) (n : Node) (includeImports : Bool) : Except StrErr (List Str) :=
  let o := n.render E
  match firstFailure o.emitted with
  | some e => .error (.node e)
  | none =>
    if (declTexts o).isEmpty then .error .noHints
    else if includeImports then
      match formatImports 90 (allKws o) with
      | .ok imports => .ok (imports :: declTexts o)
      | .error kw => .error (.unknownImport kw)
    else .ok (declTexts o)

/-- `make_parent_class_inherit_from_original_type` (data_type_tree.py:223-225): the last declaration gets an underscore before its
name, and a class of the old name that inherits from it is appended. The list is not empty where the code gets here. -/
def inheritStrings (U : Uni) (strs : List Str) : List Str :=
  match strs.getLast? with
  | none => []
  | some d =>
    let r := renameDeclaration U (fun n => '_' :: n) d
    strs.dropLast ++ [r.1, py!"class " ++ r.2 ++ py!"(_" ++ r.2 ++ py!"):\n" ++ TAB ++ py!"..."]

/-- `get_str_all_nodes(include_imports=..., make_parent_class_inherit_from_original_type=True)` on a fresh tree. -/
def toStringInherit (E : Env) (n : Node) (includeImports : Bool) : Except StrErr Str :=
  (nodeStrings E n includeImports).map (fun strs => formatNodeStrings (inheritStrings E.U strs))

/-- `to_string` = `get_str_all_nodes` on a fresh tree (generators/lazy_type_hint.py:30-31, data_type_tree.py:196-206). -/
def toString' (E : Env) (n : Node) (includeImports : Bool) : Except StrErr Str :=
  (nodeStrings E n includeImports).map formatNodeStrings

/-- Failures of `from_data`: the class name is rejected, or the tree cannot be built. -/
inductive GenErr
  | className
  | build (e : Err)
  deriving DecidableEq

/-- `LazyTypeHintABC.from_data` (generators/lazy_type_hint_abc.py:78-89). -/
def fromData (E : Env) (className : Str) (v : Val) : Except GenErr Node :=
  if nameOk E.U className then
    match buildTree E className v with
    | .ok n => .ok n
    | .error e => .error (.build e)
  else .error .className

/-- `from_data(...)` followed by `to_string(include_imports=...)`. -/
def generate (E : Env) (className : Str) (v : Val) (includeImports : Bool) : Except (GenErr ⊕ StrErr) Str :=
  match fromData E className v with
  | .error e => .error (.inl e)
  | .ok n => match toString' E n includeImports with
    | .ok s => .ok s
    | .error e => .error (.inr e)

/-- The declarations that `from_data` + `to_string` would print, for inspection. -/
def declsOf (E : Env) (className : Str) (v : Val) : List Str :=
  match fromData E className v with
  | .error _ => []
  | .ok n => declTexts (n.render E)

/-- A concrete interpreter for examples: ASCII tables, the classes of `builtins` that occur in the examples, sets
iterated in insertion order. -/
def exEnv (S : Strategies) : Env where
  U := asciiUni
  S := S
  isBuiltin n := [py!"int", py!"float", py!"str", py!"bool", py!"bytes", py!"complex", py!"range", py!"slice",
    py!"object", py!"list", py!"dict", py!"set", py!"tuple", py!"frozenset", py!"type"].contains n
  reprStr s := py!"'" ++ s ++ py!"'"
  order _ l := l

end Verif
