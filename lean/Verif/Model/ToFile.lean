import Verif.Model.Generator
/-
Writing hints to a file. Paths are lists of components below one root, without links, permissions and full disks.
-/
namespace Verif

abbrev Path := List Str

inductive Entry
  | dir
  | file (content : Str)
  deriving DecidableEq

/-- A file system: what is at each path. -/
abbrev Fs := Path → Option Entry

/-- `Path.parent`: the root is its own parent. -/
def Path.parent (p : Path) : Path := p.dropLast

def Fs.set (fs : Fs) (p : Path) (e : Entry) : Fs := fun q => if q = p then some e else fs q

/-- Errors: the `ValueError` of `to_file`, errors of the operating system, errors of `to_string`. -/
inductive FileErr
  | value
  | os
  | text (e : StrErr)
  deriving DecidableEq

/-- `os.makedirs(p)` for a path that does not exist: creates the missing ancestors from the top; an ancestor that is a file makes it
fail, in which case nothing was created. -/
def makedirs (fs : Fs) : Nat → Path → Except FileErr Fs
  | 0, _ => .error .os
  | fuel + 1, p =>
    match fs p with
    | some .dir => .ok fs
    | some (.file _) => .error .os
    | none =>
      match makedirs fs fuel p.parent with
      | .ok fs' => .ok (fs'.set p .dir)
      | .error e => .error e

/-- `Path.write_text`: the directory must exist and the path must not be a directory. -/
def writeText (fs : Fs) (p : Path) (s : Str) : Except FileErr Fs :=
  if fs p = some .dir then .error .os
  else if fs p.parent = some .dir then .ok (fs.set p (.file s))
  else .error .os

/-- `path_to_py.write_text(self.to_string(include_imports=True))` (lazy_type_hint/generators/lazy_type_hint.py:42): the text is made
before the file is opened. -/
def writeStep (text : Except StrErr Str) (p : Path) (fs : Fs) : Fs × Option FileErr :=
  match text with
  | .error e => (fs, some (.text e))
  | .ok s => match writeText fs p s with
    | .ok fs' => (fs', none)
    | .error e => (fs, some e)

/-- `Tree.to_file` (lazy_type_hint/generators/lazy_type_hint.py:33-42): the file system afterwards, and the exception if any.
`text` is the outcome of `self.to_string(include_imports=True)`. -/
def toFile (text : Except StrErr Str) (fs : Fs) (p : Path) (create : Bool) : Fs × Option FileErr :=
  if (fs p.parent).isNone then
    if !create then (fs, some .value)
    else match makedirs fs (p.length + 1) p.parent with
      | .error e => (fs, some e)
      | .ok fs' => writeStep text p fs'
  else writeStep text p fs

/-- `Tree.to_file` of a tree. -/
def treeToFile (E : Env) (n : Node) (fs : Fs) (p : Path) (create : Bool) : Fs × Option FileErr :=
  toFile (toString' E n true) fs p create

end Verif
