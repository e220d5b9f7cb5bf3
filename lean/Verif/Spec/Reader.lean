import Verif.Spec.Basic
import Verif.Spec.Types
/-
Reading generated declarations back: a small parser for the part of Python's syntax that hints are written in. Properties
about the meaning of the generated text are stated through it. It covers aliases, TypedDicts without docstrings and classes for data frames.
-/
namespace Verif.Spec
open Verif

/-- Characters that end an identifier. -/
def delimiters : List Char := ['[', ']', ',', '"', ' ', '\n', ':', '(', ')', '=']

/-- The characters of (dotted) identifiers and the ellipsis. -/
def identChar (c : Char) : Bool := !delimiters.contains c

/-- `stripPrefix p s`: the rest of `s` after the prefix `p`. -/
def stripPrefix : Str → Str → Option Str
  | [], s => some s
  | c :: p, d :: s => if c = d then stripPrefix p s else none
  | _ :: _, [] => none

/-- The meaning of `con[args]`. -/
def mkApp (con : Str) (args : List TExpr) : Option TExpr :=
  if con = py!"Union" then some (.union args)
  else if con = py!"Optional" then (match args with
    | [.name n] => if n = py!"object" then some .object else none
    | _ => none)
  else if con = py!"Tuple" then (match args with
    | [t, .name n] => if n = py!"..." then some (.tupleOf t) else some (.tuple args)
    | _ => some (.tuple args))
  else match args with
    | [t] => some (.app con t)
    | [k, v] => some (.mapping con k v)
    | _ => none

/-- Read `Any, Any, ...]`. -/
def readParams : Nat → Str → Option (Nat × Str)
  | 0, _ => none
  | fuel + 1, s => match s with
    | ']' :: r => some (0, r)
    | s => match stripPrefix py!"Any" s with
      | some (']' :: r) => some (1, r)
      | some (',' :: ' ' :: r) => (readParams fuel r).map (fun p => (p.1 + 1, p.2))
      | _ => none

/-- Read `[Any, Any, ...], Any]`, the rest of a `Callable`. -/
def readCallable (s : Str) : Option (TExpr × Str) :=
  match s with
  | '[' :: r => match readParams (r.length + 1) r with
    | some (n, r) => (stripPrefix py!", Any]" r).map (fun rest => (.callable n, rest))
    | none => none
  | _ => none

mutual
/-- Read a type expression; the rest of the text is returned with it. -/
def readType : Nat → Str → Option (TExpr × Str)
  | 0, _ => none
  | fuel + 1, s => match s with
    | [] => none
    | '"' :: r => match r.dropWhile (· != '"') with
      | '"' :: rest => some (.quoted (r.takeWhile (· != '"')), rest)
      | _ => none
    | s =>
      let n := s.takeWhile identChar
      if n.isEmpty then none else match s.dropWhile identChar with
        | '[' :: r => if n = py!"Callable" then readCallable r else match readArgs fuel r with
          | some (args, rest) => (mkApp n args).map (fun t => (t, rest))
          | none => none
        | rest => some (.name n, rest)
/-- Read `t1, t2, ...]`. -/
def readArgs : Nat → Str → Option (List TExpr × Str)
  | 0, _ => none
  | fuel + 1, s => match readType fuel s with
    | some (t, ']' :: rest) => some ([t], rest)
    | some (t, ',' :: ' ' :: r) => (readArgs fuel r).map (fun p => (t :: p.1, p.2))
    | _ => none
end

/-- Read a text that is one type expression. -/
def readTypeAll (s : Str) : Option TExpr :=
  match readType (2 * s.length + 2) s with
  | some (t, []) => some t
  | _ => none

/-- Read an expression that may be qualified as `ReadOnly` or `NotRequired`: flags and type. -/
def qualifiers : TExpr → Bool × Bool × TExpr
  | .app con t =>
    if con = py!"ReadOnly" then (true, match t with
      | .app con' u => if con' = py!"NotRequired" then (false, u) else (true, t)
      | _ => (true, t))
    else if con = py!"NotRequired" then (false, false, t) else (false, true, .app con t)
  | t => (false, true, t)

def mkEntry (key : Str) (t : TExpr) : Entry :=
  { key, readOnly := (qualifiers t).1, required := (qualifiers t).2.1, type := (qualifiers t).2.2 }

/-- Read the line of a key in class syntax. -/
def readClassLine (s : Str) : Option Entry :=
  match stripPrefix py!"    " s with
  | some r => match stripPrefix py!": " (r.dropWhile (· != ':')) with
    | some t => (readTypeAll t).map (mkEntry (r.takeWhile (· != ':')))
    | none => none
  | none => none

/-- Read the line of a key in functional syntax. -/
def readDictLine (s : Str) : Option Entry :=
  match stripPrefix py!"        \"" s with
  | some r => match readString r with
    | some (key, r) => match stripPrefix py!": " r with
      | some t => if t.getLast? = some ',' then (readTypeAll t.dropLast).map (mkEntry key) else none
      | none => none
    | none => none
  | none => none

/-- Apply a reader to every line. -/
def readAll {α β} (f : α → Option β) : List α → Option (List β)
  | [] => some []
  | a :: r => match f a, readAll f r with
    | some b, some l => some (b :: l)
    | _, _ => none

/-- Read the overloads of `__getitem__` in the class of a data frame: the literal of the label and the result type. -/
def readOverloads : Nat → Str → Option (List (Str × TExpr) × Str)
  | 0, _ => none
  | fuel + 1, s => match stripPrefix py!"    @overload  # type: ignore\n    def __getitem__(self, key: Literal[" s with
    | none => some ([], s)
    | some r => match stripPrefix py!"]) -> " (r.dropWhile (· != ']')) with
      | none => none
      | some q => match readType (2 * q.length + 2) q with
        | none => none
        | some (t, rest) => match stripPrefix py!":\n        ...\n\n" rest with
          | none => none
          | some s' => (readOverloads fuel s').map (fun p => ((r.takeWhile (· != ']'), t) :: p.1, p.2))

/-- Read one declaration. -/
def readDecl (s : Str) : Option TDecl :=
  match stripPrefix py!"class " s with
  | some r =>
    match stripPrefix py!"(TypedDict):\n" (r.dropWhile identChar) with
    | some body =>
      if body = py!"    ..." then some ⟨r.takeWhile identChar, .record false none []⟩
      else (readAll readClassLine (splitChar '\n' body)).map (fun es => ⟨r.takeWhile identChar, .record false none es⟩)
    | none => match stripPrefix py!"(pd.DataFrame):\n\n" (r.dropWhile identChar) with
      | some body => (readOverloads (body.length + 1) body).map (fun p => ⟨r.takeWhile identChar, .frame p.1 p.2⟩)
      | none => none
  | none =>
    let name := s.takeWhile identChar
    let rest := s.dropWhile identChar
    match stripPrefix py!": TypeAlias = " rest with
    | some t => (readTypeAll t).map (fun t => ⟨name, .alias t⟩)
    | none =>
      match stripPrefix (py!" = TypedDict(\n    \"" ++ name ++ py!"\",\n    {\n") rest with
      | some body =>
        let lines := splitChar '\n' body
        if lines.drop (lines.length - 2) = [py!"    },", py!")"] then
          (readAll readDictLine (lines.take (lines.length - 2))).map (fun es => ⟨name, .record true none es⟩)
        else none
      | none => none

/-- Read the declarations of a generated text. -/
def readText (strs : List Str) : Option (List TDecl) := readAll readDecl strs

end Verif.Spec
