import Verif.Spec.Basic
/-
Python files as lists of lines: private methods and what is around them.
-/
namespace Verif.Spec
open Verif

/-- The lines with visible text. -/
def codeLines (ls : List Str) : List Str := ls.filter (fun l => !l.all isSpace)

/-- A line that begins a private method or function: `def _name`, but not `def __name`, at any indentation. -/
def PrivateHead (l : Str) : Prop :=
  ∃ indent rest : Str, (∀ c ∈ indent, isSpace c = true) ∧ l = indent ++ py!"def _" ++ rest ∧ rest.head? ≠ some '_'

/-- The line ends the list of parameters. -/
def EndsParams (l : Str) : Prop := py!"):" <:+: l ∨ py!"->" <:+: l

/-- The line begins with more than `n` blanks. -/
def Deeper (n : Nat) (l : Str) : Prop := ∃ a b : Str, l = a ++ b ∧ a.length = n + 1 ∧ ∀ c ∈ a, isSpace c = true

/-- A private method: decorators, the line of `def`, further lines of the signature, the body. -/
structure PrivateMethod where
  decorators : List Str
  indent : Str
  rest : Str
  params : List Str
  body : List Str

def PrivateMethod.head (m : PrivateMethod) : Str := m.indent ++ py!"def _" ++ m.rest

def PrivateMethod.lines (m : PrivateMethod) : List Str := m.decorators ++ m.head :: m.params ++ m.body

/-- A well-formed private method with one line per decorator and no private functions inside. -/
structure PrivateMethod.Good (m : PrivateMethod) : Prop where
  indent : ∀ c ∈ m.indent, isSpace c = true
  single : m.rest.head? ≠ some '_'
  decorators : ∀ d ∈ m.decorators, '@' ∈ d
  signature : ∃ init last, m.head :: m.params = init ++ [last] ∧ EndsParams last ∧ ∀ l ∈ init, ¬ EndsParams l
  inner : ∀ l ∈ m.decorators ++ m.params ++ m.body, ¬ PrivateHead l
  body : ∀ l ∈ m.body, Blank l ∨ Deeper m.indent.length l

/-- A file: private methods and other lines. -/
inductive Piece
  | other (ls : List Str)
  | method (m : PrivateMethod)

def Piece.lines : Piece → List Str
  | .other ls => ls
  | .method m => m.lines

/-- The lines of a file. -/
def fileLines (ps : List Piece) : List Str := ps.flatMap Piece.lines

/-- The lines that do not belong to private methods. -/
def otherLines (ps : List Piece) : List Str := ps.flatMap (fun p => match p with
  | .other ls => ls
  | .method _ => [])

/-- The pieces fit together: `before` are the lines above. Above each private method there is a line that is no decorator; the
next visible line after it is not indented deeper. -/
def GoodFile (before : List Str) : List Piece → Prop
  | [] => True
  | .other ls :: r => (∀ l ∈ ls, ¬ PrivateHead l) ∧ GoodFile (before ++ ls) r
  | .method m :: r => m.Good ∧ (∃ p, before.getLast? = some p ∧ '@' ∉ p) ∧
      (∀ l, (codeLines (fileLines r)).head? = some l → ¬ Deeper m.indent.length l) ∧ GoodFile (before ++ m.lines) r

/-- No blank lines in private methods, and one directly after each, unless the file ends there. It is not longer than the
indentation of the method. -/
def Spaced : List Piece → Prop
  | [] => True
  | .other _ :: r => Spaced r
  | .method m :: r => (∀ l ∈ m.body, ¬ Blank l) ∧
      (fileLines r = [] ∨ ∃ b t, fileLines r = b :: t ∧ Blank b ∧ b.length ≤ m.indent.length) ∧ Spaced r

/-- The line of `def` of a method whose name begins with `name`. -/
def DefLine (name l : Str) : Prop := ∃ indent rest : Str, (∀ c ∈ indent, isSpace c = true) ∧ l = indent ++ py!"def " ++ name ++ rest

/-- Characters of identifiers, in ASCII. -/
def nameChar (c : Char) : Bool := c.isAlphanum || c == '_'

/-- The line of `def` of the method `name`. -/
def MethodLine (name l : Str) : Prop := ∃ indent rest : Str, (∀ c ∈ indent, isSpace c = true) ∧
  l = indent ++ py!"def " ++ name ++ rest ∧ ∀ c, rest.head? = some c → nameChar c = false

/-- A line with a decorator. -/
def AtLine (l : Str) : Prop := ∃ ind rest, Blank ind ∧ l = ind ++ '@' :: rest

/-- A line with the decorator of this name, with or without arguments. -/
def DecoratorLine (deco l : Str) : Prop :=
  ∃ ind rest, Blank ind ∧ l = ind ++ '@' :: deco ++ rest ∧ ∀ c, rest.head? = some c → nameChar c = false

/-- Line `j` is one of the decorators of what is defined in line `i`: all lines from `j` to `i` are decorators. -/
def Decorates (lines : List Str) (j i : Nat) : Prop := j < i ∧ ∀ k, j ≤ k → k < i → ∃ l, lines[k]? = some l ∧ AtLine l

/-- `ls` are lines of a block below the line `t`: indented deeper. -/
def BlockBelow (t : Str) (ls : List Str) : Prop := ∀ l ∈ ls, Deeper (t.takeWhile isSpace).length l

/-- Imports from `__future__` come before all other visible lines. -/
def FutureFirst (ls : List Str) : Prop :=
  ∃ a b, codeLines ls = a ++ b ∧ (∀ l ∈ a, py!"from __future__" <+: l) ∧ ∀ l ∈ b, ¬ py!"from __future__" <+: l

/-- Number of occurrences of a character in lines. -/
def countIn (c : Char) (ls : List Str) : Nat := (ls.map (List.count c)).sum

/-- The lines of one signature: its brackets are closed in the last line and not before. -/
def ClosedBrackets (ls : List Str) : Prop :=
  countIn '(' ls ≠ 0 ∧ countIn '(' ls = countIn ')' ls ∧ ∀ a b, ls = a ++ b → a ≠ [] → b ≠ [] → countIn ')' a < countIn '(' a

end Verif.Spec
