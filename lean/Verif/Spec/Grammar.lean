import Verif.Spec.Basic
import Verif.Spec.Imports
/-
The part of Python's grammar that stubs are written in, as predicates on texts. Nothing here refers to the model of the
generator.
-/
namespace Verif.Spec
open Verif

/-- The reserved words of Python. -/
def keywords : List Str :=
  [py!"False", py!"None", py!"True", py!"and", py!"as", py!"assert", py!"async", py!"await", py!"break", py!"class",
   py!"continue", py!"def", py!"del", py!"elif", py!"else", py!"except", py!"finally", py!"for", py!"from", py!"global",
   py!"if", py!"import", py!"in", py!"is", py!"lambda", py!"nonlocal", py!"not", py!"or", py!"pass", py!"raise",
   py!"return", py!"try", py!"while", py!"with", py!"yield"]

/-- An identifier in ASCII. -/
def Identifier (s : Str) : Prop := AsciiIdent s ∧ s ∉ keywords

/-- Texts that are copied into stubs from elsewhere: parameter lists of functions, with their parentheses, and expressions
(annotations of functions, labels). Whether they are valid Python is not for the generator to decide. -/
structure Copied where
  params : Str → Prop
  expr : Str → Prop

/-- Nothing is copied. -/
def Copied.nothing : Copied := ⟨fun _ => False, fun _ => False⟩

/-- Space between tokens inside brackets. -/
def Gap (s : Str) : Prop := ∀ c ∈ s, c = ' ' ∨ c = '\n'

/-- One or more things separated by commas, as between brackets: there may be space around every one and a comma after the
last. -/
inductive Items (P : Str → Prop) : Str → Prop
  | last {w a w'} : Gap w → P a → Gap w' → Items P (w ++ a ++ w')
  | trailing {w a w' w''} : Gap w → P a → Gap w' → Gap w'' → Items P (w ++ a ++ w' ++ py!"," ++ w'')
  | more {w a w' r} : Gap w → P a → Gap w' → Items P r → Items P (w ++ a ++ w' ++ py!"," ++ r)

/-- What may stand between the quotes of a string without escapes. -/
def InQuotes (s : Str) : Prop := ∀ c ∈ s, c ≠ '"' ∧ c ≠ '\\' ∧ c ≠ '\n' ∧ c ≠ '\r'

/-- Expressions: dotted names, constants, strings, lists and subscripts. -/
inductive PyExpr (G : Copied) : Str → Prop
  | name {n} : Identifier n → PyExpr G n
  | attribute {e n} : PyExpr G e → Identifier n → PyExpr G (e ++ py!"." ++ n)
  | constant {c} : c ∈ [py!"None", py!"True", py!"False", py!"..."] → PyExpr G c
  | string {s} : InQuotes s → PyExpr G (py!"\"" ++ s ++ py!"\"")
  | emptyList : PyExpr G py!"[]"
  | list {s} : Items (PyExpr G) s → PyExpr G (py!"[" ++ s ++ py!"]")
  | subscript {e s} : PyExpr G e → Items (PyExpr G) s → PyExpr G (e ++ py!"[" ++ s ++ py!"]")
  | copied {s} : G.expr s → PyExpr G s

/-- A parameter of a function, with or without an annotation. -/
inductive PyParam (G : Copied) : Str → Prop
  | plain {n} : Identifier n → PyParam G n
  | typed {n e} : Identifier n → PyExpr G e → PyParam G (n ++ py!": " ++ e)

/-- A parameter list with its parentheses. -/
inductive PyParams (G : Copied) : Str → Prop
  | none : PyParams G py!"()"
  | some {s} : Items (PyParam G) s → PyParams G (py!"(" ++ s ++ py!")")
  | copied {s} : G.params s → PyParams G s

/-- What stands between the name of a function and the colon. -/
inductive PySignature (G : Copied) : Str → Prop
  | plain {p} : PyParams G p → PySignature G p
  | returning {p e} : PyParams G p → PyExpr G e → PySignature G (p ++ py!" -> " ++ e)

/-- A line with a decorator in the body of a class; a comment may follow. -/
def PyDecorator (d : Str) : Prop :=
  ∃ n c, Identifier n ∧ '\n' ∉ c ∧ (d = py!"    @" ++ n ++ py!"\n" ∨ d = py!"    @" ++ n ++ py!"  #" ++ c ++ py!"\n")

/-- The bodies of methods. -/
def methodBodies : List Str := [py!" ...", py!"\n        ...", py!"\n        return super().__getitem__(key)"]

/-- One statement in the body of a class, indented by four spaces, or an empty line. -/
inductive PyMember (G : Copied) : Str → Prop
  | empty : PyMember G []
  | ellipsis : PyMember G py!"    ..."
  | docstring {d b} : IsTripleLiteral d b → PyMember G (py!"    " ++ d)
  | field {n e} : Identifier n → PyExpr G e → PyMember G (py!"    " ++ n ++ py!": " ++ e)
  | method {ds n s b} : (∀ d ∈ ds, PyDecorator d) → Identifier n → PySignature G s → b ∈ methodBodies →
      PyMember G (List.flatten ds ++ py!"    def " ++ n ++ s ++ py!":" ++ b)

/-- An item of a dictionary display. -/
def PyPair (G : Copied) (s : Str) : Prop := ∃ k e, InQuotes k ∧ PyExpr G e ∧ s = py!"\"" ++ k ++ py!"\": " ++ e

/-- An argument of a call: an expression or a dictionary display. -/
inductive PyArg (G : Copied) : Str → Prop
  | expr {e} : PyExpr G e → PyArg G e
  | emptyDict {w} : Gap w → PyArg G (py!"{" ++ w ++ py!"}")
  | dict {s} : Items (PyPair G) s → PyArg G (py!"{" ++ s ++ py!"}")

/-- The names of an import statement are identifiers, with dots between the parts of a module. -/
def ImportStmt.Legal : ImportStmt → Prop
  | .fromImport m ns => (∃ ps, ps ≠ [] ∧ m = join py!"." ps ∧ ∀ p ∈ ps, Identifier p) ∧ ∀ n ∈ ns, Identifier n
  | .importAs m a => (∃ ps, ps ≠ [] ∧ m = join py!"." ps ∧ ∀ p ∈ ps, Identifier p) ∧ Identifier a

/-- A statement at the top level, or an empty line. -/
inductive PyStmt (G : Copied) : Str → Prop
  | empty : PyStmt G []
  | docstring {d b} : IsTripleLiteral d b → PyStmt G d
  | annotated {n a e} : Identifier n → PyExpr G a → PyExpr G e → PyStmt G (n ++ py!": " ++ a ++ py!" = " ++ e)
  | call {n f s} : Identifier n → PyExpr G f → Items (PyArg G) s → PyStmt G (n ++ py!" = " ++ f ++ py!"(" ++ s ++ py!")")
  | class {n b} {ms : List Str} : Identifier n → PyExpr G b → (∀ m ∈ ms, PyMember G m) → (∃ m ∈ ms, m ≠ []) →
      PyStmt G (py!"class " ++ n ++ py!"(" ++ b ++ py!"):" ++ ms.flatMap (fun m => '\n' :: m))
  | imports {st t} : st.Legal → Layout st t → PyStmt G t

/-- A module: statements one below the other. -/
def PyModule (G : Copied) (text : Str) : Prop := ∃ sts, (∀ s ∈ sts, PyStmt G s) ∧ text = join py!"\n" sts

end Verif.Spec
