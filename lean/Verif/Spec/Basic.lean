import Verif.Py.Unicode
/-
Small specifications used in property statements. Nothing here refers to the model of the code.
-/
namespace Verif.Spec
open Verif

/-- `ys` lists the elements of `xs` once each, in order of first occurrence. -/
structure FirstOccurrences {α : Type} [BEq α] (xs ys : List α) : Prop where
  nodup : ys.Nodup
  mem : ∀ x, x ∈ ys ↔ x ∈ xs
  order : ys.Pairwise (fun x y => xs.idxOf x < xs.idxOf y)

/-- Python identifier grammar restricted to ASCII: `[A-Za-z_][A-Za-z0-9_]*`. -/
def AsciiIdent (s : Str) : Prop :=
  ∃ c r, s = c :: r ∧ (c.isAlpha = true ∨ c = '_') ∧ ∀ d ∈ r, d.isAlpha = true ∨ d.isDigit = true ∨ d = '_'

/-- Reading a Python triple-quoted literal, after the opening quotes: a backslash protects the next character,
three quotes close the literal. Returns the raw characters before the closing quotes and the text after it. -/
def readTriple : Str → Option (Str × Str)
  | [] => none
  | '"' :: '"' :: '"' :: rest => some ([], rest)
  | '\\' :: c :: rest => (readTriple rest).map fun p => ('\\' :: c :: p.1, p.2)
  | c :: rest => (readTriple rest).map fun p => (c :: p.1, p.2)

/-- The text `d` is one complete triple-quoted literal with raw content `body`. -/
def IsTripleLiteral (d body : Str) : Prop :=
  ∃ r, d = '"' :: '"' :: '"' :: r ∧ readTriple r = some (body, [])

/-- The meaning of a simple escape sequence in a Python string literal; `none` for the numeric and named ones. -/
def escapeValue (c : Char) : Option Str :=
  if c = 'n' then some ['\n'] else if c = 't' then some ['\t'] else if c = 'r' then some ['\r']
  else if c = '\\' ∨ c = '"' ∨ c = '\'' then some [c]
  else if c = '\n' then some []
  else if c.isDigit ∨ c = 'x' ∨ c = 'u' ∨ c = 'U' ∨ c = 'N' then none
  else some ['\\', c]

/-- Reading a double-quoted Python string literal, after the opening quote: its value and the text after it. -/
def readString : Str → Option (Str × Str)
  | [] => none
  | '"' :: rest => some ([], rest)
  | '\\' :: c :: rest => match escapeValue c, readString rest with
    | some e, some p => some (e ++ p.1, p.2)
    | _, _ => none
  | c :: rest => if c = '\n' ∨ c = '\r' then none else (readString rest).map fun p => (c :: p.1, p.2)

/-- Blank text: whitespace only. -/
def Blank (s : Str) : Prop := ∀ c ∈ s, isSpace c = true

end Verif.Spec
