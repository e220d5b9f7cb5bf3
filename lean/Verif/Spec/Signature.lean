import Verif.Model.Signature
import Verif.Spec.Symbols
import Verif.Spec.Lexemes
/-
Signatures of functions as Python prints them.
-/
namespace Verif.Spec
open Verif

/-- A parameter: its name (with its stars), its annotation and the text of its default. -/
structure Param where
  name : Str
  ann : Option Str := none
  dflt : Option Str := none

def Param.print (p : Param) : Str :=
  match p.ann, p.dflt with
  | none, none => p.name
  | none, some d => p.name ++ py!"=" ++ d
  | some a, none => p.name ++ py!": " ++ a
  | some a, some d => p.name ++ py!": " ++ a ++ py!" = " ++ d

structure Signature where
  params : List Param
  ret : Option Str := none

/-- `(a: int, b: str = 'x', *c) -> bool`. -/
def Signature.print (s : Signature) : Str :=
  py!"(" ++ join py!", " (s.params.map Param.print) ++ py!")" ++
  (match s.ret with
   | some r => py!" -> " ++ r
   | none => [])

/-- The annotations of a signature. -/
def Signature.annotations (s : Signature) : List Str := s.params.filterMap Param.ann ++ s.ret.toList

/-- The characters of words: letters, digits and underscores. -/
def wordLetter (U : Uni) (c : Char) : Bool := U.isAlnum c || c == '_'

/-- `x` is one of the words of the text `a`. -/
def Mentions (U : Uni) (a x : Str) : Prop :=
  ∃ l r, a = l ++ x ++ r ∧ x ≠ [] ∧ (∀ c ∈ x, wordLetter U c = true) ∧ (∀ c, l.getLast? = some c → wordLetter U c = false) ∧
    (∀ c, r.head? = some c → wordLetter U c = false)

/-- An annotation without white space, commas and colons. -/
def SimpleAnn (a : Str) : Prop := a ≠ [] ∧ ∀ c ∈ a, isSpace c = false ∧ c ≠ ',' ∧ c ≠ ':'

/-- The names under which symbols of another name, or modules, are imported. -/
def namedOtherwise : List Str := [py!"list", py!"set", py!"tuple", py!"dict", py!"type", py!"numpy", py!"pandas"]

/-- A printed signature of ASCII characters, letters and digits, without the words of `namedOtherwise`, in which no text follows `):`
directly. -/
structure QuietSig (U : Uni) (args : Str) : Prop where
  opening : args.head? = some '('
  chars : ∀ c ∈ args, isAscii c = true ∨ U.isAlnum c = true
  colon : ∀ l r, args = l ++ (py!"):" ++ r) → ∀ c, r.head? = some c → isSpace c = true ∨ c = ','
  words : ∀ x ∈ namedOtherwise, x ∉ lexemes args

end Verif.Spec
