import Verif.Spec.Reader
import Verif.Spec.Shape
/-
The names that generated declarations declare and the identifiers they use.
-/
namespace Verif.Spec
open Verif

/-- The name that a declaration declares: `class N...` or `N...`. -/
def declName (s : Str) : Str :=
  if startsWith s py!"class " then (s.drop 6).takeWhile identChar else s.takeWhile identChar

/-- A text with an ASCII letter. -/
def HasLetter (s : Str) : Prop := ∃ c ∈ s, isAscii c = true ∧ c.isAlpha = true

/-- Every class and every key contributes to the names of the values below it. -/
def Named (v : Val) : Prop :=
  ValAll (fun t => HasLetter t.name) (fun k => match k with
    | .str s => HasLetter s
    | k => HasLetter k.ty.name) (fun _ => True) v

/-- The class names of a value, its elements and its keys. -/
def classNames (v : Val) : List Str := valClasses v
where
  valClasses : Val → List Str
    | .inst t _ => [t.name]
    | .func f => [f.ty.name]
    | .cls _ n => [n]
    | .module t => [t.name]
    | .io t => [t.name]
    | .ndarray t _ => [t.name]
    | .seq _ t es => t.name :: listClasses es
    | .map _ t ks vs => t.name :: (ks.map (fun k => k.ty.name) ++ listClasses vs)
  listClasses : List Val → List Str
    | [] => []
    | v :: l => valClasses v ++ listClasses l

/-- The names other than builtins that hints are written with; they are in scope through the import lines. -/
def libraryNames : List Str :=
  [py!"Any", py!"Optional", py!"object", py!"Union", py!"List", py!"Sequence", py!"Set", py!"FrozenSet", py!"Iterator",
   py!"Tuple", py!"Dict", py!"Mapping", py!"MappingProxyType", py!"Callable", py!"Type", py!"ModuleType", py!"TextIO",
   py!"pd.Series", py!"pd.DataFrame"]

/-- Every identifier used by a declaration is in scope or was declared before it. -/
def DeclaredBeforeUse (scope : Str → Prop) (Γ : List TDecl) : Prop :=
  ∀ pre d post, Γ = pre ++ d :: post → ∀ t ∈ d.body.types, ∀ x ∈ t.idents, scope x ∨ Declared pre x

/-- Sequences, sets, iterators and series nested in each other in any way, without mappings and tuples of fixed size. -/
def OnlySequences (S : Strategies) (v : Val) : Prop :=
  Every (fun w => match w with
    | .map .. => False
    | .seq .tuple _ _ => S.tuple = .anySize
    | _ => True) v

/-- Class names of ASCII letters and digits that begin with a letter. -/
def LetterFirst (t : Ty) : Prop := ∃ c r, t.name = c :: r ∧ c.isAlpha = true ∧ ∀ d ∈ c :: r, asciiAlnum d = true

end Verif.Spec
