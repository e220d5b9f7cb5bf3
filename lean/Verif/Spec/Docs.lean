import Verif.Py.Str
/-
Documentation in generated files.
-/
namespace Verif.Spec
open Verif

/-- How often a text occurs in another, without overlaps. -/
def occurrences (p : Str) : Nat → Str → Nat
  | 0, _ => 0
  | _ + 1, [] => 0
  | n + 1, c :: r => if p.isPrefixOf (c :: r) then 1 + occurrences p n ((c :: r).drop p.length) else occurrences p n r

/-- The lines outside docstrings; `inside` tells whether the text begins in a docstring. -/
def outsideDocs : Bool → List Str → List Str
  | _, [] => []
  | inside, l :: r =>
    let n := occurrences py!"\"\"\"" l.length l
    let after := if n % 2 = 0 then inside else !inside
    if inside || n ≠ 0 then outsideDocs after r else l :: outsideDocs after r

/-- Two texts differ in documentation only. -/
def SameUpToDocs (a b : Str) : Prop := outsideDocs false (splitlines a) = outsideDocs false (splitlines b)

/-- Two texts have docstring delimiters in the same lines, and agree in all other lines. -/
def SameDocLines (a b : List Str) : Prop := a.length = b.length ∧
  ∀ (i : Nat) (x y : Str), a[i]? = some x → b[i]? = some y → x = y ∨ (contains py!"\"\"\"" x = true ∧ contains py!"\"\"\"" y = true)

/-- Two texts agree line by line, where lines with docstring delimiters and empty lines count as equal. -/
inductive SameButDocs : List Str → List Str → Prop
  | nil : SameButDocs [] []
  | same {l : Str} {a b : List Str} : SameButDocs a b → SameButDocs (l :: a) (l :: b)
  | docs {l m : Str} {a b : List Str} : (l = [] ∨ contains py!"\"\"\"" l = true) → (m = [] ∨ contains py!"\"\"\"" m = true) →
      SameButDocs a b → SameButDocs (l :: a) (m :: b)

/-- The lines that are not empty and have no docstring delimiter. -/
def plainLines (s : Str) : List Str := (splitlines s).filter (fun l => !l.isEmpty && !contains py!"\"\"\"" l)

end Verif.Spec
