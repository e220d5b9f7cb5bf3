import Verif.Py.Str
/-
How text is filled into lines of a given width.
-/
namespace Verif.Spec
open Verif

/-- `rows` are the words `ws` in order, put on lines of width `n` greedily: a line of several words fits, and the first word of
the next line would not have fitted. -/
structure Fill (n : Nat) (ws : List Str) (rows : List (List Str)) : Prop where
  words : rows.flatten = ws
  fits : ∀ row ∈ rows, row ≠ [] ∧ (row.length = 1 ∨ (join py!" " row).length ≤ n)
  greedy : ∀ before row w rest after, rows = before ++ row :: (w :: rest) :: after → n < (join py!" " row).length + 1 + w.length

/-- What becomes of one line of the text: an empty line is kept, the words of any other line are filled into lines. -/
def LineFilled (n : Nat) (line : Str) (out : List Str) : Prop :=
  line = [] ∧ out = [[]] ∨ line ≠ [] ∧ ∃ rows, Fill n (words line) rows ∧ out = rows.map (join py!" ")

/-- Text that is put on the line of its quotes: it has no line break, and it fits with its quotes, or its words fit, or it is
a single word. -/
def FitsOneLine (n : Nat) (t : Str) : Prop :=
  '\n' ∉ t ∧ (t.length + 6 ≤ n ∨ (join py!" " (words t)).length ≤ n ∨ (words t).length = 1)

end Verif.Spec
