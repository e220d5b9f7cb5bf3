import Verif.Model.Val
/-
Loops over trees. A tree is its own iterator, so all loops over a tree share one position.
-/
namespace Verif

/-- How a class of trees iterates: by an index (sequences, sets, series), by an iterator over the keys of the children (mappings,
frames), or not at all (simple trees). -/
inductive IterKind
  | index | keys | simple
  deriving DecidableEq

/-- A tree as far as iteration is concerned: `self.children`, with their keys. -/
structure IterTree (α : Type) where
  kind : IterKind
  children : List (Key × α)

/-- The attribute `_iterator` of every tree: the index, or how many keys the iterator has handed out. -/
abbrev Cursors := Nat → Nat

/-- An assignment to `_iterator`. -/
def Cursors.set (s : Cursors) (i n : Nat) : Cursors := fun j => if j = i then n else s j

/-- `__next__` (sequence_data_type_tree.py:35-42, set_data_type_tree.py:48-55, pandas_series_data_type_tree.py:43-50,
mapping_data_type_tree.py:137-143, simple_data_type_tree.py:23-26): the next child, or `none` for `StopIteration`, and the new
position. -/
def nextChild {α} (t : IterTree α) (pos : Nat) : Option α × Nat :=
  match t.kind with
  | .simple => (none, pos)
  | .index => match t.children[pos]? with
    | some c => (some c.2, pos + 1)
    | none => (none, pos)
  | .keys => match t.children[pos]? with
    | some (.none, _) => (none, pos + 1)
    | some (_, c) => (some c, pos + 1)
    | none => (none, pos)

/-- The rest of a loop `for child in tree: body(child)` over the tree with number `i`. The body may move the positions of all trees;
it gives `none` if it does not end. So does the loop if it takes more than `steps` rounds. -/
def loopFrom {α} (T : Nat → IterTree α) (i : Nat) (body : α → Cursors → Option Cursors) : Nat → Cursors → Option (List α × Cursors)
  | 0, _ => none
  | steps + 1, s =>
    match nextChild (T i) (s i) with
    | (none, pos) => some ([], s.set i pos)
    | (some c, pos) => match body c (s.set i pos) with
      | none => none
      | some s' => (loopFrom T i body steps s').map fun r => (c :: r.1, r.2)

/-- The loop, which begins with `__iter__` (sequence_data_type_tree.py:30-33, set_data_type_tree.py:43-46,
pandas_series_data_type_tree.py:38-41, mapping_data_type_tree.py:132-135): it sets the position to the first child and returns the
tree itself. The children it has visited, and the positions afterwards. -/
def forLoop {α} (T : Nat → IterTree α) (i : Nat) (body : α → Cursors → Option Cursors) (steps : Nat) (s : Cursors) :
    Option (List α × Cursors) := loopFrom T i body steps (s.set i 0)

end Verif
