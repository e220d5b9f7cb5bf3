import Verif.Model.Frames
/-
Data frames with their columns, and the recursion of the generator over them. What indexing with a label returns is that of
pandas (not part of the repository): a column, or the frame of all columns below the label.
-/
namespace Verif

/-- A label of a column: one key, or one key per level. -/
inductive ColLabel
  | plain (k : Key)
  | levels (first : Key) (rest : List Key)
  deriving DecidableEq

/-- A data frame: its labels and its columns, in order. -/
abbrev Table := List (ColLabel × Val)

/-- The label as the generator sees it; `reprTuple` is `repr` of tuples. -/
def ColLabel.label (reprTuple : Key → List Key → Str) : ColLabel → Label
  | .plain k => .single k
  | .levels k r => .tuple k r (reprTuple k r)

/-- What is left of a label below its first level. Simplified: the last label is dropped with its level, also if it is an empty
string. -/
def ColLabel.below : ColLabel → ColLabel
  | .plain k => .plain k
  | .levels _ [] => .levels .none []
  | .levels _ [k] => .plain k
  | .levels _ (k :: r) => .levels k r

def ColLabel.first : ColLabel → Key
  | .plain k => k
  | .levels k _ => k

/-- All labels have levels: `can_be_accessed_multilevel` (pandas_data_frame_data_type_tree.py:103-106). -/
def Table.multilevel (t : Table) : Bool := t.all (fun c => match c.1 with
  | .plain _ => false
  | .levels _ _ => true)

/-- The columns that `data[k]` selects: with several levels those whose label begins with `k`, without that level; otherwise those with
this label. -/
def Table.select (reprTuple : Key → List Key → Str) (t : Table) (k : Key) : Table :=
  if t.multilevel then (t.filter (fun c => c.1.first == k)).map (fun c => (c.1.below, c.2))
  else t.filter (fun c => (c.1.label reprTuple).key == k)

/-- `data[k]`: a column if only one has this label, otherwise a frame. -/
def Table.item (reprTuple : Key → List Key → Str) (t : Table) (k : Key) : Val ⊕ Table :=
  if t.multilevel then .inr (t.select reprTuple k)
  else match t.select reprTuple k with
    | [c] => .inl c.2
    | cs => .inr cs

/-- Results of all elements, or none. -/
def allSome {α : Type} : List (Option α) → Option (List α)
  | [] => some []
  | none :: _ => none
  | some a :: r => (allSome r).map (a :: ·)

/-- `data_type_tree_factory` for `data[column]` (pandas_data_frame_data_type_tree.py:129-139): frames are read in the same way. -/
def readItem (readFrame : Table → Option Val) : Val ⊕ Table → Option Val
  | .inl v => some v
  | .inr t => readFrame t

/-- The recursion over a frame: `_instantiate_children` and `_create_child` (pandas_data_frame_data_type_tree.py:129-162), which creates
the tree of `data[column]` for every column. The result is `none` if the recursion is deeper than the limit, that is, if Python raises
`RecursionError`. Simplified: columns of type `Series` count as read, and the type and the text of the index are given. -/
def readTable (reprTuple : Key → List Key → Str) (ty : Ty) (text : List Label → Str) : Nat → Table → Option Val
  | 0, _ => none
  | f + 1, t =>
    let cs := t.map (fun c => c.1.label reprTuple)
    let ks := visitedLabels cs
    (allSome (ks.map (fun k => readItem (readTable reprTuple ty text f) (t.item reprTuple k)))).map (fun vs => .map (.frame ⟨text cs, literalColumns cs⟩) ty ks vs)

end Verif
