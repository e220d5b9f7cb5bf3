import Verif.Model.Render
/-
How the columns of a data frame are read (generic_type/pandas_data_frame_data_type_tree.py). Values of kind `frame` hold the result:
the labels that are visited, and whether the frame gets a declaration in any case.
-/
namespace Verif

/-- An element of `data.columns`: a tuple or anything else. Simplified: no empty tuples, for which `column[0]` would raise. -/
inductive Label
  | single (k : Key)
  | tuple (first : Key) (rest : List Key) (repr : Str)

/-- `isinstance(column, tuple)`. -/
def Label.isTuple : Label → Bool
  | .tuple _ _ _ => true
  | .single _ => false

/-- The column as a key of `children`. -/
def Label.key : Label → Key
  | .single k => k
  | .tuple _ _ r => .other .tuple r

/-- `column[0]` of a tuple, otherwise the column itself. -/
def Label.first : Label → Key
  | .single k => k
  | .tuple k _ _ => k

/-- `are_all_columns_literal_compatible` (pandas_data_frame_data_type_tree.py:119-127). -/
def compatibleLabels (cs : List Label) : Bool := cs.all (fun c => literalKey c.first)

/-- The conditions of `permission_to_be_created_as_type_alias` other than that of the super class (pandas_data_frame_data_type_tree.py:95-100). -/
def literalColumns (cs : List Label) : Bool :=
  if cs.all Label.isTuple then cs.all (fun c => literalKey c.first) else cs.all (fun c => !c.isTuple && literalKey c.first)

/-- `column` is a tuple of one element (pandas_data_frame_data_type_tree.py:148). -/
def Label.lone : Label → Bool
  | .tuple _ [] _ => true
  | _ => false

/-- The keys of the dictionary made by `_instantiate_children` (pandas_data_frame_data_type_tree.py:141-162). -/
def visitedLabels (cs : List Label) : List Key :=
  if !compatibleLabels cs then []
  else if cs.all Label.lone then []
  else if cs.all Label.isTuple then dedup (cs.map Label.first)
  else dedup (cs.map Label.key)

/-- A data frame with the given columns as the generator reads it: `text` is `str(data.columns)`, `get` is `data[column]`. -/
def readFrame (ty : Ty) (text : Str) (cs : List Label) (get : Key → Val) : Val :=
  .map (.frame ⟨text, literalColumns cs⟩) ty (visitedLabels cs) ((visitedLabels cs).map get)

/-- If the value is a frame, it was read from some columns. -/
def ReadFrame : Val → Prop
  | .map (.frame i) ty ks vs => ∃ text cs get, .map (.frame i) ty ks vs = readFrame ty text cs get
  | _ => True

end Verif
