import Verif.Model.TreeObject
/-
What the text of a hint is made from when the data has been changed since `from_data`.

A tree keeps a reference to the object it describes (data_type_tree.py:92). Most of what is printed is taken from it when the tree is
made. When the text is made, the object is read again at these places only: a dictionary for its documentation
(dict_data_type_tree.py:342, 351), a frame for the classes of its labels (pandas_data_frame_data_type_tree.py:95-99), a function for
its name, signature and source (function_data_type_tree.py:20, 32, 46, 58, 75, 79), an array for the type of its elements
(numpy_data_type_tree.py:15), a class for its name (type_data_type_tree.py:17-22). Merged dictionaries are copies made by the tree
(dict_data_type_tree.py:348, 394), so a change of the data does not reach them; here they may change as well.
-/
namespace Verif

/-- What a node refers to after a change of the data. -/
inductive NKind.Later : NKind → NKind → Prop
  | same (k : NKind) : Later k k
  | dict (data data' : List (Key × Val)) (m : DMeta) : Later (.dict data m) (.dict data' m)
  | frame (i i' : FrameInfo) : Later (.frame i) (.frame i')
  | func (f f' : FuncInfo) : Later (.func f) (.func f')
  | cls (n n' : Str) : Later (.cls n) (.cls n')
  | ndarray (d d' : Str) : Later (.ndarray d) (.ndarray d')

mutual
/-- The same tree object at a later time. -/
def Node.Later : Node → Node → Prop
  | .mk h kids, .mk h' kids' =>
    h.kind.Later h'.kind ∧ h'.name = h.name ∧ h'.root = h.root ∧ h'.ty = h.ty ∧ h'.slots = h.slots ∧ laterList kids kids'
def laterList : List Node → List Node → Prop
  | [], [] => True
  | k :: r, k' :: r' => k.Later k' ∧ laterList r r'
  | _, _ => False
end

/-- A history of calls on the hint; with each of them, the tree as it is at that time. -/
def laterRun (E : Env) : TreeState → List (Node × TreeOp) → List TreeResult × TreeState
  | s, [] => ([], s)
  | s, (n, op) :: ops =>
    let r := n.treeStep E s op
    let rest := laterRun E r.2 ops
    (r.1 :: rest.1, rest.2)

end Verif
