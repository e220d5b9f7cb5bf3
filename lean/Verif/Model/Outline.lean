import Verif.Model.Render
/-
`print_all_children`: the outline of a tree on the terminal.
-/
namespace Verif

/-- `type(self).__name__` of a tree: the classes of data_type_tree/generic_type and data_type_tree/simple_data_type_tree, by the
values they are made for (their `wraps`). -/
def treeClass : NKind → Str
  | .inst => py!"InstanceDataTypeTree"
  | .func _ => py!"FunctionDataTypeTree"
  | .cls _ => py!"TypeDataTypeTree"
  | .module => py!"ModuleTypeDataTypeTree"
  | .io => py!"IoDataTypeTree"
  | .ndarray _ => py!"NumpyDataTypeTree"
  | .seq .list => py!"ListDataTypeTree"
  | .seq .tuple => py!"TupleDataTypeTree"
  | .seq .set | .seq .frozenset => py!"SetDataTypeTree"
  | .seq .iterator => py!"IteratorDataTypeTree"
  | .seq .series => py!"PandasSeriesDataTypeTree"
  | .dict _ _ => py!"DictDataTypeTree"
  | .proxy => py!"MappingProxyDataTypeTree"
  | .frame _ => py!"PandasDataFrameDataTypeTree"

/-- `__repr__` (data_type_tree.py:291-293). -/
def Hdr.repr (h : Hdr) : Str := treeClass h.kind ++ '-' :: h.name

mutual
/-- `print_all_children` (data_type_tree.py:310-316) of a tree at the given depth: the text of every call of `print`. The loop over
the children ends at a `None` key (mapping_data_type_tree.py:137-143). `recursive` is only handed on. -/
def Node.printAllChildren (recursive : Bool) (depth : Nat) : Node → List Str
  | .mk h kids => ((List.replicate depth py!"    ").flatten ++ h.repr) :: printKids recursive (depth + 1) h.slots kids
def printKids (recursive : Bool) (depth : Nat) : List Slot → List Node → List Str
  | s :: slots, k :: kids =>
    if s.key = .none then [] else k.printAllChildren recursive depth ++ printKids recursive depth slots kids
  | _, _ => []
end

end Verif
