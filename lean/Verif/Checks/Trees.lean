import Verif.Model.Generator
/-
Expected values of the repository's unit tests for data type trees, evaluated in the model. These are tests of the
reading of the code, not proofs of properties.
-/
namespace Verif.Checks
open Verif

/-- A call of a tree class and the expected `get_str_top_node()` and number of children. -/
structure TreeCase where
  S : Strategies
  name : Str
  data : Val
  text : Str
  kids : Option Nat

def topIs (c : TreeCase) : Bool :=
  match buildTree (exEnv c.S) c.name c.data with
  | .ok n => (n.render (exEnv c.S)).top.text == c.text && (match c.kids with
    | some k => n.kids.length == k
    | none => true)
  | .error _ => false

def sameHash (c : Strategies × Val × Val × Bool) : Bool :=
  match buildTree (exEnv c.1) py!"Tree1" c.2.1, buildTree (exEnv c.1) py!"Tree2" c.2.2.1 with
  | .ok a, .ok b => H.eqv (a.hash c.1) (b.hash c.1) == c.2.2.2
  | _, _ => false

def allNodesAre (sorted : Bool) (v : Val) (texts : List Str) : Bool :=
  let ds := declsOf (exEnv {}) py!"Example" v
  if sorted then sortStr ds == sortStr texts else ds == texts

def sameElems {α} [BEq α] (a b : List α) : Bool := a.length == b.length && a.all b.contains && b.all a.contains

/-- Values as far as they are compared in the tests. -/
def sameVal : Val → Val → Bool
  | .inst t x, .inst t' y => t == t' && x == y
  | _, _ => false

/-- Equality of dictionaries. -/
def sameDict (a b : List (Key × Val)) : Bool :=
  a.length == b.length && a.all fun kv => match lookupKey kv.1 b with
    | some v => sameVal kv.2 v
    | none => false

def docsAre (m : DMeta) (docs : List (Str × Str)) : Bool := docs.all fun kd => (keyDoc m kd.1).getD [] == kd.2

def updateIs (c : List (Key × Val) × List (Key × Val) × List (Key × Val) × List (Key × Bool) × List (Str × Str)) : Bool :=
  let m := (DMeta.ofData c.1).update (DMeta.ofData c.2.1)
  sameDict m.data c.2.2.1 && sameElems m.req c.2.2.2.1 && docsAre m c.2.2.2.2

def mergedIs (c : List (List (Key × Val)) × List (Key × Val) × List (Key × Bool) × List (Str × Str)) : Bool :=
  let E := exEnv {}
  let trees := c.1.filterMap fun d => match buildTree E py!"Name" (.dict d) with
    | .ok n => some n
    | .error _ => none
  trees.length == c.1.length && match mergeDicts (build E 5 false) trees with
    | .ok n => match nodeMeta n with
      | some m => sameDict (nodeData n) c.2.1 && sameElems m.req c.2.2.1 && docsAre m c.2.2.2
      | none => false
    | .error _ => false

def onlyChildIs (c : Val × List (Key × Val)) : Bool :=
  match buildTree (exEnv {}) py!"A" c.1 with
  | .ok (.mk _ [k]) => sameDict (nodeData k) c.2
  | _ => false

/-- The children of a list (`repeated = false`) or fixed tuple with these elements. -/
def childrenOf (repeated : Bool) (merge : Nat) (es : List Val) : List Node :=
  let E := exEnv { merge }
  match (if repeated then tupleChildren E (build E 5 false) py!"EXAMPLE" es else setChildren E (build E 5 false) py!"EXAMPLE" es) with
  | .ok (_, kids) => kids
  | .error _ => []

def mergesTo (es : List Val) (req : List (Key × Bool)) : Bool :=
  [true, false].all fun repeated =>
    let kids := childrenOf repeated 20 es
    let dicts := kids.filterMap nodeMeta
    let others := fun (l : List Val) => (l.filter (fun v => v.items.isEmpty)).length
    (repeated || dicts.length == 1) && (kids.filter (fun k => (nodeMeta k).isNone)).length == others es &&
    dicts.all (fun m => sameElems m.req req)

def keeps (es : List Val) (_ : List (Key × Bool)) : Bool :=
  [true, false].all fun repeated =>
    let kids := childrenOf repeated 99 es
    kids.length == es.length && kids.all fun k => match nodeMeta k with
      | some m => m.req.all (·.2)
      | none => true

/-! test_generic_data_type_tree/test_set_data_type_tree.py, TestGetStrPy.test_get_str_top_node -/
example : ([⟨{ minHeight := 0 }, py!"Example", .seq .set .set [.inst .int none], py!"Example: TypeAlias = Set[int]", some 1⟩,
  ⟨{ minHeight := 0 }, py!"Example", .seq .set .set [.inst .int none, .inst .int none], py!"Example: TypeAlias = Set[int]", some 1⟩,
  ⟨{ minHeight := 0 }, py!"Example", .seq .set .set [.inst .int none, .inst .float none], py!"Example: TypeAlias = Set[float]", some 2⟩,
  ⟨{ minHeight := 0 }, py!"Example", .seq .set .set [.seq .tuple .tuple [.inst .int none, .inst .int none], .inst .int none], py!"Example: TypeAlias = Set[Union[ExampleTuple, int]]", some 2⟩,
  ⟨{ minHeight := 0 }, py!"Example", .seq .set .set [.seq .tuple .tuple [.inst .int none, .inst .int none], .inst .str (some py!"a")], py!"Example: TypeAlias = Set[Union[ExampleTuple, str]]", some 2⟩,
  ⟨{ minHeight := 0 }, py!"Example", .seq .set .set [.seq .tuple .tuple [.inst .int none, .inst .int none], .seq .tuple .tuple [.inst .int none, .inst .int none]], py!"Example: TypeAlias = Set[ExampleTuple]", some 1⟩,
  ⟨{ minHeight := 0 }, py!"Example", .seq .set .set [.seq .tuple .tuple [.inst .int none, .inst .int none], .seq .tuple .tuple [.inst .int none, .inst .float none]], py!"Example: TypeAlias = Set[Union[ExampleTuple, ExampleTuple2]]", some 2⟩,
  ⟨{ minHeight := 0 }, py!"Example", .seq .set .set [.seq .tuple .tuple [.inst .int none, .inst .int none], .seq .tuple .tuple [.inst .int none, .inst .float none], .seq .tuple .tuple [.inst .int none, .inst .int none]], py!"Example: TypeAlias = Set[Union[ExampleTuple, ExampleTuple2]]", some 2⟩,
  ⟨{ minHeight := 0 }, py!"Example", .seq .set .set [], py!"Example: TypeAlias = Set[Any]", some 0⟩,
  ⟨{ minHeight := 0 }, py!"Example", .seq .frozenset .frozenset [.inst .int none], py!"Example: TypeAlias = FrozenSet[int]", some 1⟩,
  ⟨{ minHeight := 0 }, py!"Example", .seq .frozenset .frozenset [.inst .int none, .inst .int none], py!"Example: TypeAlias = FrozenSet[int]", some 1⟩,
  ⟨{ minHeight := 0 }, py!"Example", .seq .frozenset .frozenset [.inst .int none, .inst .float none], py!"Example: TypeAlias = FrozenSet[float]", some 2⟩,
  ⟨{ minHeight := 0 }, py!"Example", .seq .frozenset .frozenset [.seq .tuple .tuple [.inst .int none, .inst .int none], .inst .int none], py!"Example: TypeAlias = FrozenSet[Union[ExampleTuple, int]]", some 2⟩,
  ⟨{ minHeight := 0 }, py!"Example", .seq .frozenset .frozenset [.seq .tuple .tuple [.inst .int none, .inst .int none], .inst .str (some py!"a")], py!"Example: TypeAlias = FrozenSet[Union[ExampleTuple, str]]", some 2⟩,
  ⟨{ minHeight := 0 }, py!"Example", .seq .frozenset .frozenset [.seq .tuple .tuple [.inst .int none, .inst .int none], .seq .tuple .tuple [.inst .int none, .inst .int none]], py!"Example: TypeAlias = FrozenSet[ExampleTuple]", some 1⟩,
  ⟨{ minHeight := 0 }, py!"Example", .seq .frozenset .frozenset [.seq .tuple .tuple [.inst .int none, .inst .int none], .seq .tuple .tuple [.inst .int none, .inst .float none]], py!"Example: TypeAlias = FrozenSet[Union[ExampleTuple, ExampleTuple2]]", some 2⟩,
  ⟨{ minHeight := 0 }, py!"Example", .seq .frozenset .frozenset [.seq .tuple .tuple [.inst .int none, .inst .int none], .seq .tuple .tuple [.inst .int none, .inst .float none], .seq .tuple .tuple [.inst .int none, .inst .int none]], py!"Example: TypeAlias = FrozenSet[Union[ExampleTuple, ExampleTuple2]]", some 2⟩,
  ⟨{ minHeight := 0 }, py!"Example", .seq .frozenset .frozenset [], py!"Example: TypeAlias = FrozenSet[Any]", some 0⟩] : List _).all topIs = true := by decide +kernel

/-! test_generic_data_type_tree/test_set_data_type_tree.py, TestTypeAliasHeight.test_type_alias_based_on_height -/
example : ([⟨{ minHeight := 0 }, py!"Example", .seq .set .set [.inst .int none], py!"Example: TypeAlias = Set[int]", none⟩,
  ⟨{ minHeight := 1 }, py!"Example", .seq .set .set [.inst .int none], py!"Example: TypeAlias = Set[int]", none⟩,
  ⟨{ minHeight := 2 }, py!"Example", .seq .set .set [.inst .int none], py!"Example: TypeAlias = Set[int]", none⟩,
  ⟨{ minHeight := 0 }, py!"Example", .seq .set .set [.inst .int none, .seq .frozenset .frozenset [.inst .int none]], py!"Example: TypeAlias = Set[Union[ExampleFrozenset, int]]", none⟩,
  ⟨{ minHeight := 1 }, py!"Example", .seq .set .set [.inst .int none, .seq .frozenset .frozenset [.inst .int none]], py!"Example: TypeAlias = Set[Union[FrozenSet[int], int]]", none⟩] : List _).all topIs = true := by decide +kernel

/-! test_generic_data_type_tree/test_list_data_type_tree.py, TestGetStrPy.test_get_str_top_node -/
example : ([⟨{ list := .list, minHeight := 0 }, py!"Example", .seq .list .list [.inst .int none], py!"Example: TypeAlias = List[int]", some 1⟩,
  ⟨{ list := .list, minHeight := 0 }, py!"Example", .seq .list .list [.inst .int none, .inst .int none], py!"Example: TypeAlias = List[int]", some 1⟩,
  ⟨{ list := .list, minHeight := 0 }, py!"Example", .seq .list .list [.inst .int none, .inst .float none], py!"Example: TypeAlias = List[float]", some 2⟩,
  ⟨{ list := .list, minHeight := 0 }, py!"Example", .seq .list .list [.seq .set .set [.inst .int none, .inst .int none], .inst .int none], py!"Example: TypeAlias = List[Union[ExampleSet, int]]", some 2⟩,
  ⟨{ list := .list, minHeight := 0 }, py!"Example", .seq .list .list [.seq .set .set [.inst .int none, .inst .int none], .seq .list .list [.inst .int none, .inst .int none], .seq .set .set [.inst .int none, .inst .int none], .seq .set .set [.inst .int none, .inst .int none], .seq .list .list [.inst .int none, .inst .int none]], py!"Example: TypeAlias = List[Union[ExampleList, ExampleSet]]", some 2⟩,
  ⟨{ list := .list, minHeight := 0 }, py!"Example", .seq .list .list [.seq .set .set [.inst .int none, .inst .int none], .seq .set .set [.inst .int none, .inst .int none]], py!"Example: TypeAlias = List[ExampleSet]", some 1⟩,
  ⟨{ list := .list, minHeight := 0 }, py!"Example", .seq .list .list [.seq .set .set [.inst .int none, .inst .int none], .seq .set .set [.inst .int none, .inst .float none]], py!"Example: TypeAlias = List[Union[ExampleSet, ExampleSet2]]", some 2⟩,
  ⟨{ list := .list, minHeight := 0 }, py!"Example", .seq .list .list [.seq .set .set [.inst .int none, .inst .int none], .inst .str (some py!"a")], py!"Example: TypeAlias = List[Union[ExampleSet, str]]", some 2⟩,
  ⟨{ list := .list, minHeight := 0 }, py!"Example", .seq .list .list [.seq .set .set [.inst .int none, .inst .int none], .map .dict .dict [.str py!"name"] [.inst .str (some py!"Joan")]], py!"Example: TypeAlias = List[Union[ExampleDict, ExampleSet]]", some 2⟩,
  ⟨{ list := .list, minHeight := 0 }, py!"Example", .seq .list .list [], py!"Example: TypeAlias = List[Any]", some 0⟩,
  ⟨{ list := .sequence, minHeight := 0 }, py!"Example", .seq .list .list [.inst .int none], py!"Example: TypeAlias = Sequence[int]", some 1⟩,
  ⟨{ list := .sequence, minHeight := 0 }, py!"Example", .seq .list .list [.inst .int none, .inst .int none], py!"Example: TypeAlias = Sequence[int]", some 1⟩,
  ⟨{ list := .sequence, minHeight := 0 }, py!"Example", .seq .list .list [.inst .int none, .inst .float none], py!"Example: TypeAlias = Sequence[float]", some 2⟩,
  ⟨{ list := .sequence, minHeight := 0 }, py!"Example", .seq .list .list [.seq .set .set [.inst .int none, .inst .int none], .inst .int none], py!"Example: TypeAlias = Sequence[Union[ExampleSet, int]]", some 2⟩,
  ⟨{ list := .sequence, minHeight := 0 }, py!"Example", .seq .list .list [.seq .set .set [.inst .int none, .inst .int none], .seq .list .list [.inst .int none, .inst .int none], .seq .set .set [.inst .int none, .inst .int none], .seq .set .set [.inst .int none, .inst .int none], .seq .list .list [.inst .int none, .inst .int none]], py!"Example: TypeAlias = Sequence[Union[ExampleList, ExampleSet]]", some 2⟩,
  ⟨{ list := .sequence, minHeight := 0 }, py!"Example", .seq .list .list [.seq .set .set [.inst .int none, .inst .int none], .seq .set .set [.inst .int none, .inst .int none]], py!"Example: TypeAlias = Sequence[ExampleSet]", some 1⟩,
  ⟨{ list := .sequence, minHeight := 0 }, py!"Example", .seq .list .list [.seq .set .set [.inst .int none, .inst .int none], .seq .set .set [.inst .int none, .inst .float none]], py!"Example: TypeAlias = Sequence[Union[ExampleSet, ExampleSet2]]", some 2⟩,
  ⟨{ list := .sequence, minHeight := 0 }, py!"Example", .seq .list .list [.seq .set .set [.inst .int none, .inst .int none], .inst .str (some py!"a")], py!"Example: TypeAlias = Sequence[Union[ExampleSet, str]]", some 2⟩,
  ⟨{ list := .sequence, minHeight := 0 }, py!"Example", .seq .list .list [.seq .set .set [.inst .int none, .inst .int none], .map .dict .dict [.str py!"name"] [.inst .str (some py!"Joan")]], py!"Example: TypeAlias = Sequence[Union[ExampleDict, ExampleSet]]", some 2⟩,
  ⟨{ list := .sequence, minHeight := 0 }, py!"Example", .seq .list .list [], py!"Example: TypeAlias = Sequence[Any]", some 0⟩] : List _).all topIs = true := by decide +kernel

/-! test_generic_data_type_tree/test_list_data_type_tree.py, TestTypeAliasHeight.test_type_alias_based_on_height -/
example : ([⟨{ minHeight := 0 }, py!"Example", .seq .list .list [.inst .int none], py!"Example: TypeAlias = List[int]", none⟩,
  ⟨{ minHeight := 1 }, py!"Example", .seq .list .list [.inst .int none], py!"Example: TypeAlias = List[int]", none⟩,
  ⟨{ minHeight := 2 }, py!"Example", .seq .list .list [.inst .int none], py!"Example: TypeAlias = List[int]", none⟩,
  ⟨{ minHeight := 0 }, py!"Example", .seq .list .list [.inst .int none, .seq .list .list [.inst .int none]], py!"Example: TypeAlias = List[Union[ExampleList, int]]", none⟩,
  ⟨{ minHeight := 1 }, py!"Example", .seq .list .list [.inst .int none, .seq .list .list [.inst .int none]], py!"Example: TypeAlias = List[Union[List[int], int]]", none⟩] : List _).all topIs = true := by decide +kernel

/-! test_generic_data_type_tree/test_tuple_data_type_tree.py, TestGetStrPy.test_get_str_top_node -/
example : ([⟨{ tuple := .fixed, minHeight := 0 }, py!"Example", .seq .tuple .tuple [.inst .int none], py!"Example: TypeAlias = Tuple[int]", some 1⟩,
  ⟨{ tuple := .fixed, minHeight := 0 }, py!"Example", .seq .tuple .tuple [.inst .int none, .inst .int none], py!"Example: TypeAlias = Tuple[int, int]", some 2⟩,
  ⟨{ tuple := .fixed, minHeight := 0 }, py!"Example", .seq .tuple .tuple [.inst .int none, .inst .float none], py!"Example: TypeAlias = Tuple[int, float]", some 2⟩,
  ⟨{ tuple := .fixed, minHeight := 0 }, py!"Example", .seq .tuple .tuple [.seq .set .set [.inst .int none, .inst .int none], .inst .int none], py!"Example: TypeAlias = Tuple[ExampleSet, int]", some 2⟩,
  ⟨{ tuple := .fixed, minHeight := 0 }, py!"Example", .seq .tuple .tuple [.seq .tuple .tuple [.inst .int none, .inst .int none], .seq .tuple .tuple [.inst .int none, .inst .int none], .seq .tuple .tuple [.inst .int none, .inst .int none]], py!"Example: TypeAlias = Tuple[ExampleTuple, ExampleTuple, ExampleTuple]", some 3⟩,
  ⟨{ tuple := .fixed, minHeight := 0 }, py!"Example", .seq .tuple .tuple [.seq .set .set [.inst .int none, .inst .int none], .seq .set .set [.inst .int none, .inst .int none]], py!"Example: TypeAlias = Tuple[ExampleSet, ExampleSet]", some 2⟩,
  ⟨{ tuple := .fixed, minHeight := 0 }, py!"Example", .seq .tuple .tuple [.seq .set .set [.inst .int none, .inst .int none], .seq .set .set [.inst .int none, .inst .float none]], py!"Example: TypeAlias = Tuple[ExampleSet, ExampleSet2]", some 2⟩,
  ⟨{ tuple := .fixed, minHeight := 0 }, py!"Example", .seq .tuple .tuple [.seq .set .set [.inst .int none, .inst .int none], .inst .str (some py!"a")], py!"Example: TypeAlias = Tuple[ExampleSet, str]", some 2⟩,
  ⟨{ tuple := .fixed, minHeight := 0 }, py!"Example", .seq .tuple .tuple [.seq .set .set [.inst .int none, .inst .int none], .map .dict .dict [.str py!"name"] [.inst .str (some py!"Joan")]], py!"Example: TypeAlias = Tuple[ExampleSet, ExampleDict]", some 2⟩,
  ⟨{ tuple := .fixed, minHeight := 0 }, py!"Example", .seq .tuple .tuple [], py!"Example: TypeAlias = Tuple[Any, ...]", some 0⟩,
  ⟨{ tuple := .anySize, minHeight := 0 }, py!"Example", .seq .tuple .tuple [.inst .int none], py!"Example: TypeAlias = Tuple[int, ...]", some 1⟩,
  ⟨{ tuple := .anySize, minHeight := 0 }, py!"Example", .seq .tuple .tuple [.inst .int none, .inst .int none], py!"Example: TypeAlias = Tuple[int, ...]", some 1⟩,
  ⟨{ tuple := .anySize, minHeight := 0 }, py!"Example", .seq .tuple .tuple [.inst .int none, .inst .float none], py!"Example: TypeAlias = Tuple[float, ...]", some 2⟩,
  ⟨{ tuple := .anySize, minHeight := 0 }, py!"Example", .seq .tuple .tuple [.seq .set .set [.inst .int none, .inst .int none], .inst .int none], py!"Example: TypeAlias = Tuple[Union[ExampleSet, int], ...]", some 2⟩,
  ⟨{ tuple := .anySize, minHeight := 0 }, py!"Example", .seq .tuple .tuple [.seq .tuple .tuple [.inst .int none, .inst .int none], .seq .tuple .tuple [.inst .int none, .inst .int none], .seq .tuple .tuple [.inst .int none, .inst .int none]], py!"Example: TypeAlias = Tuple[ExampleTuple, ...]", some 1⟩,
  ⟨{ tuple := .anySize, minHeight := 0 }, py!"Example", .seq .tuple .tuple [.seq .set .set [.inst .int none, .inst .int none], .seq .set .set [.inst .int none, .inst .int none]], py!"Example: TypeAlias = Tuple[ExampleSet, ...]", some 1⟩,
  ⟨{ tuple := .anySize, minHeight := 0 }, py!"Example", .seq .tuple .tuple [.seq .set .set [.inst .int none, .inst .int none], .seq .set .set [.inst .int none, .inst .float none], .seq .set .set [.inst .int none]], py!"Example: TypeAlias = Tuple[Union[ExampleSet, ExampleSet2], ...]", some 2⟩,
  ⟨{ tuple := .anySize, minHeight := 0 }, py!"Example", .seq .tuple .tuple [.seq .set .set [.inst .int none, .inst .int none], .inst .str (some py!"a")], py!"Example: TypeAlias = Tuple[Union[ExampleSet, str], ...]", some 2⟩,
  ⟨{ tuple := .anySize, minHeight := 0 }, py!"Example", .seq .tuple .tuple [.seq .set .set [.inst .int none, .inst .int none], .map .dict .dict [.str py!"name"] [.inst .str (some py!"Joan")]], py!"Example: TypeAlias = Tuple[Union[ExampleDict, ExampleSet], ...]", some 2⟩,
  ⟨{ tuple := .anySize, minHeight := 0 }, py!"Example", .seq .tuple .tuple [], py!"Example: TypeAlias = Tuple[Any, ...]", some 0⟩] : List _).all topIs = true := by decide +kernel

/-! test_generic_data_type_tree/test_tuple_data_type_tree.py, TestGetAliasHeight.test_type_alias_based_on_height -/
example : ([⟨{ tuple := .fixed, minHeight := 0 }, py!"Example", .seq .tuple .tuple [.seq .tuple .tuple [.inst .int none, .inst .int none], .inst .int none], py!"Example: TypeAlias = Tuple[ExampleTuple, int]", none⟩,
  ⟨{ tuple := .fixed, minHeight := 1 }, py!"Example", .seq .tuple .tuple [.seq .tuple .tuple [.inst .int none, .inst .int none], .inst .int none], py!"Example: TypeAlias = Tuple[Tuple[int, int], int]", none⟩,
  ⟨{ tuple := .fixed, minHeight := 0 }, py!"Example", .seq .tuple .tuple [.seq .tuple .tuple [.inst .int none, .seq .tuple .tuple [.inst .int none, .inst .str (some py!"str")]], .inst .int none], py!"Example: TypeAlias = Tuple[ExampleTuple, int]", none⟩,
  ⟨{ tuple := .fixed, minHeight := 1 }, py!"Example", .seq .tuple .tuple [.seq .tuple .tuple [.inst .int none, .seq .tuple .tuple [.inst .int none, .inst .str (some py!"str")]], .inst .int none], py!"Example: TypeAlias = Tuple[ExampleTuple, int]", none⟩,
  ⟨{ tuple := .fixed, minHeight := 2 }, py!"Example", .seq .tuple .tuple [.seq .tuple .tuple [.inst .int none, .seq .tuple .tuple [.inst .int none, .inst .str (some py!"str")]], .inst .int none], py!"Example: TypeAlias = Tuple[Tuple[int, Tuple[int, str]], int]", none⟩] : List _).all topIs = true := by decide +kernel

/-! test_generic_data_type_tree/test_iterator_data_type_tree.py, TestIterator.test_get_str_top_node -/
example : ([⟨{ minHeight := 0 }, py!"Example", .seq .iterator .listIterator [.inst .int none, .inst .int none, .inst .int none], py!"Example: TypeAlias = Iterator[int]", none⟩,
  ⟨{ minHeight := 0 }, py!"Example", .seq .iterator .listIterator [.inst .str (some py!"1"), .inst .int none], py!"Example: TypeAlias = Iterator[Union[int, str]]", none⟩,
  ⟨{ minHeight := 0 }, py!"Example", .seq .iterator .listIterator [.inst .str (some py!"1"), .seq .list .list [.inst .int none, .inst .int none]], py!"Example: TypeAlias = Iterator[Union[ExampleList, str]]", none⟩] : List _).all topIs = true := by decide +kernel

/-! test_generic_data_type_tree/test_mapping_data_type_tree.py, TestGetStrPy.test_get_str_top_node -/
example : ([⟨{ dict := .dict, minHeight := 0 }, py!"Example", .map .dict .dict [.str py!"name"] [.inst .str (some py!"Joan")], py!"Example: TypeAlias = Dict[str, str]", some 1⟩,
  ⟨{ dict := .dict, minHeight := 0 }, py!"Example", .map .dict .dict [.str py!"age"] [.inst .int none], py!"Example: TypeAlias = Dict[str, int]", some 1⟩,
  ⟨{ dict := .dict, minHeight := 0 }, py!"Example", .map .dict .dict [.str py!"name", .str py!"age"] [.inst .str (some py!"Joan"), .inst .int none], py!"Example: TypeAlias = Dict[str, Union[int, str]]", some 2⟩,
  ⟨{ dict := .dict, minHeight := 0 }, py!"Example", .map .dict .dict [.str py!"name", .other .int py!"21"] [.inst .str (some py!"Joan"), .inst .int none], py!"Example: TypeAlias = Dict[Union[int, str], Union[int, str]]", some 2⟩,
  ⟨{ dict := .dict, minHeight := 0 }, py!"Example", .map .dict .dict [.other .int py!"22", .other .float py!"21.2"] [.inst .str (some py!"Joan"), .inst .int none], py!"Example: TypeAlias = Dict[float, Union[int, str]]", some 2⟩,
  ⟨{ dict := .dict, minHeight := 0 }, py!"Example", .map .dict .dict [.other .int py!"22", .other .float py!"21.2"] [.inst .str (some py!"Joan"), .inst .str (some py!"number")], py!"Example: TypeAlias = Dict[float, str]", some 2⟩,
  ⟨{ dict := .dict, minHeight := 0 }, py!"Example", .map .dict .dict [] [], py!"Example: TypeAlias = Dict[Any, Any]", some 0⟩,
  ⟨{ dict := .dict, minHeight := 0 }, py!"Example", .map .proxy .mappingproxy [.str py!"name"] [.inst .str (some py!"Joan")], py!"Example: TypeAlias = MappingProxyType[str, str]", some 1⟩,
  ⟨{ dict := .dict, minHeight := 0 }, py!"Example", .map .proxy .mappingproxy [.str py!"age"] [.inst .int none], py!"Example: TypeAlias = MappingProxyType[str, int]", some 1⟩,
  ⟨{ dict := .dict, minHeight := 0 }, py!"Example", .map .proxy .mappingproxy [.str py!"name", .str py!"age"] [.inst .str (some py!"Joan"), .inst .int none], py!"Example: TypeAlias = MappingProxyType[str, Union[int, str]]", some 2⟩,
  ⟨{ dict := .dict, minHeight := 0 }, py!"Example", .map .proxy .mappingproxy [.str py!"name", .other .int py!"21"] [.inst .str (some py!"Joan"), .inst .int none], py!"Example: TypeAlias = MappingProxyType[Union[int, str], Union[int, str]]", some 2⟩,
  ⟨{ dict := .dict, minHeight := 0 }, py!"Example", .map .proxy .mappingproxy [.other .int py!"22", .other .float py!"21.2"] [.inst .str (some py!"Joan"), .inst .int none], py!"Example: TypeAlias = MappingProxyType[float, Union[int, str]]", some 2⟩,
  ⟨{ dict := .dict, minHeight := 0 }, py!"Example", .map .proxy .mappingproxy [.other .int py!"22", .other .float py!"21.2"] [.inst .str (some py!"Joan"), .inst .str (some py!"number")], py!"Example: TypeAlias = MappingProxyType[float, str]", some 2⟩,
  ⟨{ dict := .dict, minHeight := 0 }, py!"Example", .map .proxy .mappingproxy [] [], py!"Example: TypeAlias = MappingProxyType[Any, Any]", some 0⟩,
  ⟨{ dict := .mapping, minHeight := 0 }, py!"Example", .map .dict .dict [.str py!"name"] [.inst .str (some py!"Joan")], py!"Example: TypeAlias = Mapping[str, str]", some 1⟩,
  ⟨{ dict := .mapping, minHeight := 0 }, py!"Example", .map .dict .dict [.str py!"age"] [.inst .int none], py!"Example: TypeAlias = Mapping[str, int]", some 1⟩,
  ⟨{ dict := .mapping, minHeight := 0 }, py!"Example", .map .dict .dict [.str py!"name", .str py!"age"] [.inst .str (some py!"Joan"), .inst .int none], py!"Example: TypeAlias = Mapping[str, Union[int, str]]", some 2⟩,
  ⟨{ dict := .mapping, minHeight := 0 }, py!"Example", .map .dict .dict [.str py!"name", .other .int py!"21"] [.inst .str (some py!"Joan"), .inst .int none], py!"Example: TypeAlias = Mapping[Union[int, str], Union[int, str]]", some 2⟩,
  ⟨{ dict := .mapping, minHeight := 0 }, py!"Example", .map .dict .dict [.other .int py!"22", .other .float py!"21.2"] [.inst .str (some py!"Joan"), .inst .int none], py!"Example: TypeAlias = Mapping[float, Union[int, str]]", some 2⟩,
  ⟨{ dict := .mapping, minHeight := 0 }, py!"Example", .map .dict .dict [.other .int py!"22", .other .float py!"21.2"] [.inst .str (some py!"Joan"), .inst .str (some py!"number")], py!"Example: TypeAlias = Mapping[float, str]", some 2⟩,
  ⟨{ dict := .mapping, minHeight := 0 }, py!"Example", .map .dict .dict [] [], py!"Example: TypeAlias = Mapping[Any, Any]", some 0⟩,
  ⟨{ dict := .mapping, minHeight := 0 }, py!"Example", .map .proxy .mappingproxy [.str py!"name"] [.inst .str (some py!"Joan")], py!"Example: TypeAlias = MappingProxyType[str, str]", some 1⟩,
  ⟨{ dict := .mapping, minHeight := 0 }, py!"Example", .map .proxy .mappingproxy [.str py!"age"] [.inst .int none], py!"Example: TypeAlias = MappingProxyType[str, int]", some 1⟩,
  ⟨{ dict := .mapping, minHeight := 0 }, py!"Example", .map .proxy .mappingproxy [.str py!"name", .str py!"age"] [.inst .str (some py!"Joan"), .inst .int none], py!"Example: TypeAlias = MappingProxyType[str, Union[int, str]]", some 2⟩,
  ⟨{ dict := .mapping, minHeight := 0 }, py!"Example", .map .proxy .mappingproxy [.str py!"name", .other .int py!"21"] [.inst .str (some py!"Joan"), .inst .int none], py!"Example: TypeAlias = MappingProxyType[Union[int, str], Union[int, str]]", some 2⟩,
  ⟨{ dict := .mapping, minHeight := 0 }, py!"Example", .map .proxy .mappingproxy [.other .int py!"22", .other .float py!"21.2"] [.inst .str (some py!"Joan"), .inst .int none], py!"Example: TypeAlias = MappingProxyType[float, Union[int, str]]", some 2⟩,
  ⟨{ dict := .mapping, minHeight := 0 }, py!"Example", .map .proxy .mappingproxy [.other .int py!"22", .other .float py!"21.2"] [.inst .str (some py!"Joan"), .inst .str (some py!"number")], py!"Example: TypeAlias = MappingProxyType[float, str]", some 2⟩,
  ⟨{ dict := .mapping, minHeight := 0 }, py!"Example", .map .proxy .mappingproxy [] [], py!"Example: TypeAlias = MappingProxyType[Any, Any]", some 0⟩] : List _).all topIs = true := by decide +kernel

/-! test_generic_data_type_tree/test_mapping_data_type_tree.py, TestGetAliasHeight.test_type_alias_based_on_height -/
example : ([⟨{ minHeight := 0, dict := .dict }, py!"Example", .map .dict .dict [.str py!"name"] [.map .dict .dict [.str py!"unit"] [.inst .str (some py!"dolar")]], py!"Example: TypeAlias = Dict[str, ExampleName]", none⟩,
  ⟨{ minHeight := 1, dict := .dict }, py!"Example", .map .dict .dict [.str py!"name"] [.map .dict .dict [.str py!"unit"] [.inst .str (some py!"dolar")]], py!"Example: TypeAlias = Dict[str, Dict[str, str]]", none⟩,
  ⟨{ minHeight := 2, dict := .dict }, py!"Example", .map .dict .dict [.str py!"name"] [.map .dict .dict [.str py!"unit"] [.inst .str (some py!"dolar")]], py!"Example: TypeAlias = Dict[str, Dict[str, str]]", none⟩] : List _).all topIs = true := by decide +kernel

/-! test_generic_data_type_tree/test_mapping_data_type_tree.py, test_to_camel_case -/
example : ([(py!"name_age", py!"NameAge"),
  (py!"a b", py!"AB"),
  (py!"Name$age", py!"NameAge"),
  (py!"2Name$age", py!"NameAge"),
  (py!"2", py!"2")] : List _).all (fun c => toCamel asciiUni c.1 == c.2) = true := by decide +kernel

/-! test_generic_data_type_tree/test_mapping_data_type_tree.py, TestHiddenKeyBasedDocs.test_hash_is_not_altered -/
example : ([({}, .map .proxy .mappingproxy [.str py!"name", .str py!"___docstring_hidden_key_name"] [.inst .str (some py!"Joan"), .inst .str (some py!"This is a doc")], .map .proxy .mappingproxy [.str py!"name"] [.inst .str (some py!"Joan")], true),
  ({}, .map .proxy .mappingproxy [.str py!"age", .str py!"___docstring_hidden_key_age"] [.inst .int none, .inst .str (some py!"This is a doc")], .map .proxy .mappingproxy [.str py!"age"] [.inst .int none], true),
  ({}, .map .proxy .mappingproxy [.str py!"age", .str py!"___docstring_hidden_key_age"] [.inst .int none, .inst .str (some py!"This is a doc")], .map .proxy .mappingproxy [.str py!"age"] [.inst .str (some py!"22")], false)] : List _).all sameHash = true := by decide +kernel

/-! test_generic_data_type_tree/test_dict_data_type_tree.py, TestGetStrPy.test_get_str_typed_dict_py -/
example : ([⟨{ minHeight := 0 }, py!"Example", .map .dict .dict [] [], py!"class Example(TypedDict):\n    ...", some 0⟩,
  ⟨{ minHeight := 0 }, py!"Example", .map .dict .dict [.str py!"name"] [.inst .str (some py!"Joan")], py!"class Example(TypedDict):\n    name: str", some 1⟩,
  ⟨{ minHeight := 0 }, py!"Example", .map .dict .dict [.str py!"age"] [.inst .int none], py!"class Example(TypedDict):\n    age: int", some 1⟩,
  ⟨{ minHeight := 0 }, py!"Example", .map .dict .dict [.str py!"name", .str py!"age"] [.inst .str (some py!"Joan"), .inst .int none], py!"class Example(TypedDict):\n    name: str\n    age: int", some 2⟩,
  ⟨{ minHeight := 0 }, py!"Example", .map .dict .dict [.str py!"name", .str py!"kids"] [.inst .str (some py!"Joan"), .seq .list .list [.inst .str (some py!"A"), .inst .str (some py!"B")]], py!"class Example(TypedDict):\n    name: str\n    kids: ExampleKids", some 2⟩,
  ⟨{ minHeight := 0 }, py!"Example", .map .dict .dict [.str py!"name", .str py!"kids", .str py!"parents"] [.inst .str (some py!"Joan"), .seq .list .list [.inst .str (some py!"A"), .inst .str (some py!"B")], .seq .list .list [.inst .str (some py!"C"), .inst .str (some py!"D")]], py!"class Example(TypedDict):\n    name: str\n    kids: ExampleList\n    parents: ExampleList", some 3⟩,
  ⟨{ minHeight := 0 }, py!"Example", .map .dict .dict [.str py!"name", .str py!"kids", .str py!"parents"] [.inst .str (some py!"Joan"), .seq .list .list [.inst .str (some py!"A"), .inst .str (some py!"B")], .seq .list .list [.inst .str (some py!"C"), .inst .str (some py!"D"), .inst .int none]], py!"class Example(TypedDict):\n    name: str\n    kids: ExampleKids\n    parents: ExampleParents", some 3⟩] : List _).all topIs = true := by decide +kernel

/-! test_generic_data_type_tree/test_dict_data_type_tree.py, TestGetStrPy.test_get_str_typed_dict_functional_syntax_py -/
example : ([⟨{ minHeight := 0 }, py!"Example", .map .dict .dict [.str py!"name and surname"] [.inst .str (some py!"Joan B.")], py!"Example = TypedDict(\n    \"Example\",\n    {\n        \"name and surname\": str,\n    },\n)", some 1⟩,
  ⟨{ minHeight := 0 }, py!"Example", .map .dict .dict [.str py!"$", .str py!"own_list"] [.inst .float none, .seq .list .list [.inst .int none, .inst .int none, .inst .int none]], py!"Example = TypedDict(\n    \"Example\",\n    {\n        \"$\": float,\n        \"own_list\": ExampleOwnList,\n    },\n)", some 2⟩,
  ⟨{ minHeight := 0 }, py!"Example", .map .dict .dict [.str py!"$", .str py!"my_list", .str py!"my_list2"] [.inst .int none, .seq .list .list [.inst .int none, .inst .int none, .inst .int none], .seq .list .list [.inst .int none, .inst .int none]], py!"Example = TypedDict(\n    \"Example\",\n    {\n        \"$\": int,\n        \"my_list\": ExampleList,\n        \"my_list2\": ExampleList,\n    },\n)", some 3⟩,
  ⟨{ minHeight := 0 }, py!"Example", .map .dict .dict [.str py!"$", .str py!"my_list", .str py!"my_list2", .str py!"my_list3", .str py!"my_list4"] [.inst .int none, .seq .list .list [.inst .int none, .inst .int none, .inst .int none], .seq .list .list [.inst .int none, .inst .int none], .seq .list .list [.inst .str (some py!"a")], .seq .list .list [.inst .str (some py!"b")]], py!"Example = TypedDict(\n    \"Example\",\n    {\n        \"$\": int,\n        \"my_list\": ExampleList,\n        \"my_list2\": ExampleList,\n        \"my_list3\": ExampleList2,\n        \"my_list4\": ExampleList2,\n    },\n)", some 5⟩] : List _).all topIs = true := by decide +kernel

/-! test_generic_data_type_tree/test_dict_data_type_tree.py, TestGetStrHeight.test_get_str_top_node_based_on_height -/
example : ([⟨{ minHeight := 0 }, py!"Example", .map .dict .dict [.str py!"name", .str py!"kids"] [.inst .str (some py!"Joan"), .seq .list .list [.inst .str (some py!"A"), .inst .str (some py!"B")]], py!"class Example(TypedDict):\n    name: str\n    kids: ExampleKids", none⟩,
  ⟨{ minHeight := 1 }, py!"Example", .map .dict .dict [.str py!"name", .str py!"kids"] [.inst .str (some py!"Joan"), .seq .list .list [.inst .str (some py!"A"), .inst .str (some py!"B")]], py!"class Example(TypedDict):\n    name: str\n    kids: List[str]", none⟩] : List _).all topIs = true := by decide +kernel

/-! test_generic_data_type_tree/test_dict_data_type_tree.py, TestGetStrHeight.test_permissions -/
example : ([⟨{ minHeight := 0 }, py!"Example", .seq .list .list [.inst .int none, .map .dict .dict [.str py!"name", .str py!"kids"] [.inst .str (some py!"Joan"), .seq .list .list [.inst .str (some py!"A"), .inst .str (some py!"B")]]], py!"Example: TypeAlias = List[Union[ExampleDict, int]]", none⟩,
  ⟨{ minHeight := 1 }, py!"Example", .seq .list .list [.inst .int none, .map .dict .dict [.str py!"name", .str py!"kids"] [.inst .str (some py!"Joan"), .seq .list .list [.inst .str (some py!"A"), .inst .str (some py!"B")]]], py!"Example: TypeAlias = List[Union[ExampleDict, int]]", none⟩,
  ⟨{ minHeight := 2 }, py!"Example", .seq .list .list [.inst .int none, .map .dict .dict [.str py!"name", .str py!"kids"] [.inst .str (some py!"Joan"), .seq .list .list [.inst .str (some py!"A"), .inst .str (some py!"B")]]], py!"Example: TypeAlias = List[Union[ExampleDict, int]]", none⟩] : List _).all topIs = true := by decide +kernel

/-! test_generic_data_type_tree/test_dict_data_type_tree.py, TestClassDocstringFromKey.test_docstring_is_created -/
example : ([⟨{ dict := .typedDict, keyDoc := py!"doc" }, py!"Example", .map .dict .dict [.str py!"name", .str py!"doc"] [.inst .str (some py!"Joan"), .inst .str (some py!"This is a docstring")], py!"class Example(TypedDict):\n    \"\"\"This is a docstring.\"\"\"\n\n    name: str\n    doc: str", none⟩,
  ⟨{ dict := .typedDict, keyDoc := py!"doc2" }, py!"Example", .map .dict .dict [.str py!"name", .str py!"doc"] [.inst .str (some py!"Joan"), .inst .str (some py!"This is a docstring")], py!"class Example(TypedDict):\n    name: str\n    doc: str", none⟩] : List _).all topIs = true := by decide +kernel

/-! test_generic_data_type_tree/test_dict_data_type_tree.py, TestKeyDocstring.test_key_docstring_is_created -/
example : ([⟨{ dict := .typedDict, keyDoc := py!"doc" }, py!"Example", .map .dict .dict [.str py!"name", .str py!"age", .str py!"___docstring_hidden_key_name"] [.inst .str (some py!"Joan"), .inst .int none, .inst .str (some py!"This is name doc")], py!"class Example(TypedDict):\n    name: str\n    \"\"\"This is name doc.\"\"\"\n    age: int", none⟩,
  ⟨{ dict := .typedDict, keyDoc := py!"doc" }, py!"Example", .map .dict .dict [.str py!"name", .str py!"age", .str py!"___docstring_hidden_key_age"] [.inst .str (some py!"Joan"), .inst .int none, .inst .str (some py!"This is age doc")], py!"class Example(TypedDict):\n    name: str\n    age: int\n    \"\"\"This is age doc.\"\"\"", none⟩,
  ⟨{ dict := .typedDict, keyDoc := py!"doc" }, py!"Example", .map .dict .dict [.str py!"name", .str py!"age", .str py!"___docstring_hidden_key_age", .str py!"___docstring_hidden_key_name"] [.inst .str (some py!"Joan"), .inst .int none, .inst .str (some py!"This is age doc"), .inst .str (some py!"This is name doc")], py!"class Example(TypedDict):\n    name: str\n    \"\"\"This is name doc.\"\"\"\n    age: int\n    \"\"\"This is age doc.\"\"\"", none⟩] : List _).all topIs = true := by decide +kernel

/-! test_generic_data_type_tree/test_dict_data_type_tree.py, TestSimilarityMerge.test_list_containing_dictionaries (compared after sorting, as in the test) -/
example : ([(.seq .list .list [.map .dict .dict [.str py!"name", .str py!"age"] [.inst .str (some py!"a"), .inst .int none], .map .dict .dict [.str py!"name", .str py!"age", .str py!"optional_field"] [.inst .str (some py!"b"), .inst .int none, .inst .int none]], [py!"class ExampleDict(TypedDict):\n    name: str\n    age: int\n    optional_field: NotRequired[int]", py!"Example: TypeAlias = List[ExampleDict]"]),
  (.seq .list .list [.map .dict .dict [.str py!"a", .str py!"b"] [.inst .str (some py!"a"), .inst .int none], .map .dict .dict [.str py!"c", .str py!"d"] [.inst .str (some py!"b"), .inst .int none]], [py!"class ExampleDict2(TypedDict):\n    c: str\n    d: int", py!"class ExampleDict(TypedDict):\n    a: str\n    b: int", py!"Example: TypeAlias = List[Union[ExampleDict, ExampleDict2]]"])] : List _).all (fun c => allNodesAre true c.1 c.2) = true := by decide +kernel

/-! test_generic_data_type_tree/test_dict_data_type_tree.py, TestSimilarityMerge.test_tuple_containing_dictionaries -/
example : ([(.seq .tuple .tuple [.map .dict .dict [.str py!"name", .str py!"age"] [.inst .str (some py!"a"), .inst .int none], .map .dict .dict [.str py!"name", .str py!"age", .str py!"optional_field"] [.inst .str (some py!"b"), .inst .int none, .inst .int none]], [py!"class ExampleDict(TypedDict):\n    name: str\n    age: int\n    optional_field: NotRequired[int]", py!"Example: TypeAlias = Tuple[ExampleDict, ExampleDict]"]),
  (.seq .tuple .tuple [.map .dict .dict [.str py!"a", .str py!"b"] [.inst .str (some py!"a"), .inst .int none], .map .dict .dict [.str py!"c", .str py!"d"] [.inst .str (some py!"b"), .inst .int none]], [py!"class ExampleDict(TypedDict):\n    a: str\n    b: int", py!"class ExampleDict2(TypedDict):\n    c: str\n    d: int", py!"Example: TypeAlias = Tuple[ExampleDict, ExampleDict2]"])] : List _).all (fun c => allNodesAre false c.1 c.2) = true := by decide +kernel

/-! test_generic_data_type_tree/test_dict_data_type_tree.py, TestKeyDocstring.test_hidden_key_docs_do_not_change_hash -/
example : ([({}, .map .dict .dict [.str py!"name", .str py!"___docstring_hidden_key_name"] [.inst .str (some py!"Joan"), .inst .str (some py!"This is a doc")], .map .dict .dict [.str py!"name"] [.inst .str (some py!"Joan")], true),
  ({}, .map .dict .dict [.str py!"age", .str py!"___docstring_hidden_key_age"] [.inst .int none, .inst .str (some py!"This is a doc")], .map .dict .dict [.str py!"age"] [.inst .int none], true),
  ({}, .map .dict .dict [.str py!"age", .str py!"___docstring_hidden_key_age"] [.inst .int none, .inst .str (some py!"This is a doc")], .map .dict .dict [.str py!"age"] [.inst .str (some py!"22")], false)] : List _).all sameHash = true := by decide +kernel

/-! test_generic_data_type_tree/test_dict_data_type_tree.py, TestKeyDocstring.test_typed_dict_goes_to_functional_syntax -/
example : ([(([(.str py!"a", .inst .int none)] : List (Key × Val)), false),
  (([(.str py!"a", .inst .int none), (.str py!".b", .inst .int none)] : List (Key × Val)), true),
  (([(.str py!"a", .inst .int none), (.str py!" b", .inst .int none)] : List (Key × Val)), true),
  (([(.str py!"a", .inst .int none), (.str py!"from", .inst .int none)] : List (Key × Val)), true),
  (([(.str py!"a", .inst .int none), (.str py!"in", .inst .int none)] : List (Key × Val)), true),
  (([(.str py!"a", .inst .int none), (.str py!"class", .inst .int none)] : List (Key × Val)), true)] : List _).all (fun c => isFunctional asciiUni (DMeta.ofData c.1) == c.2) = true := by decide +kernel

/-! test_generic_data_type_tree/test_dict_data_type_tree.py, TestDictMetadata.test_all_keys_are_string -/
example : ([(([(.str py!"a", .inst .int none), (.str py!"b", .inst .int none)] : List (Key × Val)), true),
  (([(.other .int py!"1", .inst .int none), (.str py!"b", .inst .int none)] : List (Key × Val)), false),
  (([(.str py!"a", .inst .int none), (.str py!"b", .inst .str (some py!"a"))] : List (Key × Val)), true),
  (([(.str py!"a", .inst .str (some py!"a")), (.str py!"b", .inst .str (some py!"a"))] : List (Key × Val)), true)] : List _).all (fun c => allStr c.1 == c.2) = true := by decide +kernel

/-! test_generic_data_type_tree/test_dict_data_type_tree.py, TestDictMetadata.test_all_keys_are_parsable -/
example : ([(([(.str py!"a", .inst .int none), (.str py!"b", .inst .int none)] : List (Key × Val)), true),
  (([(.str py!":a", .inst .int none), (.str py!"b", .inst .int none)] : List (Key × Val)), false),
  (([(.str py!" a", .inst .int none), (.str py!"b", .inst .int none)] : List (Key × Val)), false),
  (([(.str py!".a", .inst .int none), (.str py!"b", .inst .int none)] : List (Key × Val)), false),
  (([(.str py!".a.", .inst .int none), (.str py!"b", .inst .int none)] : List (Key × Val)), false),
  (([(.str py!"1a", .inst .int none), (.str py!"b", .inst .int none)] : List (Key × Val)), false),
  (([(.str py!"a1", .inst .int none), (.str py!"b", .inst .int none)] : List (Key × Val)), true)] : List _).all (fun c => (!isFunctional asciiUni (DMeta.ofData c.1)) == c.2) = true := by decide +kernel

/-! test_generic_data_type_tree/test_dict_data_type_tree.py, TestDictMetadata.test_update -/
example : ([(([(.str py!"a", .inst .int none)] : List (Key × Val)), ([(.str py!"a", .inst .int none)] : List (Key × Val)), ([(.str py!"a", .inst .int none)] : List (Key × Val)), [(.str py!"a", true)], [(py!"a", py!"")]),
  (([(.str py!"a", .inst .int none), (.str py!"b", .inst .int none)] : List (Key × Val)), ([(.str py!"a", .inst .int none)] : List (Key × Val)), ([(.str py!"a", .inst .int none), (.str py!"b", .inst .int none)] : List (Key × Val)), [(.str py!"a", true), (.str py!"b", false)], [(py!"a", py!""), (py!"b", py!"")]),
  (([(.str py!"a", .inst .int none)] : List (Key × Val)), ([(.str py!"a", .inst .int none), (.str py!"b", .inst .int none)] : List (Key × Val)), ([(.str py!"a", .inst .int none), (.str py!"b", .inst .int none)] : List (Key × Val)), [(.str py!"a", true), (.str py!"b", false)], [(py!"a", py!""), (py!"b", py!"")]),
  (([(.str py!"a", .inst .int none), (.str py!"___docstring_hidden_key_a", .inst .str (some py!"a_doc"))] : List (Key × Val)), ([(.str py!"a", .inst .int none), (.str py!"b", .inst .int none)] : List (Key × Val)), ([(.str py!"a", .inst .int none), (.str py!"___docstring_hidden_key_a", .inst .str (some py!"a_doc")), (.str py!"b", .inst .int none)] : List (Key × Val)), [(.str py!"a", true), (.str py!"b", false)], [(py!"a", py!"a_doc"), (py!"b", py!"")]),
  (([(.str py!"a", .inst .int none), (.str py!"b", .inst .int none)] : List (Key × Val)), ([(.str py!"a", .inst .int none), (.str py!"___docstring_hidden_key_a", .inst .str (some py!"a_doc"))] : List (Key × Val)), ([(.str py!"a", .inst .int none), (.str py!"___docstring_hidden_key_a", .inst .str (some py!"a_doc")), (.str py!"b", .inst .int none)] : List (Key × Val)), [(.str py!"a", true), (.str py!"b", false)], [(py!"a", py!"a_doc"), (py!"b", py!"")]),
  (([(.str py!"a", .inst .int none), (.str py!"___docstring_hidden_key_a", .inst .str (some py!"a_doc"))] : List (Key × Val)), ([(.str py!"a", .inst .int none), (.str py!"___docstring_hidden_key_a", .inst .str (some py!"a_doc2"))] : List (Key × Val)), ([(.str py!"a", .inst .int none), (.str py!"___docstring_hidden_key_a", .inst .str (some py!"a_doc"))] : List (Key × Val)), [(.str py!"a", true)], [(py!"a", py!"a_doc")]),
  (([(.str py!"a", .inst .int none), (.str py!"___docstring_hidden_key_a", .inst .str (some py!"a_doc2"))] : List (Key × Val)), ([(.str py!"a", .inst .int none), (.str py!"___docstring_hidden_key_a", .inst .str (some py!"a_doc"))] : List (Key × Val)), ([(.str py!"a", .inst .int none), (.str py!"___docstring_hidden_key_a", .inst .str (some py!"a_doc2"))] : List (Key × Val)), [(.str py!"a", true)], [(py!"a", py!"a_doc2")]),
  (([(.str py!".a", .inst .int none), (.str py!"___docstring_hidden_key_.a", .inst .str (some py!"a_doc2"))] : List (Key × Val)), ([(.str py!".a", .inst .int none), (.str py!"___docstring_hidden_key_.a", .inst .str (some py!"a_doc"))] : List (Key × Val)), ([(.str py!".a", .inst .int none), (.str py!"___docstring_hidden_key_.a", .inst .str (some py!"a_doc2"))] : List (Key × Val)), [(.str py!".a", true)], [(py!".a", py!"a_doc2")])] : List _).all updateIs = true := by decide +kernel

/-! test_generic_data_type_tree/test_dict_data_type_tree.py, TestDictMetadata.test_get_keys (without hidden keys) -/
example : ([(([(.str py!"b", .inst .int none), (.str py!"___docstring_hidden_key_b", .inst .str (some py!"doc"))] : List (Key × Val)), [.str py!"b"]),
  (([(.str py!"b", .inst .int none), (.str py!"a", .inst .str (some py!"doc"))] : List (Key × Val)), [.str py!"b", .str py!"a"])] : List _).all (fun c => sameElems (DMeta.ofData c.1).keys c.2) = true := by decide +kernel

/-! test_generic_data_type_tree/test_dict_data_type_tree.py, TestDictMetadata.test_get_info_from_multiple_dicts -/
example : ([([([(.str py!"a", .inst .int none)] : List (Key × Val)), ([(.str py!"a", .inst .int none)] : List (Key × Val)), ([(.str py!"a", .inst .int none)] : List (Key × Val))], (1, 1, true), 100),
  ([([(.str py!"a", .inst .int none)] : List (Key × Val)), ([(.str py!"b", .inst .int none)] : List (Key × Val)), ([(.str py!"c", .inst .int none)] : List (Key × Val))], (0, 3, true), 0),
  ([([(.str py!"a", .inst .int none)] : List (Key × Val)), ([(.str py!"a", .inst .float none)] : List (Key × Val)), ([(.str py!"b", .inst .int none)] : List (Key × Val))], (0, 2, true), 0),
  ([([(.str py!"a", .inst .int none), (.str py!"b", .inst .int none)] : List (Key × Val)), ([(.str py!"a", .inst .int none)] : List (Key × Val)), ([(.str py!"a", .inst .str (some py!"b")), (.str py!"j", .inst .str (some py!"a"))] : List (Key × Val))], (1, 3, false), 33),
  ([([] : List (Key × Val)), ([(.str py!"a", .inst .int none)] : List (Key × Val)), ([] : List (Key × Val))], (0, 1, true), 0)] : List _).all (fun c => compareDicts (c.1.map DMeta.ofData) == c.2.1 && percentSimilarity c.2.1.1 c.2.1.2.1 == c.2.2) = true := by decide +kernel

/-! test_generic_data_type_tree/test_dict_data_type_tree.py, TestDictMerge.test_from_multiple_dict_data_type_trees -/
example : ([([([(.str py!"b", .inst .int none), (.str py!"___docstring_hidden_key_b", .inst .str (some py!"doc"))] : List (Key × Val)), ([] : List (Key × Val))], ([(.str py!"b", .inst .int none), (.str py!"___docstring_hidden_key_b", .inst .str (some py!"doc"))] : List (Key × Val)), [(.str py!"b", false)], [(py!"b", py!"doc")]),
  ([([] : List (Key × Val)), ([(.str py!"b", .inst .int none), (.str py!"___docstring_hidden_key_b", .inst .str (some py!"doc"))] : List (Key × Val))], ([(.str py!"b", .inst .int none), (.str py!"___docstring_hidden_key_b", .inst .str (some py!"doc"))] : List (Key × Val)), [(.str py!"b", false)], [(py!"b", py!"doc")]),
  ([([(.str py!"b", .inst .int none)] : List (Key × Val)), ([(.str py!"b", .inst .int none)] : List (Key × Val))], ([(.str py!"b", .inst .int none)] : List (Key × Val)), [(.str py!"b", true)], [(py!"b", py!"")]),
  ([([(.str py!"b", .inst .int none)] : List (Key × Val)), ([(.str py!"a", .inst .int none)] : List (Key × Val))], ([(.str py!"b", .inst .int none), (.str py!"a", .inst .int none)] : List (Key × Val)), [(.str py!"b", false), (.str py!"a", false)], [(py!"b", py!""), (py!"a", py!"")]),
  ([([(.str py!"b", .inst .int none)] : List (Key × Val)), ([(.str py!"a", .inst .int none), (.str py!"b", .inst .int none), (.str py!"___docstring_hidden_key_b", .inst .str (some py!"doc"))] : List (Key × Val))], ([(.str py!"b", .inst .int none), (.str py!"a", .inst .int none), (.str py!"___docstring_hidden_key_b", .inst .str (some py!"doc"))] : List (Key × Val)), [(.str py!"b", true), (.str py!"a", false)], [(py!"b", py!"doc"), (py!"a", py!"")]),
  ([([(.str py!"a", .inst .int none), (.str py!"b", .inst .int none), (.str py!"___docstring_hidden_key_b", .inst .str (some py!"doc"))] : List (Key × Val)), ([(.str py!"b", .inst .int none)] : List (Key × Val))], ([(.str py!"b", .inst .int none), (.str py!"a", .inst .int none), (.str py!"___docstring_hidden_key_b", .inst .str (some py!"doc"))] : List (Key × Val)), [(.str py!"b", true), (.str py!"a", false)], [(py!"b", py!"doc"), (py!"a", py!"")])] : List _).all mergedIs = true := by decide +kernel

/-! test_generic_data_type_tree/test_set_and_sequence_operations.py, TestTransferHiddenKeys.test_integration -/
example : ([(.seq .list .list [.map .dict .dict [.str py!"name"] [.inst .str (some py!"Joan")], .map .dict .dict [.str py!"name"] [.inst .str (some py!"Joan")]], ([(.str py!"name", .inst .str (some py!"Joan"))] : List (Key × Val))),
  (.seq .list .list [.map .dict .dict [.str py!"name"] [.inst .str (some py!"Joan")], .map .dict .dict [.str py!"name", .str py!"___docstring_hidden_key_name"] [.inst .str (some py!"Joan"), .inst .str (some py!"doc")]], ([(.str py!"name", .inst .str (some py!"Joan")), (.str py!"___docstring_hidden_key_name", .inst .str (some py!"doc"))] : List (Key × Val))),
  (.seq .list .list [.map .dict .dict [.str py!"name", .str py!"___docstring_hidden_key_name"] [.inst .str (some py!"Joan"), .inst .str (some py!"doc")], .map .dict .dict [.str py!"name"] [.inst .str (some py!"Joan")]], ([(.str py!"name", .inst .str (some py!"Joan")), (.str py!"___docstring_hidden_key_name", .inst .str (some py!"doc"))] : List (Key × Val)))] : List _).all onlyChildIs = true := by decide +kernel

/-! test_generic_data_type_tree/test_set_and_sequence_operations.py, TestMergeSimilarTypedDicts.test_merge_similar_typed_dicts -/
example : ([([.map .dict .dict [.str py!"name"] [.inst .str (some py!"Joan")], .map .dict .dict [.str py!"name", .str py!"age"] [.inst .str (some py!"Joan"), .inst .int none]], [(.str py!"name", true), (.str py!"age", false)]),
  ([.seq .list .list [.inst .int none, .inst .int none], .map .dict .dict [.str py!"name"] [.inst .str (some py!"Joan")], .map .dict .dict [.str py!"name", .str py!"age"] [.inst .str (some py!"Joan"), .inst .int none]], [(.str py!"name", true), (.str py!"age", false)]),
  ([.seq .list .list [.inst .int none, .inst .int none], .map .dict .dict [.str py!".name"] [.inst .str (some py!"Joan")], .map .dict .dict [.str py!".name", .str py!"age"] [.inst .str (some py!"Joan"), .inst .int none]], [(.str py!".name", true), (.str py!"age", false)])] : List _).all (fun c => mergesTo c.1 c.2) = true := by decide +kernel

/-! test_generic_data_type_tree/test_set_and_sequence_operations.py, TestMergeSimilarTypedDicts.test_not_merge_similar_typed_dicts -/
example : ([([.map .dict .dict [.str py!"name"] [.inst .str (some py!"Joan")], .map .dict .dict [.str py!"name", .str py!"age"] [.inst .str (some py!"Joan"), .inst .int none]], [(.str py!"name", true), (.str py!"age", true)]),
  ([.seq .list .list [.inst .int none, .inst .int none], .map .dict .dict [.str py!"name"] [.inst .str (some py!"Joan")], .map .dict .dict [.str py!"name", .str py!"age"] [.inst .str (some py!"Joan"), .inst .int none]], [(.str py!"name", true), (.str py!"age", true)]),
  ([.seq .list .list [.inst .int none, .inst .int none], .map .dict .dict [.str py!".name"] [.inst .str (some py!"Joan")], .map .dict .dict [.str py!".name", .str py!"age"] [.inst .str (some py!"Joan"), .inst .int none]], [(.str py!".name", true), (.str py!"age", true)]),
  ([.seq .list .list [.inst .int none, .inst .int none], .map .dict .dict [] [], .map .dict .dict [.str py!".name", .str py!"age"] [.inst .str (some py!"Joan"), .inst .int none]], [(.str py!".name", true), (.str py!"age", true)])] : List _).all (fun c => keeps c.1 c.2) = true := by decide +kernel

/-! test_data_type_tree.py, TestHash.test_hash (without frames) -/
example : ([({}, .seq .list .list [.inst .int none, .inst .int none, .inst .int none], .seq .list .list [.inst .int none, .inst .int none, .inst .int none], true),
  ({}, .seq .list .list [.inst .int none, .inst .str (some py!"str"), .inst .int none], .seq .list .list [.inst .int none, .inst .int none, .inst .int none], false),
  ({}, .seq .list .list [.inst .int none, .inst .str (some py!"str"), .inst .int none], .seq .list .list [.inst .str (some py!"a"), .inst .int none, .inst .int none], true),
  ({}, .seq .list .list [.inst .int none, .seq .set .set [.inst .int none, .inst .int none], .inst .int none], .seq .list .list [.seq .set .set [.inst .int none, .inst .int none], .inst .int none, .inst .int none], true),
  ({}, .seq .list .list [.inst .int none, .seq .set .set [.inst .int none, .inst .int none], .inst .int none], .seq .list .list [.seq .set .set [.inst .int none, .inst .str (some py!"a")], .inst .int none, .inst .int none], false),
  ({}, .seq .list .list [.inst .int none, .inst .str (some py!"str"), .seq .tuple .tuple [.inst .int none, .inst .int none]], .seq .list .list [.inst .str (some py!"a"), .inst .int none, .seq .tuple .tuple [.inst .int none]], false),
  ({ tuple := .anySize }, .seq .list .list [.inst .int none, .inst .str (some py!"str"), .seq .tuple .tuple [.inst .int none, .inst .int none]], .seq .list .list [.inst .str (some py!"a"), .inst .int none, .seq .tuple .tuple [.inst .int none]], true),
  ({}, .seq .list .list [.inst .int none, .inst .str (some py!"str"), .seq .tuple .tuple [.inst .int none, .inst .str (some py!"b")]], .seq .list .list [.inst .str (some py!"a"), .inst .int none, .seq .tuple .tuple [.inst .int none]], false),
  ({}, .seq .list .list [.inst .int none, .inst .str (some py!"str"), .seq .tuple .tuple [.inst .int none, .inst .str (some py!"b")]], .seq .list .list [.inst .str (some py!"a"), .inst .int none, .seq .tuple .tuple [.inst .str (some py!"c"), .inst .int none]], false),
  ({ tuple := .anySize }, .seq .list .list [.inst .int none, .inst .str (some py!"str"), .seq .tuple .tuple [.inst .int none, .inst .str (some py!"b")]], .seq .list .list [.inst .str (some py!"a"), .inst .int none, .seq .tuple .tuple [.inst .str (some py!"c"), .inst .int none]], true),
  ({}, .seq .list .list [.inst .int none, .inst .str (some py!"str"), .seq .tuple .tuple [.inst .int none, .seq .set .set [.inst .int none, .inst .int none]]], .seq .list .list [.inst .str (some py!"a"), .inst .int none, .seq .tuple .tuple [.inst .int none]], false),
  ({ dict := .dict }, .map .dict .dict [.str py!"name"] [.inst .str (some py!"Patrick")], .map .dict .dict [.str py!"age"] [.inst .str (some py!"22")], true),
  ({ dict := .dict }, .map .dict .dict [.str py!"name"] [.inst .str (some py!"Patrick")], .map .dict .dict [.str py!"age"] [.inst .int none], false),
  ({ dict := .dict }, .map .dict .dict [.other .int py!"22"] [.inst .int none], .map .dict .dict [.str py!"age2"] [.inst .int none], false),
  ({ dict := .dict }, .map .dict .dict [.other .int py!"22"] [.inst .int none], .map .dict .dict [.str py!"age2"] [.inst .str (some py!"name")], false),
  ({ dict := .dict }, .map .dict .dict [.other .int py!"22"] [.inst .int none], .map .dict .dict [.str py!"age2", .str py!"age3"] [.inst .int none, .inst .str (some py!"name")], false),
  ({ dict := .dict }, .map .dict .dict [.other .int py!"22"] [.inst .int none], .map .dict .dict [.str py!"age2", .str py!"age3"] [.inst .int none, .inst .int none], false),
  ({ dict := .dict }, .map .dict .dict [.str py!"age1"] [.inst .int none], .map .dict .dict [.str py!"age2", .str py!"age3"] [.inst .int none, .inst .int none], true),
  ({ dict := .dict }, .map .dict .dict [.str py!"age1", .str py!"age4"] [.inst .int none, .inst .int none], .map .dict .dict [.str py!"age2", .str py!"age3"] [.inst .int none, .inst .int none], true),
  ({ dict := .typedDict }, .map .dict .dict [.str py!"age1", .other .int py!"37"] [.inst .int none, .inst .int none], .map .dict .dict [.str py!"age2", .other .int py!"22"] [.inst .int none, .inst .int none], true),
  ({ dict := .typedDict }, .map .dict .dict [.str py!"age1", .str py!"age2"] [.inst .int none, .inst .int none], .map .dict .dict [.str py!"age2", .str py!"age3"] [.inst .int none, .inst .int none], false),
  ({ dict := .typedDict }, .map .dict .dict [.str py!"age1", .str py!"age2"] [.inst .int none, .inst .int none], .map .dict .dict [.str py!"age1", .str py!"age2"] [.inst .int none, .inst .int none], true),
  ({ dict := .typedDict }, .map .dict .dict [.str py!"age1", .str py!"age2"] [.inst .int none, .inst .int none], .map .dict .dict [.str py!"age1", .str py!"age2"] [.inst .int none, .inst .str (some py!"a")], false),
  ({}, .seq .set .set [.func ⟨.function, true, .ok (py!"(x0)") 1, .unavailable⟩], .seq .set .set [.func ⟨.function, true, .ok (py!"(x0)") 1, .unavailable⟩], true),
  ({}, .seq .set .set [.func ⟨.function, true, .ok (py!"(x0)") 1, .unavailable⟩], .seq .set .set [.func ⟨.function, true, .ok (py!"(x0)") 1, .unavailable⟩, .func ⟨.function, true, .ok (py!"(x0)") 1, .unavailable⟩], true)] : List _).all sameHash = true := by decide +kernel

/-! test_data_type_tree.py, TestRenameDeclaration.test -/
example : ([(py!"MyList = List[str]", py!"New", py!"New = List[str]", py!"MyList"),
  (py!"MyDict = Dict[str, Any]", py!"New", py!"New = Dict[str, Any]", py!"MyDict"),
  (py!"class MyClass(Protocol):\n    ...", py!"New", py!"class New(Protocol):\n    ...", py!"MyClass"),
  (py!"class MyClass():\n    ...", py!"New", py!"class New():\n    ...", py!"MyClass"),
  (py!"class MyClass:\n    ...", py!"New", py!"class New:\n    ...", py!"MyClass")] : List _).all (fun c => renameDeclaration asciiUni (fun _ => c.2.1) c.1 == (c.2.2.1, c.2.2.2)) = true := by decide +kernel

/-! test_simple_data_type_tree/test_instance_data_type_tree.py, TestGetStrPy.test_get_str_top_node -/
example : ([⟨{}, py!"Example", .inst ⟨py!"range", 0⟩ none, py!"Example: TypeAlias = range", none⟩,
  ⟨{}, py!"Example", .inst ⟨py!"slice", 0⟩ none, py!"Example: TypeAlias = slice", none⟩,
  ⟨{}, py!"Example", .inst .bool none, py!"Example: TypeAlias = bool", none⟩,
  ⟨{}, py!"Example", .inst .bool none, py!"Example: TypeAlias = bool", none⟩,
  ⟨{}, py!"Example", .inst .str (some py!"random_string"), py!"Example: TypeAlias = str", none⟩,
  ⟨{}, py!"Example", .inst .int none, py!"Example: TypeAlias = int", none⟩,
  ⟨{}, py!"Example", .inst .float none, py!"Example: TypeAlias = float", none⟩] : List _).all topIs = true := by decide +kernel

/-! test_simple_data_type_tree/test_instance_data_type_tree.py, TestHash.test_get_str_top_node -/
example : ([({}, .inst ⟨py!"range", 0⟩ none, .inst ⟨py!"range", 0⟩ none, true),
  ({}, .inst ⟨py!"slice", 0⟩ none, .inst ⟨py!"slice", 0⟩ none, true),
  ({}, .inst .bool none, .inst .bool none, true),
  ({}, .inst .bool none, .inst .bool none, true),
  ({}, .inst .bool none, .inst .bool none, true),
  ({}, .inst .str (some py!"string1"), .inst .str (some py!"string2"), true),
  ({}, .inst .int none, .inst .int none, true),
  ({}, .inst .float none, .inst .float none, true),
  ({}, .inst ⟨py!"range", 0⟩ none, .inst .int none, false),
  ({}, .inst ⟨py!"range", 0⟩ none, .inst ⟨py!"slice", 0⟩ none, false),
  ({}, .inst .float none, .inst .str (some py!"str"), false)] : List _).all sameHash = true := by decide +kernel

/-! test_simple_data_type_tree/test_func_data_type_tree.py, TestLambda.test_get_str_top_node_lambda (without the builtin function) -/
example : ([⟨{}, py!"Example", .func ⟨.function, true, .ok (py!"()") 0, .unavailable⟩, py!"Example: TypeAlias = Callable[[], Any]", none⟩,
  ⟨{}, py!"Example", .func ⟨.function, true, .ok (py!"(x0)") 1, .unavailable⟩, py!"Example: TypeAlias = Callable[[Any], Any]", none⟩,
  ⟨{}, py!"Example", .func ⟨.function, true, .ok (py!"(x0, x1)") 2, .unavailable⟩, py!"Example: TypeAlias = Callable[[Any, Any], Any]", none⟩,
  ⟨{}, py!"Example", .func ⟨.function, true, .ok (py!"(x0, x1, x2)") 3, .unavailable⟩, py!"Example: TypeAlias = Callable[[Any, Any, Any], Any]", none⟩] : List _).all topIs = true := by decide +kernel

/-! test_simple_data_type_tree/test_func_data_type_tree.py, TestLambda.test_hash -/
example : ([({}, .func ⟨.function, true, .ok (py!"()") 0, .unavailable⟩, .func ⟨.function, true, .ok (py!"()") 0, .unavailable⟩, true),
  ({}, .func ⟨.function, true, .ok (py!"(x0)") 1, .unavailable⟩, .func ⟨.function, true, .ok (py!"(x0)") 1, .unavailable⟩, true),
  ({}, .func ⟨.function, true, .ok (py!"(x0, x1)") 2, .unavailable⟩, .func ⟨.function, true, .ok (py!"(x0)") 1, .unavailable⟩, false)] : List _).all sameHash = true := by decide +kernel
end Verif.Checks
