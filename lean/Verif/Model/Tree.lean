import Verif.Model.Val
import Verif.Py.Float
/-
The data type tree: nodes, structural hash, renaming, construction.

Shared objects: a node object may sit in several slots of its parent (equal values of a mapping, merged dictionaries of
a fixed tuple). Each slot holds a copy, together with the number of *iterated* slots that hold the object (`mult`).
Renaming visits an object once per iterated slot, so it is applied `mult` times to each copy.
-/
namespace Verif

/-- `DictMetadata` (generic_type/dict_data_type_tree.py:61-81): the wrapped data, the keys it was created with, and the
`required` flag per visible key. The docstrings in `KeyInfo` are never read and are omitted. -/
structure DMeta where
  data : List (Key × Val)
  init : List Key
  req : List (Key × Bool)

inductive NKind
  | inst | func (f : FuncInfo) | cls (name : Str) | module | io | ndarray (dtype : Str)
  | seq (k : SeqKind)
  | dict (data : List (Key × Val)) (info : DMeta)
  | proxy
  | frame (info : FrameInfo)

/-- One slot of a node's children: its key (unused for sequences) and the multiplicity explained above. -/
structure Slot where
  key : Key
  mult : Nat
  deriving DecidableEq

/-- A slot of a sequence. -/
def Slot.seq (m : Nat) : Slot := ⟨.str [], m⟩

/-- The attributes of a `DataTypeTree` that influence its output: class, `name`, `parent is None`, `holding_type` and
the keys of `children`. Height and depth are determined by the tree. -/
structure Hdr where
  kind : NKind
  name : Str
  root : Bool
  ty : Ty
  slots : List Slot

inductive Node
  | mk (h : Hdr) (kids : List Node)

namespace Node
def hdr : Node → Hdr | .mk h _ => h
def kids : Node → List Node | .mk _ k => k
def name (n : Node) : Str := n.hdr.name
end Node

/-- Interpreter facts and settings. `isBuiltin name` is `isinstance(getattr(builtins, name, None), type)`; `reprStr` is
`repr` on strings; `order site l` is the order in which a Python set of the trees `l` (listed in insertion order) is
iterated at a program point. -/
structure Env where
  U : Uni
  S : Strategies
  isBuiltin : Str → Bool
  reprStr : Str → Str
  order : Nat → List Node → List Node

/-- What holds of every interpreter: set iteration yields every element once, and strings of ASCII letters, digits,
underscores and spaces are represented in single quotes. -/
structure Env.Fair (E : Env) : Prop where
  order : ∀ site l, (E.order site l).Perm l
  repr : ∀ s, (∀ c ∈ s, c.isAlphanum = true ∨ c = '_' ∨ c = ' ') → E.reprStr s = py!"'" ++ s ++ py!"'"

instance {E : Env} : CoeFun E.Fair (fun _ => ∀ site l, (E.order site l).Perm l) := ⟨Env.Fair.order⟩

/-- Failures. `badName` is `DataTypeTreeError`; `signature` the `TypeError` of `inspect.signature`; `source` the
`OSError`/`TypeError` of `inspect.getsource`; `noTrees` the `StopIteration` of merging nothing (impossible for
validated strategies); `fuel` is the `RecursionError` of
`fromDataWithin` (Model/Recursion.lean) and never reached otherwise (`construction_terminates`). -/
inductive Err
  | badName (name : Str)
  | signature
  | source
  | noTrees
  | fuel
  deriving DecidableEq

/-! ### Structural hash -/

/-- The hashable objects returned by `_get_hash`. Python's `hash` is taken to be collision-free on them. -/
inductive H
  | ty (t : Ty)
  | str (s : Str)
  | set (l : List H)
  | tup (l : List H)
  | mapping (t : Ty) (h : H)
  | typed (k : Key) (h : H)

mutual
/-- Equality of hashable objects, with frozensets compared as sets. -/
def H.eqv : H → H → Bool
  | .ty a, .ty b => decide (a = b)
  | .str a, .str b => decide (a = b)
  | .set a, .set b => H.allIn a b && b.all (fun y => H.anyEq a y)
  | .tup a, .tup b => H.eqvList a b
  | .mapping t a, .mapping t' b => decide (t = t') && H.eqv a b
  | .typed k a, .typed k' b => decide (k = k') && H.eqv a b
  | _, _ => false
/-- Every element of the first list has an equal one in the second. -/
def H.allIn : List H → List H → Bool
  | [], _ => true
  | x :: r, b => b.any (H.eqv x) && H.allIn r b
/-- Some element of the list equals `y`. -/
def H.anyEq : List H → H → Bool
  | [], _ => false
  | x :: r, y => H.eqv x y || H.anyEq r y
def H.eqvList : List H → List H → Bool
  | [], [] => true
  | x :: r, y :: s => H.eqv x y && H.eqvList r s
  | _, _ => false
end

/-- `_all_keys_are_string` (dict_data_type_tree.py:124-126). -/
def allStr (items : List (Key × Val)) : Bool := items.all (fun kv => kv.1.isStr)

/-- `DictMetadata.is_typed_dict` (dict_data_type_tree.py:111-115). -/
def DMeta.isTyped (S : Strategies) (m : DMeta) : Bool := allStr m.data && decide (S.dict = .typedDict)

/-- `isinstance(child, DictDataTypeTree) and child.dict_metadata.is_typed_dict`. -/
def isTypedDict (S : Strategies) : Node → Bool
  | .mk h _ => match h.kind with
    | .dict _ m => m.isTyped S
    | _ => false

/-- `FunctionDataTypeTree._get_hash` (simple_data_type_tree/function_data_type_tree.py:69-76). On `typeError` Python
raises; construction stops before the value is used. -/
def funcHash (f : FuncInfo) : H :=
  match f.sig with
  | .ok text n => if f.isLambda then .str (py!"Callable[[" ++ join py!", " (List.replicate n py!"Any") ++ py!"], Any]")
                  else .str text
  | _ => .str py!"Callable"

/-- `_get_hash` of a node, given the hashes of its children in slot order (simple_data_type_tree.py:28-30,
generic_data_type_tree.py, sequence_data_type_tree.py:23-28, set_data_type_tree.py:36-41, tuple_data_type_tree.py:47-55,
mapping_data_type_tree.py:125-130, dict_data_type_tree.py:362-369, pandas_series_data_type_tree.py:31-36,
pandas_data_frame_data_type_tree.py:164-168). -/
def hashOf (S : Strategies) (h : Hdr) (hs : List H) : H :=
  let keyed := (h.slots.map (·.key)).zip hs
  match h.kind with
  | .func f => funcHash f
  | .inst | .cls _ | .module | .io | .ndarray _ => .ty h.ty
  | .seq .tuple => if S.tuple = .anySize then .set hs else .tup hs
  | .seq _ => .set hs
  | .dict _ m =>
    if m.isTyped S then .set (keyed.map fun kh => .typed kh.1 kh.2)
    else .set (keyed.map fun kh => .mapping kh.1.ty kh.2)
  | .proxy => .set (keyed.map fun kh => .mapping kh.1.ty kh.2)
  | .frame i => if S.pandas = .none then .str py!"pd.DataFrame" else .str i.columns

mutual
/-- `_get_hash`. -/
def Node.hash (S : Strategies) : Node → H
  | .mk h kids => hashOf S h (hashList S kids)
def hashList (S : Strategies) : List Node → List H
  | [] => []
  | k :: r => k.hash S :: hashList S r
end

/-- The tree class of a node, up to what `type(self) is type(other)` distinguishes. -/
inductive ClassTag | func | inst | cls | module | io | ndarray | list | set | tuple | iterator | series | dict | proxy | frame
  deriving DecidableEq

def NKind.tag : NKind → ClassTag
  | .inst => .inst | .func _ => .func | .cls _ => .cls | .module => .module | .io => .io | .ndarray _ => .ndarray
  | .seq .list => .list | .seq .set => .set | .seq .frozenset => .set | .seq .tuple => .tuple
  | .seq .iterator => .iterator | .seq .series => .series
  | .dict _ _ => .dict | .proxy => .proxy | .frame _ => .frame

/-- `DataTypeTree.__eq__` (data_type_tree.py:318-322). -/
def nodeEq (S : Strategies) (a b : Node) : Bool :=
  decide (a.hdr.kind.tag = b.hdr.kind.tag) && H.eqv (a.hash S) (b.hash S)

/-! ### Renaming -/

/-- `c` successive applications of `name = new_name + name[len_old_name:]`. -/
def renameTimes (new : Str) (len : Nat) : Nat → Str → Str
  | 0, n => n
  | c + 1, n => renameTimes new len c (new ++ n.drop len)

mutual
/-- `_rename` (data_type_tree.py:329-338) applied `c` times to a node below the root. -/
def Node.renameAux (new : Str) (len : Nat) (c : Nat) : Node → Node
  | .mk h kids => .mk { h with name := renameTimes new len c h.name } (renameList new len c h.slots kids)
def renameList (new : Str) (len : Nat) (c : Nat) : List Slot → List Node → List Node
  | _, [] => []
  | [], k :: r => k.renameAux new len c :: renameList new len c [] r
  | s :: ss, k :: r => k.renameAux new len (c * s.mult) :: renameList new len c ss r
end

/-- `rename` (data_type_tree.py:324-327) of a child node. -/
def Node.rename (new : Str) (n : Node) : Node := n.renameAux new n.name.length 1

/-! ### Dictionary metadata -/

/-- `DictMetadata.__init__` (dict_data_type_tree.py:73-81, 142-176 with `force_all_required_to_true`). -/
def DMeta.ofData (data : List (Key × Val)) : DMeta :=
  { data, init := data.map (·.1), req := (data.filter (fun kv => !kv.1.hidden)).map (fun kv => (kv.1, true)) }

/-- `DictMetadata.update` (dict_data_type_tree.py:134-140 and 142-176). -/
def DMeta.update (m other : DMeta) : DMeta :=
  let data := m.data ++ other.data.filter (fun kv => (lookupKey kv.1 m.data).isNone)
  let req := m.req ++ ((data.filter (fun kv => !kv.1.hidden && (lookupKey kv.1 m.req).isNone)).map fun kv => (kv.1, false))
  let req :=
    if other.init.isEmpty then req.map (fun kb => (kb.1, false))
    else req.map (fun kb => (kb.1, if m.init.contains kb.1 && !other.init.contains kb.1 then false else kb.2))
  { m with data, req }

/-- `update_data_and_metadata` (dict_data_type_tree.py:346-348). -/
def updateNode (k other : Node) : Node :=
  match k, other with
  | .mk h kids, .mk h' _ => match h.kind, h'.kind with
    | .dict _ m, .dict _ m' => .mk { h with kind := .dict (m.update m').data (m.update m') } kids
    | _, _ => k

/-- The metadata of a dictionary node. -/
def nodeMeta : Node → Option DMeta
  | .mk h _ => match h.kind with
    | .dict _ m => some m
    | _ => none

/-- `tree.data` of a dictionary node. -/
def nodeData : Node → List (Key × Val)
  | .mk h _ => match h.kind with
    | .dict d _ => d
    | _ => []

/-- `get_keys()` on a dictionary with string keys (dict_data_type_tree.py:83-89). -/
def DMeta.keys (m : DMeta) : List Key := dedup ((m.data.map (·.1)).filter (fun k => !k.hidden))

/-- One step of the loop that collects `value_types` (dict_data_type_tree.py:102-108). -/
def addValueType (acc : List (Key × List Ty)) (kv : Key × Val) : List (Key × List Ty) :=
  let old := (lookupKey kv.1 acc).getD []
  let old := if kv.2.ty = .float ∧ Ty.int ∈ old then old.erase .int else old
  setKey kv.1 (if kv.2.ty ∈ old then old else old ++ [kv.2.ty]) acc

/-- `compare_multiple_dicts` (dict_data_type_tree.py:91-109): number of common keys, of all keys, and whether every key
has one value type. -/
def compareDicts (ms : List DMeta) : Nat × Nat × Bool :=
  match ms with
  | [] => (0, 0, true)
  | m :: r =>
    let common := m.keys.filter (fun k => r.all (fun m' => m'.keys.contains k))
    let total := dedup ((m :: r).flatMap DMeta.keys)
    let types := ((m :: r).flatMap (·.data)).foldl addValueType []
    (common.length, total.length, types.all (fun kt => kt.2.length = 1))

/-- The merge condition of `_merge_similar_typed_dicts` (set_and_sequence_operations.py:116-120). -/
def shouldMerge (S : Strategies) (dicts : List Node) : Bool :=
  let (c, t, same) := compareDicts (dicts.filterMap nodeMeta)
  decide (S.merge ≤ percentSimilarity c t) && same

/-- Python's `min(a, b)` on strings. -/
def minStr (a b : Str) : Str := if strLe a b then a else b

/-- `from_multiple_dict_data_type_trees` (dict_data_type_tree.py:385-424). `rec` builds the tree of the merged
dictionary. The `check_same` tests always succeed for siblings. -/
def mergeDicts (rec : Str → Val → Except Err Node) : List Node → Except Err Node
  | [] => .error .noTrees
  | d :: ds =>
    let data := (d :: ds).foldl (fun acc n => updateDict acc (nodeData n)) []
    let name := ds.foldl (fun acc n => minStr acc n.name) d.name
    let info := ((d :: ds).filterMap nodeMeta).foldl DMeta.update ((nodeMeta d).getD (DMeta.ofData []))
    do
      let n ← rec name (.dict data)
      match n with
      | .mk h kids => pure (.mk { h with kind := .dict data info } kids)

/-! ### Children of sets and sequences -/

/-- Search for the first unused name with a numeric suffix (set_and_sequence_operations.py:54-59). -/
def freshSuffix (base : Str) (names : List Str) : Nat → Nat → Str
  | 0, count => base ++ natStr count
  | fuel + 1, count =>
    if names.contains (base ++ natStr count) then freshSuffix base names fuel (count + 1) else base ++ natStr count

/-- The name for a new child (set_and_sequence_operations.py:51-59). The fuel suffices: there are only
`names.length` names to avoid. -/
def freshName (base : Str) (names : List Str) : Str :=
  if names.contains base then freshSuffix base names names.length 2 else base

/-- Loop body for lists, sets, iterators and series (set_and_sequence_operations.py:48-82). The state is the set of
children in insertion order and `names_added.values()`. -/
def setStep (E : Env) (rec : Str → Val → Except Err Node) (parent : Str) (acc : List Node × List Str) (v : Val) :
    Except Err (List Node × List Str) := do
  let name := freshName (parent ++ E.U.capitalize v.ty.name) acc.2
  let child ← rec name v
  if acc.1.any (nodeEq E.S child) then
    if isTypedDict E.S child then
      pure (acc.1.map (fun k => if nodeEq E.S child k then updateNode k child else k), acc.2)
    else pure acc
  else pure (acc.1 ++ [child], acc.2 ++ [name])

/-- `names_added[child]` in the dictionary of named children. -/
def findEq (S : Strategies) (child : Node) : List (Node × Str) → Option Str
  | [] => none
  | (n, s) :: r => if nodeEq S child n then some s else findEq S child r

/-- Loop body for fixed tuples (set_and_sequence_operations.py:48-74). -/
def tupleStep (E : Env) (rec : Str → Val → Except Err Node) (parent : Str) (acc : List Node × List (Node × Str))
    (v : Val) : Except Err (List Node × List (Node × Str)) := do
  let name := freshName (parent ++ E.U.capitalize v.ty.name) (acc.2.map (·.2))
  let child ← rec name v
  match findEq E.S child acc.2 with
  | some old => pure (acc.1 ++ [child.rename old], acc.2)
  | none => pure (acc.1 ++ [child], acc.2 ++ [(child, child.name)])

/-- A fold that may fail. -/
def foldE {α β} (f : β → α → Except Err β) : β → List α → Except Err β
  | b, [] => .ok b
  | b, a :: r => match f b a with
    | .ok b' => foldE f b' r
    | .error e => .error e

/-- `instantiate_children(..., allow_repeated_children=False)` (set_and_sequence_operations.py:35-88, 103-142). -/
def setChildren (E : Env) (rec : Str → Val → Except Err Node) (parent : Str) (elems : List Val) :
    Except Err (List Slot × List Node) := do
  let (kids, _) ← foldE (setStep E rec parent) ([], []) (limit E.S.checkMax elems)
  let seen := E.order 0 kids
  if shouldMerge E.S (seen.filter (isTypedDict E.S)) then
    let merged ← mergeDicts rec ((E.order 1 kids).filter (isTypedDict E.S))
    let out := E.order 2 (kids.filter (fun k => !isTypedDict E.S k) ++ [merged])
    pure (out.map (fun _ => Slot.seq 1), out)
  else pure (seen.map (fun _ => Slot.seq 1), seen)

/-- `instantiate_children(..., allow_repeated_children=True)` (set_and_sequence_operations.py:35-88, 103-131). -/
def tupleChildren (E : Env) (rec : Str → Val → Except Err Node) (parent : Str) (elems : List Val) :
    Except Err (List Slot × List Node) := do
  let (kids, _) ← foldE (tupleStep E rec parent) ([], []) (limit E.S.checkMax elems)
  let dicts := kids.filter (isTypedDict E.S)
  if shouldMerge E.S dicts then
    let merged ← mergeDicts rec dicts
    pure (kids.map (fun k => Slot.seq (if isTypedDict E.S k then dicts.length else 1)),
          kids.map (fun k => if isTypedDict E.S k then merged else k))
  else pure (kids.map (fun _ => Slot.seq 1), kids)

/-! ### Children of mappings -/

/-- Name suffix of a child of a mapping (mapping_data_type_tree.py:27). -/
def keySuffix (U : Uni) : Key → Str
  | .str s => toCamel U s
  | k => k.ty.name

/-- `str(label)` of a frame label. -/
def labelStr : Key → Str
  | .str s => s
  | .none => py!"None"
  | .other _ r => r

/-- Name suffix of a child of a frame (pandas_data_frame_data_type_tree.py:130-131). -/
def labelSuffix (U : Uni) (k : Key) : Str :=
  let s := toCamel U (labelStr k)
  if s.isEmpty then py!"WSpace" else s

/-- First loop of `_instantiate_children` (mapping_data_type_tree.py:26-39), without the grouping. -/
def mapKids (rec : Str → Val → Except Err Node) (parent : Str) (suffix : Key → Str) :
    List (Key × Val) → Except Err (List (Key × Node))
  | [] => .ok []
  | (k, v) :: r => do
    let n ← rec (parent ++ suffix k) v
    let rest ← mapKids rec parent suffix r
    pure ((k, n) :: rest)

/-- `children_info[child].add(key)` (mapping_data_type_tree.py:38). -/
def addGroup (S : Strategies) (key : Key) (n : Node) : List (Node × List Key) → List (Node × List Key)
  | [] => [(n, [key])]
  | (m, ks) :: r => if nodeEq S n m then (m, ks ++ [key]) :: r else (m, ks) :: addGroup S key n r

/-- Occurrences of a class in the counter `last_name_added`. -/
def countTy (t : Ty) : List (Ty × Nat) → Option Nat
  | [] => none
  | (t', n) :: r => if t' = t then some n else countTy t r

/-- `_assign_same_data_type_tree_to_keys_with_same_value_type` (mapping_data_type_tree.py:43-64): the shared tree
(renamed) for every group with several keys. -/
def renameGroups (U : Uni) (parent : Str) : List (Ty × Nat) → List (Node × List Key) → List (Node × List Key)
  | _, [] => []
  | counts, (n, ks) :: r =>
    if ks.length > 1 then
      let base := parent ++ U.capitalize n.hdr.ty.name
      match countTy n.hdr.ty counts with
      | some c => (n.rename (base ++ natStr (c + 1)), ks) :: renameGroups U parent ((n.hdr.ty, c + 1) :: counts) r
      | none => (n.rename base, ks) :: renameGroups U parent ((n.hdr.ty, 1) :: counts) r
    else (n, ks) :: renameGroups U parent counts r

/-- The tree finally assigned to a key, and the keys it is shared by. -/
def findGroup (key : Key) : List (Node × List Key) → Option (Node × List Key)
  | [] => none
  | (n, ks) :: r => if ks.contains key then some (n, ks) else findGroup key r

/-- The keys reached by `__iter__`/`__next__` (mapping_data_type_tree.py:132-143): iteration stops at a `None` key. -/
def iterKeys (keys : List Key) : List Key := keys.takeWhile (fun k => k != .none)

/-- Slots and children of a mapping after sharing. -/
def shareEqual (E : Env) (parent : Str) (kids : List (Key × Node)) : List Slot × List Node :=
  let groups := kids.foldl (fun g kn => addGroup E.S kn.1 kn.2 g) []
  let groups := renameGroups E.U parent [] groups
  let iter := iterKeys (kids.map (·.1))
  let final := kids.map fun kn =>
    match findGroup kn.1 groups with
    | some (n, ks) => ((⟨kn.1, (iter.filter (fun k => ks.contains k)).length⟩ : Slot), n)
    | none => (⟨kn.1, 1⟩, kn.2)
  (final.map (·.1), final.map (·.2))

/-- `_instantiate_children` of mappings (mapping_data_type_tree.py:21-41). -/
def mapChildren (E : Env) (rec : Str → Val → Except Err Node) (parent : Str) (items : List (Key × Val)) :
    Except Err (List Slot × List Node) := do
  let kids ← mapKids rec parent (keySuffix E.U) (items.filter (fun kv => !kv.1.hidden))
  pure (shareEqual E parent kids)

/-- `_instantiate_children` of frames (pandas_data_frame_data_type_tree.py:141-162), on the labels to visit. -/
def frameChildren (E : Env) (rec : Str → Val → Except Err Node) (parent : Str) (items : List (Key × Val)) :
    Except Err (List Slot × List Node) := do
  let kids ← mapKids rec parent (labelSuffix E.U) items
  pure (kids.map (fun kn => ⟨kn.1, 1⟩), kids.map (·.2))

/-! ### Construction -/

/-- The data kept by a dictionary tree (dict_data_type_tree.py:226-233). -/
def dictData (S : Strategies) (items : List (Key × Val)) : List (Key × Val) :=
  if S.dict = .typedDict then items else limit S.checkMax items

/-- `DataTypeTree.__init__` through the factory (data_type_tree.py:77-102, factory.py:239-250), for a root or nested
node. The name is validated first, except for dictionaries (dict_data_type_tree.py:213-217). -/
def build (E : Env) : Nat → Bool → Str → Val → Except Err Node
  | 0, _, _, _ => .error .fuel
  | fuel + 1, root, name, v =>
    let rec' := build E fuel false
    let leaf (k : NKind) : Except Err Node :=
      if nameOk E.U name then .ok (.mk { kind := k, name, root, ty := v.ty, slots := [] } []) else .error (.badName name)
    let node (k : NKind) (c : Except Err (List Slot × List Node)) : Except Err Node :=
      match c with
      | .ok (slots, kids) => .ok (.mk { kind := k, name, root, ty := v.ty, slots } kids)
      | .error e => .error e
    let checked (k : NKind) (c : Except Err (List Slot × List Node)) : Except Err Node :=
      if nameOk E.U name then node k c else .error (.badName name)
    match v with
    | .inst _ _ => leaf .inst
    | .cls _ n => leaf (.cls n)
    | .module _ => leaf .module
    | .io _ => leaf .io
    | .ndarray _ d => leaf (.ndarray d)
    | .func f => match leaf (.func f) with
      | .error e => .error e
      | .ok n => if !root && decide (f.sig = .typeError) then .error .signature else .ok n
    | .seq k _ es =>
      checked (.seq k) (if k = .tuple ∧ E.S.tuple = .fixed then tupleChildren E rec' name es else setChildren E rec' name es)
    | .map .dict _ ks vs =>
      let data := dictData E.S (ks.zip vs)
      node (.dict data (DMeta.ofData data)) (mapChildren E rec' name data)
    | .map .proxy _ ks vs => checked .proxy (mapChildren E rec' name (limit E.S.checkMax (ks.zip vs)))
    | .map (.frame i) _ ks vs => checked (.frame i) (frameChildren E rec' name (ks.zip vs))

/-- The tree of a value: `fuel = depth + 1` always suffices. -/
def buildTree (E : Env) (name : Str) (v : Val) : Except Err Node := build E (v.depth + 1) true name v

end Verif
