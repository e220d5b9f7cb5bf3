import Verif.Model.Generator
/-
One-shot iterators. In `Model/Tree` an iterator is the list of its elements, however often it is read. Here iterators are objects
with a number, and how much has been taken from each of them is the state. Everything else is as in `Model/Tree`. The elements
that are inspected are taken at once, so iterators that yield themselves are outside of the model.
-/
namespace Verif

/-- How many elements have been taken from each iterator. -/
abbrev Taken := Nat → Nat

/-- The number of an iterator, kept in front of its elements. -/
def numberMark (r : Nat) : Val := .inst ⟨[], r⟩ none

/-- The iterator number `r`, which yields `es`. -/
def Val.iter (r : Nat) (t : Ty) (es : List Val) : Val := .seq .iterator t (numberMark r :: es)

/-- The number of an iterator. -/
def iterNumber : List Val → Nat
  | .inst ⟨[], r⟩ none :: _ => r
  | _ => 0

/-- The elements of an iterator. -/
def iterElems : List Val → List Val
  | .inst ⟨[], _⟩ none :: es => es
  | es => es

/-- How many elements the loop in set_and_sequence_operations.py:48-50 takes: it ends after the element behind the limit. -/
def taken (n : Nat) (left : List Val) : Nat := if n = 0 then left.length else min (n + 1) left.length

/-- `c` more elements are taken from the iterator `r`. -/
def Taken.add (T : Taken) (r c : Nat) : Taken := fun j => if j = r then T j + c else T j

/-- A fold that may fail, with the state. -/
def foldR {α β} (f : β → α → Taken → Except Err (β × Taken)) : β → List α → Taken → Except Err (β × Taken)
  | b, [], T => .ok (b, T)
  | b, a :: r, T => match f b a T with
    | .ok (b', T') => foldR f b' r T'
    | .error e => .error e

/-- Construction of a nested tree. -/
abbrev Rec := Str → Val → Taken → Except Err (Node × Taken)

/-- `from_multiple_dict_data_type_trees` (dict_data_type_tree.py:385-424): the values of the merged dictionary, which have been
read before, are read again. -/
def mergeDictsR (rec : Rec) (ds : List Node) (T : Taken) : Except Err (Node × Taken) :=
  match ds with
  | [] => .error .noTrees
  | d :: ds =>
    let data := (d :: ds).foldl (fun acc n => updateDict acc (nodeData n)) []
    let name := ds.foldl (fun acc n => minStr acc n.name) d.name
    let info := ((d :: ds).filterMap nodeMeta).foldl DMeta.update ((nodeMeta d).getD (DMeta.ofData []))
    match rec name (.dict data) T with
    | .ok (.mk h kids, T') => .ok (.mk { h with kind := .dict data info } kids, T')
    | .error e => .error e

/-- Loop body for lists, sets, iterators and series (set_and_sequence_operations.py:48-82). -/
def setStepR (E : Env) (rec : Rec) (parent : Str) (acc : List Node × List Str) (v : Val) (T : Taken) :
    Except Err ((List Node × List Str) × Taken) :=
  let name := freshName (parent ++ E.U.capitalize v.ty.name) acc.2
  match rec name v T with
  | .error e => .error e
  | .ok (child, T') =>
    if acc.1.any (nodeEq E.S child) then
      if isTypedDict E.S child then
        .ok ((acc.1.map (fun k => if nodeEq E.S child k then updateNode k child else k), acc.2), T')
      else .ok (acc, T')
    else .ok ((acc.1 ++ [child], acc.2 ++ [name]), T')

/-- Loop body for fixed tuples (set_and_sequence_operations.py:48-74). -/
def tupleStepR (E : Env) (rec : Rec) (parent : Str) (acc : List Node × List (Node × Str)) (v : Val) (T : Taken) :
    Except Err ((List Node × List (Node × Str)) × Taken) :=
  let name := freshName (parent ++ E.U.capitalize v.ty.name) (acc.2.map (·.2))
  match rec name v T with
  | .error e => .error e
  | .ok (child, T') => match findEq E.S child acc.2 with
    | some old => .ok ((acc.1 ++ [child.rename old], acc.2), T')
    | none => .ok ((acc.1 ++ [child], acc.2 ++ [(child, child.name)]), T')

/-- `instantiate_children(..., allow_repeated_children=False)` (set_and_sequence_operations.py:35-88, 103-142). -/
def setChildrenR (E : Env) (rec : Rec) (parent : Str) (elems : List Val) (T : Taken) : Except Err ((List Slot × List Node) × Taken) :=
  match foldR (setStepR E rec parent) ([], []) (limit E.S.checkMax elems) T with
  | .error e => .error e
  | .ok ((kids, _), T') =>
    let seen := E.order 0 kids
    if shouldMerge E.S (seen.filter (isTypedDict E.S)) then
      match mergeDictsR rec ((E.order 1 kids).filter (isTypedDict E.S)) T' with
      | .error e => .error e
      | .ok (merged, T'') =>
        let out := E.order 2 (kids.filter (fun k => !isTypedDict E.S k) ++ [merged])
        .ok ((out.map (fun _ => Slot.seq 1), out), T'')
    else .ok ((seen.map (fun _ => Slot.seq 1), seen), T')

/-- `instantiate_children(..., allow_repeated_children=True)` (set_and_sequence_operations.py:35-88, 103-131). -/
def tupleChildrenR (E : Env) (rec : Rec) (parent : Str) (elems : List Val) (T : Taken) : Except Err ((List Slot × List Node) × Taken) :=
  match foldR (tupleStepR E rec parent) ([], []) (limit E.S.checkMax elems) T with
  | .error e => .error e
  | .ok ((kids, _), T') =>
    let dicts := kids.filter (isTypedDict E.S)
    if shouldMerge E.S dicts then
      match mergeDictsR rec dicts T' with
      | .error e => .error e
      | .ok (merged, T'') =>
        .ok ((kids.map (fun k => Slot.seq (if isTypedDict E.S k then dicts.length else 1)),
              kids.map (fun k => if isTypedDict E.S k then merged else k)), T'')
    else .ok ((kids.map (fun _ => Slot.seq 1), kids), T')

/-- First loop of `_instantiate_children` (mapping_data_type_tree.py:26-39), without the grouping. -/
def mapKidsR (rec : Rec) (parent : Str) (suffix : Key → Str) : List (Key × Val) → Taken → Except Err (List (Key × Node) × Taken)
  | [], T => .ok ([], T)
  | (k, v) :: r, T => match rec (parent ++ suffix k) v T with
    | .error e => .error e
    | .ok (n, T') => match mapKidsR rec parent suffix r T' with
      | .error e => .error e
      | .ok (rest, T'') => .ok ((k, n) :: rest, T'')

/-- `_instantiate_children` of mappings (mapping_data_type_tree.py:21-41). -/
def mapChildrenR (E : Env) (rec : Rec) (parent : Str) (items : List (Key × Val)) (T : Taken) : Except Err ((List Slot × List Node) × Taken) :=
  match mapKidsR rec parent (keySuffix E.U) (items.filter (fun kv => !kv.1.hidden)) T with
  | .error e => .error e
  | .ok (kids, T') => .ok (shareEqual E parent kids, T')

/-- `_instantiate_children` of frames (pandas_data_frame_data_type_tree.py:141-162). -/
def frameChildrenR (E : Env) (rec : Rec) (parent : Str) (items : List (Key × Val)) (T : Taken) : Except Err ((List Slot × List Node) × Taken) :=
  match mapKidsR rec parent (labelSuffix E.U) items T with
  | .error e => .error e
  | .ok (kids, T') => .ok ((kids.map (fun kn => ⟨kn.1, 1⟩), kids.map (·.2)), T')

/-- `DataTypeTree.__init__` through the factory (data_type_tree.py:77-102, factory.py:239-250). An iterator yields what has not
been taken from it yet. -/
def buildR (E : Env) : Nat → Bool → Str → Val → Taken → Except Err (Node × Taken)
  | 0, _, _, _, _ => .error .fuel
  | fuel + 1, root, name, v, T =>
    let rec' := buildR E fuel false
    let node (k : NKind) (c : Except Err ((List Slot × List Node) × Taken)) : Except Err (Node × Taken) :=
      match c with
      | .ok ((slots, kids), T') => .ok (.mk { kind := k, name, root, ty := v.ty, slots } kids, T')
      | .error e => .error e
    let checked (k : NKind) (c : Except Err ((List Slot × List Node) × Taken)) : Except Err (Node × Taken) :=
      if nameOk E.U name then node k c else .error (.badName name)
    match v with
    | .seq .iterator _ es =>
      let left := (iterElems es).drop (T (iterNumber es))
      checked (.seq .iterator) (setChildrenR E rec' name left (T.add (iterNumber es) (taken E.S.checkMax left)))
    | .seq k _ es =>
      checked (.seq k) (if k = .tuple ∧ E.S.tuple = .fixed then tupleChildrenR E rec' name es T else setChildrenR E rec' name es T)
    | .map .dict _ ks vs =>
      let data := dictData E.S (ks.zip vs)
      node (.dict data (DMeta.ofData data)) (mapChildrenR E rec' name data T)
    | .map .proxy _ ks vs => checked .proxy (mapChildrenR E rec' name (limit E.S.checkMax (ks.zip vs)) T)
    | .map (.frame i) _ ks vs => checked (.frame i) (frameChildrenR E rec' name (ks.zip vs) T)
    | v => match build E (fuel + 1) root name v with
      | .ok n => .ok (n, T)
      | .error e => .error e

/-- `LazyTypeHintABC.from_data` (generators/lazy_type_hint_abc.py:78-89) on data with iterators, and what is taken from them. -/
def fromDataR (E : Env) (className : Str) (v : Val) (T : Taken) : Except GenErr (Node × Taken) :=
  if nameOk E.U className then
    match buildR E (v.depth + 1) true className v T with
    | .ok n => .ok n
    | .error e => .error (.build e)
  else .error .className

/-- `from_data(...)` followed by `to_string(include_imports=...)`. -/
def generateR (E : Env) (className : Str) (v : Val) (includeImports : Bool) (T : Taken) : Except (GenErr ⊕ StrErr) (Str × Taken) :=
  match fromDataR E className v T with
  | .error e => .error (.inl e)
  | .ok (n, T') => match toString' E n includeImports with
    | .ok s => .ok (s, T')
    | .error e => .error (.inr e)

end Verif
