import Verif.Model.Tree
/-
The text of a tree: declarations, imports, layout.
-/
namespace Verif

/-- What the rendering of a node needs from, or passes to, the rendering of its parent. `text` is `get_str_top_node()`,
`kws` the import keywords that evaluating it requests, `fails` the exception it raises, `emitted` all declarations added
by `_get_strs_all_nodes_unformatted` in order. -/
structure Decl where
  text : Str
  kws : List Str
  fails : Option Err

structure Out where
  name : Str
  height : Nat
  perm : Bool
  top : Decl
  emitted : List Decl

/-- `get_str_top_node_without_lvalue` (data_type_tree.py:187-190): `split("=")[-1].strip()`. -/
def withoutLvalue (s : Str) : Str := strip ((splitChar '=' s).getLastD [])

/-- The type expression by which a parent refers to a child (generic_data_type_tree.py:64-68). -/
def childRef (k : Out) : Str := if k.perm then k.name else withoutLvalue k.top.text

/-- The keywords requested while a parent refers to a child. -/
def refKws (k : Out) : List Str := if k.perm then [] else k.top.kws

/-- `sorted(set(types))` without `int` if `float` is present (generic_data_type_tree.py:73-77). -/
def uniqueTypes (ts : List Str) : List Str :=
  let s := sortStr (dedup ts)
  if ts.contains py!"float" && ts.contains py!"int" then sortStr (s.erase py!"int") else s

/-- `_get_types` over the children (generic_data_type_tree.py:46-78). -/
def childTypes (kids : List Out) (removeRepeated : Bool) : List Str × List Str :=
  let ts := kids.map childRef
  let kws := kids.flatMap refKws
  let (ts, kws) := if ts.isEmpty then ([py!"Any"], kws ++ [py!"Any"]) else (ts, kws)
  (if removeRepeated then uniqueTypes ts else ts, kws)

/-- `GenericDataTypeTree._format_types` (generic_data_type_tree.py:36-44). -/
def formatTypes (ts : List Str) : Str × List Str :=
  match ts with
  | [t] => (t, [])
  | ts => (py!"Union[" ++ join py!", " ts ++ py!"]", [py!"Union"])

/-- `get_type_alias_children` (generic_data_type_tree.py:25-34). -/
def aliasChildren (kids : List Out) : Str × List Str :=
  let (ts, k) := childTypes kids true
  let (s, k') := formatTypes ts
  (s, k ++ k')

/-- `get_type_alias_children` and `_format_types` of tuples (tuple_data_type_tree.py:24-45). -/
def tupleAliasChildren (S : Strategies) (kids : List Out) : Str × List Str :=
  match S.tuple with
  | .fixed =>
    let (ts, k) := childTypes kids false
    if ts = [py!"Any"] then (py!"Any, ...", k ++ [py!"Any"]) else (join py!", " ts, k)
  | .anySize =>
    let (ts, k) := childTypes kids true
    if ts = [py!"Any"] then (py!"Any, ...", k ++ [py!"Any"])
    else match dedup ts with
      | [t] => (t ++ py!", ...", k)
      | us => (py!"Union[" ++ join py!", " (sortStr us) ++ py!"], ...", k ++ [py!"Union"])

def typeAlias : Str := py!": TypeAlias = "

/-- `InstanceDataTypeTree._get_str_top_node` (instance_data_type_tree.py:12-30). -/
def instTop (E : Env) (h : Hdr) : Str × List Str :=
  let n := h.ty.name
  if h.ty = .noneType then (h.name ++ typeAlias ++ py!"Optional[object]", [py!"TypeAlias", py!"Optional"])
  else
    let rhs := if E.isBuiltin n then n else py!"\"" ++ n ++ py!"\""
    if h.root then (h.name ++ typeAlias ++ rhs, [py!"TypeAlias"]) else (h.name ++ py!" = " ++ rhs, [])

/-- `FunctionDataTypeTree._get_str_top_node` (function_data_type_tree.py:37-67, 78-84). `importsOf` stands for
`import_all_unkown_symbols_from_signature`. -/
def funcTop (importsOf : Str → List Str) (name : Str) (f : FuncInfo) : Decl :=
  match f.sig with
  | .typeError => { text := [], kws := [], fails := some .signature }
  | .valueError => { text := name ++ typeAlias ++ py!"Callable", kws := [py!"Callable", py!"TypeAlias"], fails := none }
  | .ok args n =>
    if f.isLambda then
      { text := name ++ typeAlias ++ py!"Callable[[" ++ join py!", " (List.replicate n py!"Any") ++ py!"], Any]"
        kws := [py!"Callable", py!"Any", py!"TypeAlias"], fails := none }
    else
      let head := py!"class " ++ name ++ py!"(Protocol):\n    def __call__" ++ args
      let kws := py!"Protocol" :: importsOf args
      if contains py!"->" args then { text := head ++ py!": ...", kws, fails := none }
      else match f.source with
        | .unavailable => { text := [], kws, fails := some .source }
        | .unparsable => { text := head ++ py!" -> None: ...", kws, fails := none }
        | .ret b =>
          if b then { text := head ++ py!" -> Any: ...", kws := kws ++ [py!"Any"], fails := none }
          else { text := head ++ py!" -> None: ...", kws, fails := none }

/-- `_parse_dict` (mapping_data_type_tree.py:69-91). `keys` are all keys of `children`, `kids` the iterated children. -/
def mapTop (E : Env) (h : Hdr) (keys : List Key) (kids : List Out) : Str × List Str :=
  let (container, kw) :=
    if h.ty.name = py!"mappingproxy" then (py!"MappingProxyType", py!"MappingProxyType")
    else match E.S.dict with
      | .typedDict | .dict => (py!"Dict", py!"dict")
      | .mapping => (py!"Mapping", py!"Mapping")
  let (kts, k1) := if keys.isEmpty then childTypes kids true else (uniqueTypes (keys.map (fun k => k.ty.name)), [])
  let (ks, k2) := formatTypes kts
  let (vs, k3) := aliasChildren kids
  (h.name ++ typeAlias ++ container ++ py!"[" ++ ks ++ py!", " ++ vs ++ py!"]",
    [kw] ++ k1 ++ k2 ++ k3 ++ [py!"TypeAlias"])

/-- The docstring text of a key: the string stored under its hidden key (dict_data_type_tree.py:178-205). -/
def keyDoc (m : DMeta) (key : Str) : Option Str :=
  if allStr m.data && !startsWith key hiddenPrefix then
    match lookupKey (.str (hiddenPrefix ++ key)) m.data with
    | some (.inst _ (some text)) => some text
    | _ => none
  else none

/-- The type written for a key of a TypedDict (dict_data_type_tree.py:260-276). -/
def entryType (E : Env) (m : DMeta) (key : Str) (kid : Out) : Str × List Str :=
  let (t, k) := if kid.perm then (toCamel E.U kid.name, []) else (withoutLvalue kid.top.text, kid.top.kws)
  match lookupKey (.str key) m.req with
  | none => (t, k)
  | some required =>
    let (t, k) := if required then (t, k) else (py!"NotRequired[" ++ t ++ py!"]", k ++ [py!"NotRequired"])
    if E.S.readOnly then (py!"ReadOnly[" ++ t ++ py!"]", k ++ [py!"ReadOnly"]) else (t, k)

/-- `is_functional_syntax` (dict_data_type_tree.py:117-132). -/
def isFunctional (U : Uni) (m : DMeta) : Bool :=
  !(allStr m.data && m.data.all (fun kv => match kv.1 with
    | .str s => !kwlist.contains s && nameOk U s
    | _ => false))

/-- Docstring width used by `format_string_as_docstring` (docstring_formatter.py:37). -/
def docWidth : Nat := 90

/-- Class docstring (dict_data_type_tree.py:341-343, 350-360): inserted if the configured key holds a string. -/
def classDoc (E : Env) (data : List (Key × Val)) : Option Str :=
  if E.S.keyDoc.isEmpty then none
  else match lookupKey (.str E.S.keyDoc) data with
    | some (.inst _ (some text)) => some text
    | _ => none

/-- `_build_typed_dict` with functional syntax (dict_data_type_tree.py:284-344). -/
def functionalText (name : Str) (content : List (Str × Str)) (doc : Option Str) : Str :=
  let entries := content.flatMap fun kv => py!"        \"" ++ kv.1 ++ py!"\": " ++ kv.2 ++ py!",\n"
  let lines := [name ++ py!" = TypedDict(", py!"    \"" ++ name ++ py!"\",", py!"    {", entries.dropLast,
    py!"    },", py!")"]
  join py!"\n" (match doc with
    | some t => lines ++ [formatDoc t docWidth []]
    | none => lines)

/-- `_build_typed_dict` with class syntax (dict_data_type_tree.py:284-344). -/
def classText (m : DMeta) (name : Str) (content : List (Str × Str)) (doc : Option Str) : Str :=
  let entries := content.flatMap fun kv => py!"    " ++ kv.1 ++ py!": " ++ kv.2 ++
    (match keyDoc m kv.1 with
     | some t => py!"\n" ++ formatDoc t docWidth TAB ++ py!"\n"
     | none => py!"\n")
  let body := if entries.isEmpty then py!"    ..." else entries.dropLast
  let head := py!"class " ++ name ++ py!"(TypedDict):"
  join py!"\n" (match doc with
    | some t => [head, formatDoc t docWidth TAB ++ py!"\n", body]
    | none => [head, body])

/-- `_parse_typed_dict` (dict_data_type_tree.py:243-282). -/
def typedTop (E : Env) (h : Hdr) (data : List (Key × Val)) (m : DMeta) (kids : List (Key × Out)) : Str × List Str :=
  let entries := kids.filterMap fun kk => match kk.1 with
    | .str s => some (s, entryType E m s kk.2)
    | _ => none
  let content := entries.map (fun e => (e.1, e.2.1))
  let kws := py!"TypedDict" :: entries.flatMap (fun e => e.2.2)
  let doc := classDoc E data
  (if isFunctional E.U m then functionalText h.name content doc else classText m h.name content doc, kws)

/-- `isinstance(key, (str, bool, int))`. -/
def literalKey : Key → Bool
  | .str _ => true
  | .none => false
  | .other t _ => decide (t = .int) || decide (t = .bool)

/-- `repr(key)`. -/
def reprKey (E : Env) : Key → Str
  | .str s => E.reprStr s
  | .none => py!"None"
  | .other _ r => r

/-- `LITERAL_OVERLOAD_TEMPLATE` (pandas_data_frame_data_type_tree.py:22-29). -/
def frameOverload (E : Env) (key : Key) (rtype : Str) : Str :=
  py!"    @overload  # type: ignore\n    def __getitem__(self, key: Literal[" ++ reprKey E key ++ py!"]) -> " ++ rtype ++
  py!":\n        ...\n"

/-- The tail shared by `TEMPLATE` and `TEMPLATE_NO_PD` (pandas_data_frame_data_type_tree.py:30-74). -/
def frameGetItem (allowed : Str) (pd : Bool) : Str :=
  py!"    def __getitem__(\n        self,\n        key: Union[\n" ++
  (if pd then py!"            \"pd.Series[bool]\",\n" else []) ++ py!"            " ++ allowed ++ py!",\n" ++
  (if pd then py!"            pd.DataFrame,\n            pd.Index,\n" else []) ++
  py!"            npt.NDArray[np.bool_],\n            npt.NDArray[np.str_],\n" ++
  py!"            List[Union[Scalar, Tuple[Hashable, ...]]],\n        ],\n    ) -> Union[pd.Series, pd.DataFrame]:\n"

/-- `PandasDataFrameDataTypeTree._get_str_top_node` (pandas_data_frame_data_type_tree.py:170-209). The strategy
"Do not type hint columns" is never tested here: `not self.strategies.pandas_strategies` is false for any non-empty
string. -/
def frameTop (E : Env) (h : Hdr) (kids : List (Key × Out)) : Str × List Str :=
  if kids.isEmpty then (h.name ++ typeAlias ++ py!"pd.DataFrame", [py!"pandas", py!"TypeAlias"])
  else
    let literal := kids.filter (fun kk => literalKey kk.1)
    let overloads := literal.map fun kk => frameOverload E kk.1 (childRef kk.2)
    let kws := [py!"pandas", py!"overload", py!"Union", py!"Literal", py!"npt", py!"tuple", py!"list", py!"Hashable",
      py!"numpy", py!"pd.Scalar"] ++ literal.flatMap (fun kk => refKws kk.2)
    let head := py!"class " ++ h.name ++ py!"(pd.DataFrame):\n\n" ++ join py!"\n" overloads ++ py!"\n"
    let ret := py!"        return super().__getitem__(key)"
    match E.S.pandas with
    | .full =>
      let extra := if kids.all (fun kk => literalKey kk.1) then [] else py!", Hashable"
      let allowed := py!"Literal[" ++ join py!", " (literal.map (fun kk => reprKey E kk.1)) ++ py!"]" ++ extra
      (head ++ frameGetItem allowed false ++ ret, kws)
    | _ =>
      (head ++ py!"    @overload\n" ++ frameGetItem py!"str" true ++ py!"        ...\n\n" ++
        frameGetItem py!"str" true ++ ret, kws)

/-- Children reached by iteration (a `None` key stops it). -/
def iterate {α} (slots : List Slot) (kids : List α) : List α :=
  ((slots.zip kids).takeWhile (fun sk => sk.1.key != .none)).map (·.2)

/-- `height` (data_type_tree.py:129-134, simple_data_type_tree.py:32-35). -/
def heightOf (h : Hdr) (iter : List Out) : Nat :=
  match h.kind with
  | .seq _ | .dict _ _ | .proxy | .frame _ => iter.foldl (fun m k => max k.height m) 0 + 1
  | _ => 0

/-- `permission_to_be_created_as_type_alias` (data_type_tree.py:176-185, simple_data_type_tree.py:37-42,
function_data_type_tree.py:22-27, dict_data_type_tree.py:219-224, pandas_data_frame_data_type_tree.py:82-101). -/
def permOf (S : Strategies) (h : Hdr) (height : Nat) : Bool :=
  let base := h.root || decide (height > S.minHeight)
  match h.kind with
  | .func _ => true
  | .inst | .cls _ | .module | .io | .ndarray _ => h.root
  | .dict _ m => m.isTyped S || base
  | .frame i => i.literalLabels || base
  | .seq _ | .proxy => base

/-- `_get_str_top_node` of every tree class. -/
def topOf (E : Env) (importsOf : Str → List Str) (h : Hdr) (kids : List Out) : Decl :=
  let keyed := (h.slots.map (·.key)).zip kids
  let iter := iterate h.slots kids
  let ok (p : Str × List Str) : Decl := { text := p.1, kws := p.2, fails := none }
  let alias (container : Str) (inner : Str × List Str) (kws : List Str) : Decl :=
    ok (h.name ++ typeAlias ++ container ++ py!"[" ++ inner.1 ++ py!"]", kws ++ inner.2)
  match h.kind with
  | .inst => ok (instTop E h)
  | .func f => funcTop importsOf h.name f
  | .cls n =>
    -- type_data_type_tree.py:13-18
    ok (h.name ++ typeAlias ++ py!"Type[" ++ (if E.isBuiltin n then n else py!"\"" ++ n ++ py!"\"") ++ py!"]",
      [py!"type", py!"TypeAlias"])
  | .module => ok (h.name ++ typeAlias ++ py!"ModuleType", [py!"ModuleType", py!"TypeAlias"])
  | .io => ok (h.name ++ typeAlias ++ py!"TextIO", [py!"TextIO", py!"TypeAlias"])
  | .ndarray d =>
    -- numpy_data_type_tree.py:12-15
    ok (h.name ++ typeAlias ++ py!"\"NDArray[np." ++ d ++ py!"]\"", [py!"NDArray", py!"numpy", py!"TypeAlias"])
  | .seq .list =>
    -- list_data_type_tree.py:18-29
    (match E.S.list with
      | .list => alias py!"List" (aliasChildren iter) [py!"list", py!"TypeAlias"]
      | .sequence => alias py!"Sequence" (aliasChildren iter) [py!"Sequence", py!"TypeAlias"])
  | .seq .set => alias py!"Set" (aliasChildren iter) [py!"set", py!"TypeAlias"]   -- set_data_type_tree.py:27-34
  | .seq .frozenset => alias py!"FrozenSet" (aliasChildren iter) [py!"FrozenSet", py!"TypeAlias"]
  | .seq .tuple => alias py!"Tuple" (tupleAliasChildren E.S iter) [py!"tuple", py!"TypeAlias"]
  | .seq .iterator => alias py!"Iterator" (aliasChildren iter) [py!"Iterator", py!"TypeAlias"]
  | .seq .series =>
    -- pandas_series_data_type_tree.py:26-29
    alias py!"pd.Series" (aliasChildren iter) [py!"annotations", py!"TypeAlias", py!"pandas"]
  | .dict data m => if m.isTyped E.S then ok (typedTop E h data m keyed) else ok (mapTop E h (h.slots.map (·.key)) iter)
  | .proxy => ok (mapTop E h (h.slots.map (·.key)) iter)
  | .frame _ => ok (frameTop E h keyed)

/-- `_get_strs_all_nodes_unformatted` (data_type_tree.py:246-264), without the duplicate elimination. -/
def emitOf (h : Hdr) (perm : Bool) (top : Decl) (kids : List Out) : List Decl :=
  if kids.isEmpty then (if h.root && perm then [top] else [])
  else (iterate h.slots kids).flatMap (fun k => k.emitted ++ (if k.perm then [k.top] else [])) ++
    (if perm then [top] else [])

/-- Rendering of a node from the rendering of its children. -/
def combine (E : Env) (importsOf : Str → List Str) (h : Hdr) (kids : List Out) : Out :=
  let height := heightOf h (iterate h.slots kids)
  let perm := permOf E.S h height
  let top := topOf E importsOf h kids
  { name := h.name, height, perm, top, emitted := emitOf h perm top kids }

mutual
def Node.out (E : Env) (importsOf : Str → List Str) : Node → Out
  | .mk h kids => combine E importsOf h (outList E importsOf kids)
def outList (E : Env) (importsOf : Str → List Str) : List Node → List Out
  | [] => []
  | k :: r => k.out E importsOf :: outList E importsOf r
end

/-- First exception raised while the declarations are collected. -/
def firstFailure : List Decl → Option Err
  | [] => none
  | d :: r => d.fails.or (firstFailure r)

/-- `get_strs_all_nodes_unformatted(include_imports=False)` on a fresh tree (data_type_tree.py:208-226). -/
def declTexts (o : Out) : List Str := dedup (o.emitted.map (·.text))

/-- The import keywords requested by the whole tree. -/
def allKws (o : Out) : List Str := dedup (o.emitted.flatMap (·.kws))

end Verif
