import Verif.Model.Strategies
import Verif.Model.Names
import Verif.Model.Docstring
/-
Input data of the generator, as a finite inductive type. Cyclic data is outside the model.
-/
namespace Verif

/-- A Python class as the generator sees it: its `__name__` and its identity (two classes may share a name). -/
structure Ty where
  name : Str
  uid : Nat := 0
  deriving DecidableEq

def Ty.int : Ty := ⟨py!"int", 0⟩
def Ty.float : Ty := ⟨py!"float", 0⟩
def Ty.str : Ty := ⟨py!"str", 0⟩
def Ty.bool : Ty := ⟨py!"bool", 0⟩
def Ty.noneType : Ty := ⟨py!"NoneType", 0⟩
def Ty.list : Ty := ⟨py!"list", 0⟩
def Ty.dict : Ty := ⟨py!"dict", 0⟩
def Ty.set : Ty := ⟨py!"set", 0⟩
def Ty.frozenset : Ty := ⟨py!"frozenset", 0⟩
def Ty.tuple : Ty := ⟨py!"tuple", 0⟩
def Ty.type : Ty := ⟨py!"type", 0⟩
def Ty.function : Ty := ⟨py!"function", 0⟩
def Ty.mappingproxy : Ty := ⟨py!"mappingproxy", 0⟩
def Ty.listIterator : Ty := ⟨py!"list_iterator", 0⟩

/-- A key of a mapping. Strings are compared by content, other keys by class and `repr`. Subclasses of `str` are
treated as `str`. -/
inductive Key
  | str (s : Str)
  | none
  | other (ty : Ty) (repr : Str)
  deriving DecidableEq

/-- `type(key)`. -/
def Key.ty : Key → Ty
  | .str _ => .str
  | .none => .noneType
  | .other t _ => t

def Key.isStr : Key → Bool
  | .str _ => true
  | _ => false

/-- Result of `inspect.signature(f)`: its text and number of parameters, or the exception. -/
inductive Sig
  | ok (text : Str) (nparams : Nat)
  | valueError
  | typeError
  deriving DecidableEq

/-- Result of reading the source of a function (`inspect.getsource`, then `ast.parse`): no source
(`OSError`/`TypeError`), a syntax error, or whether a `return` statement occurs. -/
inductive Source
  | unavailable
  | unparsable
  | ret (hasReturn : Bool)
  deriving DecidableEq

/-- What the generator inspects of a function. -/
structure FuncInfo where
  ty : Ty
  isLambda : Bool
  sig : Sig
  source : Source
  deriving DecidableEq

/-- Sequence-like inputs. `frozenset` is exactly that class; `set` also stands for subclasses of both. -/
inductive SeqKind | list | set | frozenset | tuple | iterator | series
  deriving DecidableEq

/-- What the generator inspects of a data frame besides the columns it visits: `str(df.columns)` and whether the labels
(or first levels) are all `str`, `bool` or `int` (pandas_data_frame_data_type_tree.py:95-101). -/
structure FrameInfo where
  columns : Str
  literalLabels : Bool
  deriving DecidableEq

inductive MapKind | dict | proxy | frame (info : FrameInfo)
  deriving DecidableEq

/-- Input values. `keys` and `vals` of `map` are parallel lists in iteration order; for a frame they are the labels
visited by `_instantiate_children` (pandas_data_frame_data_type_tree.py:141-162) with the selected column or frame. -/
inductive Val
  /-- An object handled as plain instance; strings carry their text. -/
  | inst (ty : Ty) (text : Option Str)
  | func (f : FuncInfo)
  /-- A class object, with its metaclass. -/
  | cls (metaclass : Ty) (name : Str)
  | module (ty : Ty)
  /-- An object of class `io.IOBase` itself; every open file is an iterator. -/
  | io (ty : Ty)
  | ndarray (ty : Ty) (dtype : Str)
  | seq (k : SeqKind) (ty : Ty) (elems : List Val)
  | map (k : MapKind) (ty : Ty) (keys : List Key) (vals : List Val)

/-- `type(value)`. -/
def Val.ty : Val → Ty
  | .inst t _ => t
  | .func f => f.ty
  | .cls m _ => m
  | .module t => t
  | .io t => t
  | .ndarray t _ => t
  | .seq _ t _ => t
  | .map _ t _ _ => t

/-- `value.items()`. -/
def Val.items : Val → List (Key × Val)
  | .map _ _ ks vs => ks.zip vs
  | _ => []

/-- A dictionary from its items. -/
def Val.dict (items : List (Key × Val)) : Val := .map .dict .dict (items.map (·.1)) (items.map (·.2))

mutual
/-- Nesting depth of a value. -/
def Val.depth : Val → Nat
  | .seq _ _ es => depthList es + 1
  | .map _ _ _ vs => depthList vs + 1
  | _ => 0
def depthList : List Val → Nat
  | [] => 0
  | v :: r => max v.depth (depthList r)
end

/-- Prefix of hidden keys (lazy_type_hint/file_modifiers/yaml_file_modifier.py, `YamlFileModifier.prefix`). -/
def hiddenPrefix : Str := py!"___docstring_hidden_key_"

/-- `isinstance(key, str) and key.startswith(prefix)`. -/
def Key.hidden : Key → Bool
  | .str s => startsWith s hiddenPrefix
  | _ => false

/-- `d[key]` in an association list, as in a Python dictionary. -/
def lookupKey {α} (k : Key) : List (Key × α) → Option α
  | [] => .none
  | (k', v) :: r => if k' = k then some v else lookupKey k r

/-- `d[key] = value`: keeps the position of an existing key. -/
def setKey {α} (k : Key) (v : α) : List (Key × α) → List (Key × α)
  | [] => [(k, v)]
  | (k', v') :: r => if k' = k then (k', v) :: r else (k', v') :: setKey k v r

/-- `d.update(e)`. -/
def updateDict {α} (d e : List (Key × α)) : List (Key × α) := e.foldl (fun acc kv => setKey kv.1 kv.2 acc) d

/-- Truncation by the element limit; `0` means no limit. -/
def limit {α} (n : Nat) (l : List α) : List α := if n = 0 then l else l.take n

end Verif
