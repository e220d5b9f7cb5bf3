import Verif.Model.Cache
import Verif.Model.ToFile
/-
The object that `from_data` returns, over a history of calls.
-/
namespace Verif

/-- Calls of the methods of `Tree` (lazy_type_hint/generators/lazy_type_hint.py:26-42). -/
inductive TreeOp
  | toString (includeImports : Bool)
  | toFile (path : Path) (create : Bool)

/-- What a call returns: a text, or nothing. -/
inductive TreeResult
  | text (r : Except StrErr Str)
  | file (e : Option FileErr)
  deriving DecidableEq

/-- The state: what `get_strs_all_nodes_unformatted` has stored on the tree, and the file system. -/
structure TreeState where
  cache : Option (List Str)
  fs : Fs

/-- `Tree.to_string` (lazy_type_hint/generators/lazy_type_hint.py:30-31): `get_str_all_nodes` formats what the cached
`get_strs_all_nodes_unformatted` returns (data_type_tree.py:196-206). -/
def Node.toStringCall (E : Env) (n : Node) (cache : Option (List Str)) (b : Bool) : Except StrErr Str × Option (List Str) :=
  let r := cachedCall (nodeStrings E n) cache b
  (r.1.map formatNodeStrings, r.2)

/-- Whether `to_file` gets as far as making the text (lazy_type_hint/generators/lazy_type_hint.py:33-42). -/
def reachesText (fs : Fs) (p : Path) (create : Bool) : Bool :=
  if (fs p.parent).isNone then
    create && (match makedirs fs (p.length + 1) p.parent with
      | .ok _ => true
      | .error _ => false)
  else true

/-- One call. -/
def Node.treeStep (E : Env) (n : Node) (s : TreeState) : TreeOp → TreeResult × TreeState
  | .toString b => (.text (n.toStringCall E s.cache b).1, { s with cache := (n.toStringCall E s.cache b).2 })
  | .toFile p create =>
    let call := n.toStringCall E s.cache true
    let r := Verif.toFile call.1 s.fs p create
    (.file r.2, { cache := if reachesText s.fs p create then call.2 else s.cache, fs := r.1 })

/-- A history of calls: the results and the state at the end. -/
def Node.treeRun (E : Env) (n : Node) : TreeState → List TreeOp → List TreeResult × TreeState
  | s, [] => ([], s)
  | s, op :: ops =>
    let r := n.treeStep E s op
    let rest := n.treeRun E r.2 ops
    (r.1 :: rest.1, rest.2)

end Verif
