import Verif.Model.Tree
/-
The part of the data that is looked at under a limit on the number of elements.
-/
namespace Verif.Spec
open Verif

/-- The first `n` elements; all of them if `n` is zero. -/
def firstElems {α} (n : Nat) (l : List α) : List α := if n = 0 then l else l.take n

mutual
/-- The data without the elements beyond the limit, at every level. All sequences are cut, mapping proxies as well, and dictionaries
unless they become TypedDicts. Frames are never cut. -/
def inspectedPart (S : Strategies) : Val → Val
  | .seq k t es => .seq k t (firstElems S.checkMax (inspectedParts S es))
  | .map .dict t ks vs =>
    if S.dict = .typedDict then .map .dict t ks (inspectedParts S vs)
    else .map .dict t (firstElems S.checkMax ks) (firstElems S.checkMax (inspectedParts S vs))
  | .map .proxy t ks vs => .map .proxy t (firstElems S.checkMax ks) (firstElems S.checkMax (inspectedParts S vs))
  | .map (.frame i) t ks vs => .map (.frame i) t ks (inspectedParts S vs)
  | v => v
def inspectedParts (S : Strategies) : List Val → List Val
  | [] => []
  | v :: r => inspectedPart S v :: inspectedParts S r
end

/-- Items with other values. -/
def viaData (φ : Val → Val) (d : List (Key × Val)) : List (Key × Val) := d.map fun kv => (kv.1, φ kv.2)

def viaKind (φ : Val → Val) : NKind → NKind
  | .dict d m => .dict (viaData φ d) { m with data := viaData φ m.data }
  | k => k

mutual
/-- The tree in which dictionaries keep other values. -/
def viaTree (φ : Val → Val) : Node → Node
  | .mk h kids => .mk { h with kind := viaKind φ h.kind } (viaTrees φ kids)
def viaTrees (φ : Val → Val) : List Node → List Node
  | [] => []
  | n :: r => viaTree φ n :: viaTrees φ r
end

/-- The order in which sets are iterated does not depend on elements that are not inspected. (They do not contribute to the hash of a tree.) -/
def OrderIgnoresRest (E : Env) : Prop :=
  ∀ site l, E.order site (l.map (viaTree (inspectedPart E.S))) = (E.order site l).map (viaTree (inspectedPart E.S))

end Verif.Spec
