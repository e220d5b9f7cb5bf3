import Verif.Model.Tree
/-
How deep values are nested, as far as they are looked at, and values that may contain themselves.
-/
namespace Verif.Spec
open Verif

/-- The first `n` elements; zero stands for no limit. -/
def few {α} (n : Nat) (l : List α) : List α := if n = 0 then l else l.take n

/-- The entries whose keys do not begin like those for comments. -/
def commentFree {α} (l : List (Key × α)) : List α := (l.filter fun e => !(match e.1 with
  | .str s => startsWith s hiddenPrefix
  | _ => false)).map (·.2)

/-- The entries of a mapping that are looked at. -/
def lookedAt {α} (S : Strategies) (k : MapKind) (l : List (Key × α)) : List α :=
  match k with
  | .dict => commentFree (if S.dict = .typedDict then l else few S.checkMax l)
  | .proxy => commentFree (few S.checkMax l)
  | .frame _ => l.map (·.2)

/-- The values directly inside of a value that are looked at. -/
def parts (S : Strategies) : Val → List Val
  | .seq _ _ es => few S.checkMax es
  | .map k _ ks vs => lookedAt S k (ks.zip vs)
  | _ => []

/-- The value has at least `n` levels of values inside. -/
def Nested (S : Strategies) : Nat → Val → Prop
  | 0, _ => True
  | n + 1, v => ∃ w ∈ parts S v, Nested S n w

/-- What is stored at an address: a finished value, or a collection whose elements are addresses. -/
inductive Obj
  | val (v : Val)
  | seq (k : SeqKind) (ty : Ty) (refs : List Nat)
  | map (k : MapKind) (ty : Ty) (keys : List Key) (refs : List Nat)

/-- A memory, in which objects may contain each other. -/
abbrev Memory := Nat → Obj

/-- What one sees of an object from afar: its first `n` levels; what is further down is taken to be `None`. -/
def seenFrom (m : Memory) : Nat → Nat → Val
  | 0, _ => .inst .noneType none
  | n + 1, r => match m r with
    | .val v => v
    | .seq k t rs => .seq k t (rs.map (seenFrom m n))
    | .map k t ks rs => .map k t ks (rs.map (seenFrom m n))

/-- The addresses that are looked at in an object. -/
def links (S : Strategies) : Obj → List Nat
  | .val _ => []
  | .seq _ _ rs => few S.checkMax rs
  | .map k _ ks rs => lookedAt S k (ks.zip rs)

/-- From the object one can walk on for ever, because it contains itself or an object that does. -/
def Endless (S : Strategies) (m : Memory) (r : Nat) : Prop :=
  ∃ path : Nat → Nat, path 0 = r ∧ ∀ i, path (i + 1) ∈ links S (m (path i))

end Verif.Spec
