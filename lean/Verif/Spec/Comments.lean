import Verif.Model.Tree
import Verif.Spec.Shape
import Verif.Spec.Types
import Verif.Spec.Values
/-
Comments of keys: they are passed along in the data, as strings under hidden keys.
-/
namespace Verif.Spec
open Verif

mutual
/-- The value without the entries of dictionaries and mapping proxies that hold comments. -/
def withoutComments : Val → Val
  | .seq k t es => .seq k t (withoutCommentsList es)
  | .map (.frame i) t ks vs => .map (.frame i) t ks (withoutCommentsList vs)
  | .map k t ks vs => .map k t ((uncommented ks vs).map (·.1)) ((uncommented ks vs).map (·.2))
  | v => v
def withoutCommentsList : List Val → List Val
  | [] => []
  | v :: r => withoutComments v :: withoutCommentsList r
/-- The items whose keys are not hidden. -/
def uncommented : List Key → List Val → List (Key × Val)
  | k :: ks, v :: vs => if k.hidden then uncommented ks vs else (k, withoutComments v) :: uncommented ks vs
  | _, _ => []
end

/-- Hidden keys belong to a visible key of the same mapping. -/
def Owned (ks : List Key) : Prop := ∀ k ∈ ks, k.hidden = true → ∃ s, k = .str (hiddenPrefix ++ s) ∧ Key.str s ∈ ks ∧ (Key.str s).hidden = false

/-- What is required of every value in the data: every hidden key belongs to a visible one and holds a string. Hidden keys do not
use up the limit on the elements to inspect. -/
def CommentedAt (S : Strategies) : Val → Prop
  | .map (.frame _) _ _ _ => True
  | .map k _ ks vs => ks.length = vs.length ∧ Owned ks ∧
      (∀ kv ∈ ks.zip vs, kv.1.hidden = true → ∃ text, kv.2 = .inst .str text) ∧
      ((k = .dict ∧ S.dict = .typedDict) ∨ Inspected S ks.length)
  | _ => True

/-- Data in which some keys have comments. -/
def Commented (S : Strategies) (v : Val) : Prop := Every (CommentedAt S) v

/-- The second text is the first one, possibly without the docstrings of the keys of a TypedDict. -/
inductive UpToDocs : Str → Str → Prop
  | same (s : Str) : UpToDocs s s
  | record (name : Str) (functional : Bool) (doc : Option Str) (es : List RawEntry) :
      UpToDocs (recordText name functional doc es) (recordText name functional doc (es.map fun e => { e with doc := none }))

/-- Items without comments. -/
def bareData (d : List (Key × Val)) : List (Key × Val) := (d.filter fun kv => !kv.1.hidden).map fun kv => (kv.1, withoutComments kv.2)

/-- The information on a dictionary, without comments. -/
def bareMeta (m : DMeta) : DMeta := { data := bareData m.data, init := m.init.filter fun k => !k.hidden, req := m.req }

def bareKind : NKind → NKind
  | .dict d m => .dict (bareData d) (bareMeta m)
  | k => k

mutual
/-- The tree in which the dictionaries have lost their comments. -/
def bareTree : Node → Node
  | .mk h kids => .mk { h with kind := bareKind h.kind } (bareTrees kids)
def bareTrees : List Node → List Node
  | [] => []
  | n :: r => bareTree n :: bareTrees r
end

/-- The order in which sets are iterated does not depend on the comments. (Trees are hashed without them.) -/
def OrderIgnoresComments (E : Env) : Prop := ∀ site l, E.order site (l.map bareTree) = (E.order site l).map bareTree

end Verif.Spec
