import Verif.Spec.Depth
import Verif.Spec.Clear
import Verif.Spec.Coherent
/-
How many levels of collections a type describes, as far as a reader of the generated text can tell.
-/
namespace Verif.Spec
open Verif

mutual
/-- The number of collections nested in each other in a type, where a declared name `n` counts as `lv n` levels. Classes
are not collections, and neither are the arguments of `Type`. -/
def TExpr.levels (lv : Str → Nat) : TExpr → Nat
  | .name n => lv n
  | .quoted _ => 0
  | .object => 0
  | .callable _ => 0
  | .union ts => levelsMax lv ts
  | .app con t => if con = py!"Type" then 0 else t.levels lv + 1
  | .tuple ts => levelsMax lv ts + 1
  | .tupleOf t => t.levels lv + 1
  | .mapping _ _ v => v.levels lv + 1
def levelsMax (lv : Str → Nat) : List TExpr → Nat
  | [] => 0
  | t :: r => max (t.levels lv) (levelsMax lv r)
end

/-- The levels of what a name is declared to be. -/
def Body.levels (lv : Str → Nat) : Body → Nat
  | .alias t => t.levels lv
  | .record _ _ es => levelsMax lv (es.map Entry.type) + 1
  | .protocol _ => 0
  | .frame ovs _ => levelsMax lv (ovs.map (·.2)) + 1

/-- The levels of the declared names, found by reading the declarations from top to bottom. Other names count as `0`. -/
def levelTable (Γ : List TDecl) : Str → Nat :=
  Γ.foldl (fun lv d x => if x = d.name then d.body.levels lv else lv x) (fun _ => 0)

mutual
/-- The collections written out in a type: the type itself if it is one, and those inside. -/
def TExpr.collections : TExpr → List TExpr
  | .name _ => []
  | .quoted _ => []
  | .object => []
  | .callable _ => []
  | .union ts => collectionsIn ts
  | .app con t => if con = py!"Type" then [] else .app con t :: t.collections
  | .tuple ts => .tuple ts :: collectionsIn ts
  | .tupleOf t => .tupleOf t :: t.collections
  | .mapping con k v => .mapping con k v :: v.collections
def collectionsIn : List TExpr → List TExpr
  | [] => []
  | t :: r => t.collections ++ collectionsIn r
end

/-- A type that is a collection, written out. -/
def TExpr.isCollection : TExpr → Bool
  | .app con _ => con ≠ py!"Type"
  | .tuple _ | .tupleOf _ | .mapping .. => true
  | _ => false

/-- The collections written out below the outermost level of a declaration. -/
def Body.inline : Body → List TExpr
  | .alias t => if t.isCollection then t.collections.tail else t.collections
  | b => collectionsIn b.types

/-- Classes and element types in the data have plain names. -/
def PlainlyNamed (v : Val) : Prop :=
  Every (fun w => match w with
    | .cls _ n | .ndarray _ n => PlainName n
    | _ => True) v

/-- No data frames. -/
def NoFrames (v : Val) : Prop :=
  Every (fun w => match w with
    | .map (.frame _) _ _ _ => False
    | _ => True) v

end Verif.Spec
