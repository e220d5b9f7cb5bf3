import Verif.Model.Tree
/-
Dictionaries inside dictionaries.
-/
namespace Verif.Spec
open Verif

/-- Both have the same keys, apart from hidden ones. -/
def SameVisibleKeys (a b : List Key) : Prop := ∀ k, k.hidden = false → (k ∈ a ↔ k ∈ b)

/-- The dictionary with the keys `ks` and the values `vs` is the value itself or is found in it by following keys of dictionaries.
The dictionaries on the way have strings as keys, and none of them stands after another one with the same keys: those two may share a
declaration. -/
inductive InnerDict : Val → List Str → List Val → Prop
  | here (t : Ty) (ks : List Str) (vs : List Val) : InnerDict (.map .dict t (ks.map .str) vs) ks vs
  | step {t t' : Ty} {keys : List Key} {vals : List Val} {before after : List (Key × Val)} {k : Key} {ks' : List Str} {vs' : List Val}
      {ks : List Str} {vs : List Val} : keys.length = vals.length → keys.Nodup → Key.none ∉ keys →
      keys.zip vals = before ++ (k, .map .dict t' (ks'.map .str) vs') :: after → k.hidden = false → ks'.length = vs'.length →
      (∀ k2 t2 keys2 vals2, (k2, Val.map .dict t2 keys2 vals2) ∈ before → k2.hidden = false →
        keys2.length = vals2.length ∧ ¬ SameVisibleKeys keys2 (ks'.map .str)) →
      InnerDict (.map .dict t' (ks'.map .str) vs') ks vs → InnerDict (.map .dict t keys vals) ks vs

end Verif.Spec
