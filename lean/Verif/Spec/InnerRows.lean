import Verif.Spec.InnerDicts
import Verif.Spec.Values
/-
Sequences of dictionaries inside dictionaries.
-/
namespace Verif.Spec
open Verif

/-- The sequence of dictionaries is the value itself or is found in it by following keys of dictionaries. The dictionaries on the way have
strings as keys and none of them stands after another one with the same keys; before the sequence there are only sequences of scalars. -/
inductive InnerRows : Val → SeqKind → List Dct → Prop
  | here (k : SeqKind) (t : Ty) (ds : List Dct) : InnerRows (.seq k t (ds.map dictOf)) k ds
  | last {t t' : Ty} {keys : List Key} {vals : List Val} {before after : List (Key × Val)} {key : Key} {k : SeqKind} {ds : List Dct} :
      keys.length = vals.length → keys.Nodup → Key.none ∉ keys →
      keys.zip vals = before ++ (key, .seq k t' (ds.map dictOf)) :: after → key.hidden = false → ds ≠ [] → (∀ d ∈ ds, IsDict d) →
      (∀ k2 kd t2 es, (k2, Val.seq kd t2 es) ∈ before → k2.hidden = false → ∀ e ∈ es, ∃ ty x, e = .inst ty x) →
      InnerRows (.map .dict t keys vals) k ds
  | step {t t' : Ty} {keys : List Key} {vals : List Val} {before after : List (Key × Val)} {key : Key} {ks' : List Str} {vs' : List Val}
      {k : SeqKind} {ds : List Dct} : keys.length = vals.length → keys.Nodup → Key.none ∉ keys →
      keys.zip vals = before ++ (key, .map .dict t' (ks'.map .str) vs') :: after → key.hidden = false → ks'.length = vs'.length →
      (∀ k2 t2 keys2 vals2, (k2, Val.map .dict t2 keys2 vals2) ∈ before → k2.hidden = false →
        keys2.length = vals2.length ∧ ¬ SameVisibleKeys keys2 (ks'.map .str)) →
      InnerRows (.map .dict t' (ks'.map .str) vs') k ds → InnerRows (.map .dict t keys vals) k ds

end Verif.Spec
