import Verif.Spec.Types
import Verif.Spec.Coherent
import Verif.Spec.Unmerged
/-
Which values a hint for a given value may admit: those of the same shape, part by part.
-/
namespace Verif.Spec
open Verif

/-- The types of values that are not collections, and of data frames without columns. -/
def leafType : Val → Option TExpr
  | .inst t _ => some (if t = .noneType then .object else .name t.name)
  | .cls _ c => some (.app py!"Type" (.name c))
  | .module _ => some (.name py!"ModuleType")
  | .io _ => some (.name py!"TextIO")
  | .ndarray _ d => some (.quoted (py!"NDArray[np." ++ d ++ py!"]"))
  | .func f => some (match paramCount f with
    | some n => .callable n
    | none => .name py!"Callable")
  | .map (.frame _) _ [] _ => some (.name py!"pd.DataFrame")
  | _ => none

/-- `w` is put together from the dictionaries among `es` that are described by TypedDicts: it has only keys of theirs, with
values related to those that stand under the same key; and it has every key that all of those with items have. There are
dictionaries with items among them, and no two of these differ too much to be merged. -/
def Assembled (S : Strategies) (R : Val → Val → Prop) (es : List Val) (w : Val) : Prop :=
  ∃ t ks vs, w = .map .dict t ks vs ∧ (∀ k ∈ ks, ∃ x, Holding S es k x) ∧
    (∀ kw ∈ ks.zip vs, ∃ x, Holding S es kw.1 x ∧ R x kw.2) ∧
    (∀ k x, Holding S es k x → (∀ e ∈ es, Filled S e → k ∈ e.items.map (·.1)) → k ∈ ks) ∧
    (∃ e ∈ es, Filled S e) ∧ ∀ e ∈ es, ∀ e' ∈ es, Filled S e → Filled S e' → ¬ Dissimilar S e e'

/-- The kinds of mappings that are described alike: `Mapping` says nothing about the class of the mapping. -/
def MapLike (S : Strategies) (k k' : MapKind) : Prop := k' = k ∨ (k = .dict ∧ k' = .proxy ∧ S.dict = .mapping)

/-- The kinds of sequences that are described alike: a tuple is a `Sequence`. -/
def SeqLike (S : Strategies) (k k' : SeqKind) : Prop := k' = k ∨ (k = .list ∧ k' = .tuple ∧ S.list = .sequence)

/-- `Matches S v w`: the value `w` has the shape of `v`. A value that is not a collection belongs to the type of `v`; `None`
says nothing about a value, nor does an empty collection about its elements. Tuples are compared place by place. Every element
of another collection matches an element of `v`, or is put together from its dictionaries. Dictionaries that are described by
TypedDicts have the keys of `v`; keys and values of other mappings have counterparts in `v`, one by one; data frames have the
columns of `v`. Values that cover each other are interchangeable. The relation `R` gives the counterparts. -/
inductive Matches (S : Strategies) : Val → Val → Prop
  | leaf {v w t} : leafType v = some t → Admits [] t w → Matches S v w
  | swap {a b w} : Covers S a b → Covers S b a → Matches S b w → Matches S a w
  | noElements {k k' t t' es'} : SeqLike S k k' → Matches S (.seq k t []) (.seq k' t' es')
  | tuple {t t' es es'} (R : Val → Val → Prop) : S.tuple = .fixed → es.length = es'.length → (∀ a b, R a b → Matches S a b) →
      (∀ p ∈ es.zip es', R p.1 p.2 ∨ (Filled S p.1 ∧ Assembled S R es p.2)) →
      Matches S (.seq .tuple t es) (.seq .tuple t' es')
  | seq {k k' t t' es es'} (R : Val → Val → Prop) : ¬ Placed S k → SeqLike S k k' → (∀ a b, R a b → Matches S a b) →
      (∀ e' ∈ es', (∃ e ∈ es, R e e') ∨ Assembled S R es e') → Matches S (.seq k t es) (.seq k' t' es')
  | record {t t' ks vs ks' vs'} (R : Val → Val → Prop) : IsRecord S (.map .dict t ks vs) → (∀ k, k ∈ ks ↔ k ∈ ks') →
      (∀ a b, R a b → Matches S a b) → (∀ kw ∈ ks'.zip vs', ∃ v, (kw.1, v) ∈ ks.zip vs ∧ R v kw.2) →
      Matches S (.map .dict t ks vs) (.map .dict t' ks' vs')
  | mapping {k k' t t' ks vs ks' vs'} (R : Val → Val → Prop) : Lookup k → ¬ IsRecord S (.map k t ks vs) → MapLike S k k' →
      (∀ a b, R a b → Matches S a b) →
      (ks ≠ [] → ∀ x ∈ ks', ∃ y ∈ ks, Admits [] (.name y.ty.name) (.inst x.ty none)) →
      (ks ≠ [] → ∀ w ∈ vs', ∃ v ∈ vs, R v w) → Matches S (.map k t ks vs) (.map k' t' ks' vs')
  | frame {i i' t t' ks vs ks' vs'} (R : Val → Val → Prop) : (∀ k, k ∈ ks ↔ k ∈ ks') → (∀ a b, R a b → Matches S a b) →
      (∀ kw ∈ ks'.zip vs', ∃ v, (kw.1, v) ∈ ks.zip vs ∧ R v kw.2) →
      Matches S (.map (.frame i) t ks vs) (.map (.frame i') t' ks' vs')

end Verif.Spec
