import Verif.Spec.Shape
/-
Data for which soundness of the hint is claimed: what a hint for one value must admit besides, which values cannot be told
apart by their contents, and data in which the one implies the other.
-/
namespace Verif.Spec
open Verif

/-- Functions that are described by the number of their parameters, or not at all: lambdas, and functions without a signature. -/
def Counted (f : FuncInfo) : Prop := f.sig = .valueError ∨ (f.isLambda = true ∧ ∃ text n, f.sig = .ok text n)

/-- Values that are not collections and are described in the same way. -/
def SameLeaf : Val → Val → Prop
  | .inst t _, .inst t' _ => t = t'
  | .cls _ n, .cls _ n' => n = n'
  | .module _, .module _ => True
  | .io _, .io _ => True
  | .ndarray _ d, .ndarray _ d' => d = d'
  | .func f, .func g => Counted f ∧ Counted g ∧ paramCount f = paramCount g
  | _, _ => False

/-- Tuples that are described place by place. -/
def Placed (S : Strategies) (k : SeqKind) : Prop := k = .tuple ∧ S.tuple = .fixed

/-- Mappings other than data frames. -/
def Lookup (k : MapKind) : Prop := k = .dict ∨ k = .proxy

/-- `Covers S v w`: whatever describes `v` part by part describes `w` as well. Tuples are compared place by place; every
element of another collection has a counterpart; dictionaries that are described by TypedDicts have the same keys, items of
other mappings have a counterpart with a key of the same class; data frames have the same labels. The relation `R` gives the counterparts. -/
inductive Covers (S : Strategies) : Val → Val → Prop
  | leaf {v w} : SameLeaf v w → Covers S v w
  | tuple {t t' es es'} : S.tuple = .fixed → es.length = es'.length → (∀ p ∈ es.zip es', Covers S p.1 p.2) →
      Covers S (.seq .tuple t es) (.seq .tuple t' es')
  | seq {k t t' es es'} (R : Val → Val → Prop) : ¬ Placed S k → (∀ a b, R a b → Covers S a b) →
      (∀ e' ∈ es', ∃ e ∈ es, R e e') → Covers S (.seq k t es) (.seq k t' es')
  | record {t t' ks vs ks' vs'} (R : Val → Val → Prop) : IsRecord S (.map .dict t ks vs) → ks'.length = vs'.length →
      (∀ k, k ∈ ks ↔ k ∈ ks') → (∀ a b, R a b → Covers S a b) →
      (∀ kw ∈ ks'.zip vs', ∃ v, (kw.1, v) ∈ ks.zip vs ∧ R v kw.2) → Covers S (.map .dict t ks vs) (.map .dict t' ks' vs')
  | mapping {k t t' ks vs ks' vs'} (R : Val → Val → Prop) : Lookup k → ¬ IsRecord S (.map k t ks vs) → ks'.length = vs'.length →
      (∀ a b, R a b → Covers S a b) →
      (∀ kw ∈ ks'.zip vs', ∃ kv ∈ ks.zip vs, kv.1.ty = kw.1.ty ∧ R kv.2 kw.2) → Covers S (.map k t ks vs) (.map k t' ks' vs')
  | frame {i i' t t' ks vs ks' vs'} (R : Val → Val → Prop) : ks'.length = vs'.length → (∀ k, k ∈ ks ↔ k ∈ ks') →
      (∀ a b, R a b → Covers S a b) → (∀ kw ∈ ks'.zip vs', ∃ v, (kw.1, v) ∈ ks.zip vs ∧ R v kw.2) →
      Covers S (.map (.frame i) t ks vs) (.map (.frame i') t' ks' vs')

/-- Values that are neither collections nor functions. -/
def Leaf : Val → Prop
  | .inst _ _ | .cls _ _ | .module _ | .io _ | .ndarray _ _ => True
  | _ => False

/-- `x` stands under the key `k` in one of the dictionaries among `es` that are described by TypedDicts. -/
def Holding (S : Strategies) (es : List Val) (k : Key) (x : Val) : Prop := ∃ d ∈ es, IsRecord S d ∧ (k, x) ∈ d.items

/-- The dictionaries among `es` have together the same keys as those among `es'`, and under every key some related values. -/
def SameEntries (S : Strategies) (R : Val → Val → Prop) (es es' : List Val) : Prop :=
  ∀ k x, Holding S es k x ∨ Holding S es' k x → ∃ y y', Holding S es k y ∧ Holding S es' k y' ∧ R y y'

/-- Dictionaries with items that are described by TypedDicts. -/
def Filled (S : Strategies) (v : Val) : Prop := IsRecord S v ∧ v.items ≠ []

/-- Collections without elements, except tuples that are described place by place. -/
def Void (S : Strategies) : Val → Prop
  | .seq k _ es => ¬ Placed S k ∧ es = []
  | .map k t ks vs => Lookup k ∧ (Val.map k t ks vs).items = []
  | _ => False

/-- `Alike S v w`: the values cannot be told apart by what they contain, whatever kinds of collections it is contained in,
and whether or not the dictionaries of a sequence are merged. Empty collections of different kinds are alike. Data frames
are alike if they list the same columns, or if columns are not to be told apart at all. -/
inductive Alike (S : Strategies) : Val → Val → Prop
  | leaf {v w} : Leaf v → Leaf w → v.ty = w.ty → Alike S v w
  | func {f g} : Counted f → Counted g → paramCount f = paramCount g → Alike S (.func f) (.func g)
  | empty {v w} : Void S v → Void S w → Alike S v w
  | tuple {t t' es es'} (R : Val → Val → Prop) : S.tuple = .fixed → es.length = es'.length → (∀ a b, R a b → Alike S a b) →
      (∀ p ∈ es.zip es', (Filled S p.1 ↔ Filled S p.2) ∧ (¬ Filled S p.1 → R p.1 p.2)) → SameEntries S R es es' →
      Alike S (.seq .tuple t es) (.seq .tuple t' es')
  | seq {k k' t t' es es'} (R : Val → Val → Prop) : ¬ Placed S k → ¬ Placed S k' → (∀ a b, R a b → Alike S a b) →
      (∀ e ∈ es, ¬ Filled S e → ∃ e' ∈ es', ¬ Filled S e' ∧ R e e') →
      (∀ e' ∈ es', ¬ Filled S e' → ∃ e ∈ es, ¬ Filled S e ∧ R e e') → SameEntries S R es es' →
      Alike S (.seq k t es) (.seq k' t' es')
  | record {t t' ks vs ks' vs'} (R : Val → Val → Prop) : IsRecord S (.map .dict t ks vs) → IsRecord S (.map .dict t' ks' vs') →
      (∀ a b, R a b → Alike S a b) → (∀ kv ∈ ks.zip vs, ∃ w, (kv.1, w) ∈ ks'.zip vs' ∧ R kv.2 w) →
      (∀ kw ∈ ks'.zip vs', ∃ v, (kw.1, v) ∈ ks.zip vs ∧ R v kw.2) → Alike S (.map .dict t ks vs) (.map .dict t' ks' vs')
  | mapping {k k' t t' ks vs ks' vs'} (R : Val → Val → Prop) : Lookup k → Lookup k' → ¬ IsRecord S (.map k t ks vs) →
      ¬ IsRecord S (.map k' t' ks' vs') → (∀ a b, R a b → Alike S a b) →
      (∀ kv ∈ ks.zip vs, ∃ kw ∈ ks'.zip vs', kv.1.ty = kw.1.ty ∧ R kv.2 kw.2) →
      (∀ kw ∈ ks'.zip vs', ∃ kv ∈ ks.zip vs, kv.1.ty = kw.1.ty ∧ R kv.2 kw.2) → Alike S (.map k t ks vs) (.map k' t' ks' vs')
  | frame {i i' t t' ks vs ks' vs'} : S.pandas = .none ∨ i.columns = i'.columns →
      Alike S (.map (.frame i) t ks vs) (.map (.frame i') t' ks' vs')

/-- Values of the same kind; sets and frozensets count as one. -/
def SameKind : Val → Val → Prop
  | .inst _ _, .inst _ _ | .cls _ _, .cls _ _ | .module _, .module _ | .io _, .io _ | .ndarray _ _, .ndarray _ _
  | .func _, .func _ => True
  | .seq k _ _, .seq k' _ _ => k = k' ∨ ((k = .set ∨ k = .frozenset) ∧ (k' = .set ∨ k' = .frozenset))
  | .map k _ _ _, .map k' _ _ _ => k = k' ∨ (¬ Lookup k ∧ ¬ Lookup k')
  | _, _ => False

/-- Values of the same kind that cannot be told apart cover each other. -/
def ToldApart (S : Strategies) (l : List Val) : Prop := ∀ x ∈ l, ∀ y ∈ l, SameKind x y → Alike S x y → Covers S x y

/-- Names of ASCII letters, digits and underscores. -/
def PlainName (n : Str) : Prop := n ≠ [] ∧ ∀ c ∈ n, asciiAlnum c = true ∨ c = '_'

/-- Labels of ASCII letters, digits, underscores and spaces. -/
def PlainLabel : Key → Prop
  | .str s => ∀ c ∈ s, c.isAlphanum = true ∨ c = '_' ∨ c = ' '
  | _ => False

/-- Data frames have plain labels. Their list of columns is not written like a function type. -/
def Labelled : MapKind → List Key → Prop
  | .frame i, ks => i.literalLabels = true ∧ ¬ py!"Callable" <+: i.columns ∧ ∀ k ∈ ks, PlainLabel k
  | _, _ => True

/-- What is required of every value in the data. Every element is inspected. Mappings have no `None` keys and no
hidden keys. Values side by side are told apart, except for the columns of data frames; in a sequence, also the values in its
dictionaries, and those under the same key cover each other. Classes and element types have plain names. -/
def CoherentAt (S : Strategies) : Val → Prop
  | .seq _ _ es => Inspected S es.length ∧ ToldApart S es ∧
      (∀ k x k' y, Holding S es k x → Holding S es k' y → SameKind x y → Alike S x y → Covers S x y) ∧
      (∀ k x y, Holding S es k x → Holding S es k y → Covers S x y)
  | .map k t ks vs => Labelled k ks ∧ (t.name = py!"mappingproxy" ↔ k = .proxy) ∧ ks.Nodup ∧ ks.length = vs.length ∧ Key.none ∉ ks ∧
      (∀ k ∈ ks, k.hidden = false) ∧ ((k = .dict ∧ S.dict = .typedDict) ∨ Inspected S ks.length ∨ ¬ Lookup k) ∧
      (k = .dict → S.keyDoc = [] ∨ Key.str S.keyDoc ∉ ks) ∧ (Lookup k → ToldApart S vs)
  | .inst _ _ | .module _ | .io _ => True
  | .cls _ n | .ndarray _ n => PlainName n
  | .func f => Counted f

/-- Data of any depth built from plain instances, classes, modules, files, arrays, lambdas, sequences of all kinds, dictionaries,
mapping proxies and data frames. -/
def Coherent (S : Strategies) (v : Val) : Prop := Every (CoherentAt S) v

end Verif.Spec
