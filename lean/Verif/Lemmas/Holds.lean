import Verif.Lemmas.HashOf
import Verif.Lemmas.FitsBuild
import Verif.Spec.Matches
/-
Which values a node describes, and that renaming and updating nodes does not lose any.
-/
namespace Verif
open Verif.Spec

/-! ### Trees of coherent data -/

/-- Header of a node in the tree of coherent data. -/
def TrimHdr (S : Strategies) (h : Hdr) : Prop :=
  match h.kind with
  | .inst => h.slots = []
  | .seq _ => ∀ s ∈ h.slots, s.key ≠ .none
  | .dict data m => h.ty.name ≠ py!"mappingproxy" ∧ (h.slots = [] → m.data = []) ∧ (h.slots.map (·.key)).Nodup ∧
      (∀ s ∈ h.slots, s.key ≠ .none ∧ s.key ∈ m.data.map (·.1)) ∧
      (∀ kv ∈ data, S.keyDoc = [] ∨ kv.1 ≠ .str S.keyDoc) ∧ ∀ kv ∈ m.data, kv.1.hidden = false
  | .proxy => h.ty.name = py!"mappingproxy" ∧ ∀ s ∈ h.slots, s.key ≠ .none
  | .module | .io => h.slots = []
  | .func f => h.slots = [] ∧ Counted f
  | .cls n | .ndarray n => h.slots = [] ∧ PlainName n
  | .frame i => i.literalLabels = true ∧ (h.slots.map (·.key)).Nodup ∧ ∀ s ∈ h.slots, PlainLabel s.key

mutual
/-- The tree of coherent data. -/
def Trim (S : Strategies) : Node → Prop
  | .mk h kids => TrimHdr S h ∧ h.slots.length = kids.length ∧ TrimList S kids
def TrimList (S : Strategies) : List Node → Prop
  | [] => True
  | k :: r => Trim S k ∧ TrimList S r
end

theorem trimList_iff {S : Strategies} : ∀ {l : List Node}, TrimList S l ↔ ∀ k ∈ l, Trim S k
  | [] => by simp [TrimList]
  | k :: r => by simp [TrimList, trimList_iff (l := r)]

mutual
theorem trim_renameAux {S : Strategies} {new : Str} {len : Nat} : ∀ (c : Nat) (n : Node), Trim S n → Trim S (n.renameAux new len c)
  | c, .mk h kids, ht => by
    simp only [Node.renameAux, Trim] at ht ⊢
    refine ⟨ht.1, by rw [length_renameList]; exact ht.2.1, trimList_rename c h.slots kids ht.2.2⟩
theorem trimList_rename {S : Strategies} {new : Str} {len : Nat} : ∀ (c : Nat) (slots : List Slot) (l : List Node),
    TrimList S l → TrimList S (renameList new len c slots l)
  | _, [], [], _ => trivial
  | _, _ :: _, [], _ => trivial
  | c, [], k :: r, h => ⟨trim_renameAux c k h.1, trimList_rename c [] r h.2⟩
  | c, s :: ss, k :: r, h => ⟨trim_renameAux (c * s.mult) k h.1, trimList_rename c ss r h.2⟩
end

theorem trim_rename {S : Strategies} {new : Str} {n : Node} (h : Trim S n) : Trim S (n.rename new) := trim_renameAux 1 n h

/-! ### What a node describes -/

/-- A leaf node describes the value. -/
def LeafFits (h : Hdr) : Val → Prop
  | .inst t _ => h.kind = .inst ∧ h.ty = t
  | .cls _ n => h.kind = .cls n
  | .module _ => h.kind = .module
  | .io _ => h.kind = .io
  | .ndarray _ d => h.kind = .ndarray d
  | .func f => ∃ g, h.kind = .func g ∧ Counted g ∧ paramCount g = paramCount f
  | _ => False

/-- A node for a mapping other than a TypedDict. -/
def MapNode (S : Strategies) (h : Hdr) (k : MapKind) : Prop :=
  (h.kind = .proxy ∧ k = .proxy) ∨ (k = .dict ∧ ∃ data m, h.kind = .dict data m ∧ m.isTyped S = false)

/-- The node describes the value. -/
inductive Holds (S : Strategies) : Node → Val → Prop
  | leaf {h kids v} : LeafFits h v → Holds S (.mk h kids) v
  | tuple {h kids t es} : h.kind = .seq .tuple → S.tuple = .fixed → kids.length = es.length → (∀ p ∈ kids.zip es, Holds S p.1 p.2) →
      Holds S (.mk h kids) (.seq .tuple t es)
  | seq {h kids k t es} (R : Node → Val → Prop) : h.kind = .seq k → ¬ Placed S k → (∀ n v, R n v → Holds S n v) →
      (∀ e ∈ es, ∃ n ∈ kids, R n e) → Holds S (.mk h kids) (.seq k t es)
  | record {h kids data m t ks vs} (R : Node → Val → Prop) : h.kind = .dict data m → m.isTyped S = true → ks.length = vs.length →
      (∀ n v, R n v → Holds S n v) → (∀ s ∈ h.slots, (lookupKey s.key m.req).getD true = true → s.key ∈ ks) →
      (∀ kw ∈ ks.zip vs, ∃ n, (kw.1, n) ∈ (h.slots.map (·.key)).zip kids ∧ R n kw.2) →
      Holds S (.mk h kids) (.map .dict t ks vs)
  | mapping {h kids k t ks vs} (R : Node → Val → Prop) : MapNode S h k → ks.length = vs.length → (∀ n v, R n v → Holds S n v) →
      (∀ kw ∈ ks.zip vs, ∃ p ∈ (h.slots.map (·.key)).zip kids, p.1.ty = kw.1.ty ∧ R p.2 kw.2) → Holds S (.mk h kids) (.map k t ks vs)
  | frame {h kids i i' t ks vs} (R : Node → Val → Prop) : h.kind = .frame i → ks.length = vs.length → (∀ n v, R n v → Holds S n v) →
      (∀ s ∈ h.slots, s.key ∈ ks) → (∀ kw ∈ ks.zip vs, ∃ n, (kw.1, n) ∈ (h.slots.map (·.key)).zip kids ∧ R n kw.2) →
      Holds S (.mk h kids) (.map (.frame i') t ks vs)

theorem renameList_kids {new : Str} {len c : Nat} : ∀ {slots : List Slot} {l : List Node},
    All₂ (fun n n' => ∃ c', n' = n.renameAux new len c') l (renameList new len c slots l)
  | [], [] => .nil
  | _ :: _, [] => .nil
  | [], k :: r => .cons ⟨c, rfl⟩ renameList_kids
  | s :: ss, k :: r => .cons ⟨c * s.mult, rfl⟩ renameList_kids

theorem holds_renameAux {S : Strategies} {new : Str} {len : Nat} {n : Node} {v : Val} (h : Holds S n v) :
    ∀ c, Holds S (n.renameAux new len c) v := by
  have zips : ∀ {ks : List Key} {slots : List Slot} {kids : List Node} {c : Nat} {k : Key} {n : Node}, (k, n) ∈ ks.zip kids →
      ∃ c', (k, n.renameAux new len c') ∈ ks.zip (renameList new len c slots kids) := by
    intro ks slots kids c k n hm
    have ha := renameList_kids (new := new) (len := len) (c := c) (slots := slots) (l := kids)
    obtain ⟨i, hi, e⟩ := List.mem_iff_getElem.mp hm
    simp only [List.length_zip] at hi
    simp only [List.getElem_zip, Prod.mk.injEq] at e
    have hl := ha.length_eq
    obtain ⟨c', hc'⟩ := ha.get i (by omega) (by omega)
    refine ⟨c', ?_⟩
    rw [List.mem_iff_getElem]
    refine ⟨i, by simp only [List.length_zip]; omega, ?_⟩
    simp only [List.getElem_zip, e.1, hc', e.2]
  induction h with
  | leaf hf => intro c; exact .leaf (by revert hf; unfold LeafFits; exact id)
  | @tuple h kids t es hk hS hl _ ih =>
    intro c
    have ha := renameList_kids (new := new) (len := len) (c := c) (slots := h.slots) (l := kids)
    refine .tuple hk hS (by rw [← ha.length_eq]; exact hl) ?_
    rintro ⟨n', e⟩ hp
    obtain ⟨i, hi, he⟩ := List.mem_iff_getElem.mp hp
    simp only [List.length_zip] at hi
    simp only [List.getElem_zip, Prod.mk.injEq] at he
    have hlen := ha.length_eq
    obtain ⟨c', hc'⟩ := ha.get i (by omega) (by omega)
    rw [← he.1, ← he.2]
    dsimp only
    rw [hc']
    refine ih (kids[i]'(by omega), es[i]'(by omega)) ?_ c'
    rw [List.mem_iff_getElem]
    exact ⟨i, by simp only [List.length_zip]; omega, by simp⟩
  | @seq h kids k t es R hk hn _ h1 ih =>
    intro c
    refine .seq (fun n' e => ∃ n c', R n e ∧ n' = n.renameAux new len c') hk hn ?_ ?_
    · rintro _ e ⟨n, c', hr, rfl⟩
      exact ih n e hr c'
    · intro e he
      obtain ⟨n, hn, hr⟩ := h1 e he
      obtain ⟨n', hn', c', rfl⟩ := (renameList_kids (new := new) (len := len) (c := c) (slots := h.slots) (l := kids)).mem_left n hn
      exact ⟨_, hn', n, c', hr, rfl⟩
  | @record h kids data m t ks vs R hk hm hl _ h1 h2 ih =>
    intro c
    refine .record (fun n' e => ∃ n c', R n e ∧ n' = n.renameAux new len c') hk hm hl ?_ h1 ?_
    · rintro _ e ⟨n, c', hr, rfl⟩
      exact ih n e hr c'
    · intro kw hkw
      obtain ⟨n, hn, hr⟩ := h2 kw hkw
      obtain ⟨c', hc'⟩ := zips (slots := h.slots) (c := c) hn
      exact ⟨_, hc', n, c', hr, rfl⟩
  | @frame h kids i i' t ks vs R hk hl _ h1 h2 ih =>
    intro c
    refine .frame (fun n' e => ∃ n c', R n e ∧ n' = n.renameAux new len c') hk hl ?_ h1 ?_
    · rintro _ e ⟨n, c', hr, rfl⟩
      exact ih n e hr c'
    · intro kw hkw
      obtain ⟨n, hn, hr⟩ := h2 kw hkw
      obtain ⟨c', hc'⟩ := zips (slots := h.slots) (c := c) hn
      exact ⟨_, hc', n, c', hr, rfl⟩
  | @mapping h kids k t ks vs R hk hl _ h2 ih =>
    intro c
    refine .mapping (fun n' e => ∃ n c', R n e ∧ n' = n.renameAux new len c') hk hl ?_ ?_
    · rintro _ e ⟨n, c', hr, rfl⟩
      exact ih n e hr c'
    · intro kw hkw
      obtain ⟨⟨x, n⟩, hn, e, hr⟩ := h2 kw hkw
      obtain ⟨c', hc'⟩ := zips (slots := h.slots) (c := c) hn
      exact ⟨_, hc', e, n, c', hr, rfl⟩

theorem holds_rename {S : Strategies} {new : Str} {n : Node} {v : Val} (h : Holds S n v) : Holds S (n.rename new) v :=
  holds_renameAux h 1

/-! ### What a node says about values -/

/-- The type that a leaf node stands for. -/
def nodeType (h : Hdr) : Option TExpr :=
  match h.kind with
  | .inst => some (if h.ty = .noneType then .object else .name h.ty.name)
  | .cls c => some (.app py!"Type" (.name c))
  | .module => some (.name py!"ModuleType")
  | .io => some (.name py!"TextIO")
  | .ndarray d => some (.quoted (py!"NDArray[np." ++ d ++ py!"]"))
  | .func f => some (match paramCount f with
    | some n => .callable n
    | none => .name py!"Callable")
  | .frame _ => if h.slots = [] then some (.name py!"pd.DataFrame") else none
  | _ => none

/-- The values that the type written for a node may have. -/
inductive Means (S : Strategies) : Node → Val → Prop
  | leaf {h kids t w} : nodeType h = some t → Admits [] t w → Means S (.mk h kids) w
  | noElements {h k k' t es} : h.kind = .seq k → SeqLike S k k' → Means S (.mk h []) (.seq k' t es)
  | tuple {h kids t es} : h.kind = .seq .tuple → S.tuple = .fixed → kids.length = es.length → (∀ p ∈ kids.zip es, Means S p.1 p.2) →
      Means S (.mk h kids) (.seq .tuple t es)
  | seq {h kids k k' t es} (R : Node → Val → Prop) : h.kind = .seq k → ¬ Placed S k → SeqLike S k k' → (∀ n v, R n v → Means S n v) →
      (∀ e ∈ es, ∃ n ∈ kids, R n e) → Means S (.mk h kids) (.seq k' t es)
  | record {h kids data m t ks vs} (R : Node → Val → Prop) : h.kind = .dict data m → m.isTyped S = true →
      (∀ n v, R n v → Means S n v) → (∀ s ∈ h.slots, (lookupKey s.key m.req).getD true = true → s.key ∈ ks) →
      (∀ k ∈ ks, k ∈ h.slots.map (·.key)) →
      (∀ kw ∈ ks.zip vs, ∃ n, (kw.1, n) ∈ (h.slots.map (·.key)).zip kids ∧ R n kw.2) →
      Means S (.mk h kids) (.map .dict t ks vs)
  | mapping {h kids k k' t ks vs} (R : Node → Val → Prop) : MapNode S h k → MapLike S k k' → (∀ n v, R n v → Means S n v) →
      (h.slots ≠ [] → ∀ x ∈ ks, ∃ s ∈ h.slots, Admits [] (.name s.key.ty.name) (.inst x.ty none)) →
      (kids ≠ [] → ∀ w ∈ vs, ∃ n ∈ kids, R n w) → Means S (.mk h kids) (.map k' t ks vs)
  | frame {h kids i i' t ks vs} (R : Node → Val → Prop) : h.kind = .frame i → (∀ n v, R n v → Means S n v) →
      (∀ k, k ∈ h.slots.map (·.key) ↔ k ∈ ks) → (∀ kw ∈ ks.zip vs, ∃ n, (kw.1, n) ∈ (h.slots.map (·.key)).zip kids ∧ R n kw.2) →
      Means S (.mk h kids) (.map (.frame i') t ks vs)

theorem renameList_mem_zip {α} {new : Str} {len c : Nat} {ks : List α} {slots : List Slot} {kids : List Node} {k : α} {n' : Node}
    (hm : (k, n') ∈ ks.zip (renameList new len c slots kids)) : ∃ n c', (k, n) ∈ ks.zip kids ∧ n' = n.renameAux new len c' := by
  have ha := renameList_kids (new := new) (len := len) (c := c) (slots := slots) (l := kids)
  obtain ⟨i, hi, e⟩ := List.mem_iff_getElem.mp hm
  simp only [List.length_zip] at hi
  simp only [List.getElem_zip, Prod.mk.injEq] at e
  have hl := ha.length_eq
  obtain ⟨c', hc'⟩ := ha.get i (by omega) (by omega)
  refine ⟨kids[i]'(by omega), c', ?_, by rw [← e.2, hc']⟩
  rw [List.mem_iff_getElem]
  exact ⟨i, by simp only [List.length_zip]; omega, by simp only [List.getElem_zip, e.1]⟩

theorem means_renameAux {S : Strategies} {new : Str} {len : Nat} {m : Node} {w : Val} (h : Means S m w) :
    ∀ (n : Node) (c : Nat), m = n.renameAux new len c → Means S n w := by
  induction h with
  | leaf ht hw =>
    rintro ⟨h', kids'⟩ c e
    simp only [Node.renameAux, Node.mk.injEq] at e
    obtain ⟨rfl, rfl⟩ := e
    exact .leaf ht hw
  | noElements hk hl' =>
    rintro ⟨h', kids'⟩ c e
    simp only [Node.renameAux, Node.mk.injEq] at e
    obtain ⟨rfl, e⟩ := e
    have hl := length_renameList (new := new) (len := len) (c := c) (slots := h'.slots) (l := kids')
    rw [← e] at hl
    cases kids' with
    | nil => exact .noElements hk hl'
    | cons => simp at hl
  | @tuple h kids t es hk hS hl hz ih =>
    rintro ⟨h', kids'⟩ c e
    simp only [Node.renameAux, Node.mk.injEq] at e
    obtain ⟨rfl, rfl⟩ := e
    have ha := renameList_kids (new := new) (len := len) (c := c) (slots := h'.slots) (l := kids')
    have hlen := ha.length_eq
    refine .tuple hk hS (by omega) ?_
    intro p hp
    obtain ⟨i, hi, rfl⟩ := List.mem_iff_getElem.mp hp
    simp only [List.length_zip] at hi
    simp only [List.getElem_zip]
    obtain ⟨c', hc'⟩ := ha.get i (by omega) (by omega)
    refine ih ((renameList new len c h'.slots kids')[i]'(by omega), es[i]'(by omega)) ?_ _ c' hc'
    rw [List.mem_iff_getElem]
    exact ⟨i, by simp only [List.length_zip]; omega, by simp⟩
  | @seq h kids k k' t es R hk hn hl' _ h1 ih =>
    rintro ⟨h', kids'⟩ c e
    simp only [Node.renameAux, Node.mk.injEq] at e
    obtain ⟨rfl, rfl⟩ := e
    refine .seq (fun n v => ∃ c', R (n.renameAux new len c') v) hk hn hl' (fun n v ⟨c', hr⟩ => ih _ v hr n c' rfl) ?_
    intro e he
    obtain ⟨n, hn, hr⟩ := h1 e he
    obtain ⟨n', hn', c', rfl⟩ := renameList_kids.mem_right n hn
    exact ⟨n', hn', c', hr⟩
  | @record h kids data m t ks vs R hk hm _ h1 h2 h3 ih =>
    rintro ⟨h', kids'⟩ c e
    simp only [Node.renameAux, Node.mk.injEq] at e
    obtain ⟨rfl, rfl⟩ := e
    refine .record (fun n v => ∃ c', R (n.renameAux new len c') v) hk hm (fun n v ⟨c', hr⟩ => ih _ v hr n c' rfl) h1 h2 ?_
    intro kw hkw
    obtain ⟨n, hn, hr⟩ := h3 kw hkw
    obtain ⟨n', c', hn', rfl⟩ := renameList_mem_zip hn
    exact ⟨n', hn', c', hr⟩
  | @mapping h kids k k' t ks vs R hk hm _ h1 h2 ih =>
    rintro ⟨h', kids'⟩ c e
    simp only [Node.renameAux, Node.mk.injEq] at e
    obtain ⟨rfl, rfl⟩ := e
    have hl := length_renameList (new := new) (len := len) (c := c) (slots := h'.slots) (l := kids')
    refine .mapping (fun n v => ∃ c', R (n.renameAux new len c') v) hk hm (fun n v ⟨c', hr⟩ => ih _ v hr n c' rfl) h1 ?_
    intro hne w hw
    obtain ⟨n, hn, hr⟩ := h2 (by intro e; rw [e] at hl; exact hne (List.length_eq_zero_iff.mp hl.symm)) w hw
    obtain ⟨n', hn', c', rfl⟩ := renameList_kids.mem_right n hn
    exact ⟨n', hn', c', hr⟩
  | @frame h kids i i' t ks vs R hk _ h1 h2 ih =>
    rintro ⟨h', kids'⟩ c e
    simp only [Node.renameAux, Node.mk.injEq] at e
    obtain ⟨rfl, rfl⟩ := e
    refine .frame (fun n v => ∃ c', R (n.renameAux new len c') v) hk (fun n v ⟨c', hr⟩ => ih _ v hr n c' rfl) h1 ?_
    intro kw hkw
    obtain ⟨n, hn, hr⟩ := h2 kw hkw
    obtain ⟨n', c', hn', rfl⟩ := renameList_mem_zip hn
    exact ⟨n', hn', c', hr⟩

theorem means_rename {S : Strategies} {new : Str} {n : Node} {w : Val} (h : Means S (n.rename new) w) : Means S n w :=
  means_renameAux h n 1 rfl

/-! ### Nodes of values -/

/-- The class of tree for a value. -/
def tagOf : Val → ClassTag
  | .inst _ _ => .inst | .func _ => .func | .cls _ _ => .cls | .module _ => .module | .io _ => .io | .ndarray _ _ => .ndarray
  | .seq k _ _ => (NKind.seq k).tag
  | .map .dict _ _ _ => .dict | .map .proxy _ _ _ => .proxy | .map (.frame _) _ _ _ => .frame

/-- A dictionary that is described by a TypedDict, its node and its keys. The data of the node comes from dictionaries among
`pool`. -/
structure RecordNode (S : Strategies) (pool : List Val) (v : Val) (n : Node) : Prop where
  data : ∀ kv ∈ nodeData n, Holding S pool kv.1 kv.2
  info : ∃ m K, nodeMeta n = some m ∧ m.data = nodeData n ∧ Meta K m ∧ ∀ x, x ∈ v.items.map (·.1) ↔ ∃ s ∈ K, x = .str s
  slots : ∀ x, x ∈ n.hdr.slots.map (·.key) ↔ x ∈ v.items.map (·.1)
  fields : ∀ kv ∈ v.items, ∃ c, (kv.1, c) ∈ (n.hdr.slots.map (·.key)).zip n.kids ∧ ∀ w, Covers S kv.2 w → Holds S c w
  entries : ∀ kn ∈ (n.hdr.slots.map (·.key)).zip n.kids, ∃ y, (kn.1, y) ∈ v.items ∧ ∀ w, Means S kn.2 w → Matches S y w

/-- What construction gives for coherent data. -/
structure NodeFor (S : Strategies) (pool : List Val) (v : Val) (n : Node) : Prop where
  trim : Trim S n
  holds : ∀ w, Covers S v w → Holds S n w
  hash : HashOf S (n.hash S) v
  tag : n.hdr.kind.tag = tagOf v
  typed : isTypedDict S n = true ↔ IsRecord S v
  record : IsRecord S v → RecordNode S pool v n
  only : ¬ IsRecord S v → ∀ w, Means S n w → Matches S v w

/-- A node stands for values of the same shape only. -/
theorem NodeFor.exact {S : Strategies} {pool : List Val} {v : Val} {n : Node} (h : NodeFor S pool v n) (hc : CoherentAt S v) {w : Val}
    (hw : Means S n w) : Matches S v w := by
  by_cases hr : IsRecord S v
  · have rk := h.record hr
    obtain ⟨m1, K, i1, i2, i3, i4⟩ := rk.info
    obtain ⟨d, m, ek, hm⟩ := isTypedDict_kind (h.typed.mpr hr)
    obtain ⟨t, ks, vs, rfl, h1, h2⟩ := record_dict hr
    have hks : (ks.zip vs).map (·.1) = ks := List.map_fst_zip (by have := hc.2.2.2.1; omega)
    have hit : (Val.map .dict t ks vs).items.map (·.1) = ks := hks
    have hsl := rk.slots
    rw [hit] at hsl i4
    cases n with
    | mk hd kids =>
      simp only [Node.hdr] at ek hsl
      simp only [nodeMeta, ek, Option.some.injEq] at i1
      subst i1
      cases hw with
      | leaf ht => simp [nodeType, ek] at ht
      | noElements e => rw [ek] at e; cases e
      | tuple e => rw [ek] at e; cases e
      | seq R e => rw [ek] at e; cases e
      | mapping R e =>
        rcases e with ⟨e, _⟩ | ⟨_, dd, mm, e, e'⟩
        · rw [ek] at e; cases e
        · rw [ek] at e; cases e
          rw [hm] at e'; cases e'
      | frame R e => rw [ek] at e; cases e
      | @record _ _ _ _ t' ks' vs' R e _ hR h3 h4 h5 =>
        rw [ek] at e
        cases e
        refine .record (Matches S) hr ?_ (fun _ _ h => h) ?_
        · intro k
          constructor
          · intro hk
            obtain ⟨s, hs, e⟩ := List.mem_map.mp ((hsl k).mpr hk)
            subst e
            refine h3 s hs ?_
            obtain ⟨x, hx, ex⟩ := (i4 _).mp hk
            rw [ex, i3.req, if_pos hx]
            rfl
          · intro hk
            exact (hsl k).mp (h4 k hk)
        · intro kw hkw
          obtain ⟨c, hcm, hr'⟩ := h5 kw hkw
          obtain ⟨y, hy, hyw⟩ := rk.entries _ hcm
          exact ⟨y, hy, hyw _ (hR _ _ hr')⟩
  · exact h.only hr w hw

theorem NodeFor.mono {S : Strategies} {pool pool' : List Val} {v : Val} {n : Node} (h : NodeFor S pool v n)
    (hp : ∀ x ∈ pool, x ∈ pool') : NodeFor S pool' v n := by
  refine { h with record := fun hr => { h.record hr with data := ?_ } }
  intro kv hkv
  obtain ⟨d, hd, h'⟩ := (h.record hr).data kv hkv
  exact ⟨d, hp d hd, h'⟩

theorem NodeFor.rename {S : Strategies} {pool : List Val} {v : Val} {n : Node} {x : Str} (h : NodeFor S pool v n) :
    NodeFor S pool v (n.rename x) where
  trim := trim_rename h.trim
  holds w hw := holds_rename (h.holds w hw)
  hash := by rw [hash_rename]; exact h.hash
  tag := by rw [kind_rename]; exact h.tag
  typed := by rw [typed_rename]; exact h.typed
  record hr := by
    have r := h.record hr
    refine ⟨by rw [nodeData_rename]; exact r.data, by rw [nodeMeta_rename.1, nodeData_rename]; exact r.info, ?_, ?_, ?_⟩
    · intro y
      rw [← r.slots y]
      cases n; rfl
    · intro kv hkv
      obtain ⟨c, hc, hh⟩ := r.fields kv hkv
      cases n with
      | mk hd kids =>
        have ha := renameList_kids (new := x) (len := (Node.mk hd kids).name.length) (c := 1) (slots := hd.slots) (l := kids)
        obtain ⟨i, hi, e⟩ := List.mem_iff_getElem.mp hc
        simp only [List.length_zip, Node.hdr, Node.kids] at hi
        simp only [List.getElem_zip, Prod.mk.injEq, Node.hdr, Node.kids] at e
        have hl := ha.length_eq
        obtain ⟨c', hc'⟩ := ha.get i (by omega) (by omega)
        refine ⟨c.renameAux x (Node.mk hd kids).name.length c', ?_, fun w hw => holds_renameAux (hh w hw) c'⟩
        rw [List.mem_iff_getElem]
        refine ⟨i, ?_, ?_⟩
        · simp only [Node.rename, Node.renameAux, Node.hdr, Node.kids, List.length_zip]
          omega
        · simp only [Node.rename, Node.renameAux, Node.hdr, Node.kids, List.getElem_zip, e.1, hc', e.2]
    · rintro ⟨key, c⟩ hkn
      cases n with
      | mk hd kids =>
        simp only [Node.rename, Node.renameAux, Node.hdr, Node.kids] at hkn
        obtain ⟨c0, c', h0, rfl⟩ := renameList_mem_zip hkn
        obtain ⟨y, hy, hyw⟩ := r.entries (key, c0) h0
        exact ⟨y, hy, fun w hw => hyw w (means_renameAux hw c0 c' rfl)⟩
  only hr w hw := h.only hr w (means_rename hw)

/-! ### Equal nodes -/

theorem sameKind_of_tag {S : Strategies} {x y : Val} (hx : CoherentAt S x) (hy : CoherentAt S y) (h : tagOf x = tagOf y) : SameKind x y := by
  cases x with
  | seq k t es =>
    cases y with
    | seq k' t' es' =>
      unfold SameKind
      cases k <;> cases k' <;> simp_all [tagOf, NKind.tag]
    | map k' t' ks vs => cases k <;> cases k' <;> simp [tagOf, NKind.tag] at h
    | _ => cases k <;> simp [tagOf, NKind.tag] at h
  | map k t ks vs =>
    cases y with
    | seq k' t' es' => cases k <;> cases k' <;> simp [tagOf, NKind.tag] at h
    | map k' t' ks' vs' =>
      unfold SameKind
      cases k <;> cases k' <;> simp [tagOf, Lookup] at h ⊢
    | _ => cases k <;> simp [tagOf] at h
  | inst t x => cases y with
    | inst => trivial
    | seq k' t' es' => cases k' <;> simp [tagOf, NKind.tag] at h
    | map k' t' es' => cases k' <;> simp [tagOf] at h
    | _ => simp [tagOf] at h
  | _ => cases y with
    | seq k' t' es' => cases k' <;> simp [tagOf, NKind.tag] at h
    | map k' t' es' => cases k' <;> simp [tagOf] at h
    | _ => first | trivial | simp [tagOf] at h

/-- Values with equal nodes are of the same kind and alike. -/
theorem NodeFor.equal {S : Strategies} {p q : List Val} {x y : Val} {a b : Node} (ha : NodeFor S p x a) (hb : NodeFor S q y b)
    (hx : CoherentAt S x) (hy : CoherentAt S y) (h : nodeEq S a b = true) :
    (SameKind x y ∧ Alike S x y) ∧ SameKind y x ∧ Alike S y x := by
  unfold nodeEq at h
  rw [Bool.and_eq_true, decide_eq_true_eq] at h
  obtain ⟨ht, he⟩ := h
  rw [ha.tag, hb.tag] at ht
  exact ⟨⟨sameKind_of_tag hx hy ht, ha.hash.alike hb.hash he⟩, sameKind_of_tag hy hx ht.symm, hb.hash.alike ha.hash (eqv_swap he)⟩

theorem covers_record {S : Strategies} {v w : Val} (hc : CoherentAt S v) (hv : IsRecord S v) (h : Covers S v w) :
    IsRecord S w ∧ ∀ x, x ∈ v.items.map (·.1) ↔ x ∈ w.items.map (·.1) := by
  obtain ⟨t, ks, vs, rfl, h1, h2⟩ := record_dict hv
  have hks : (ks.zip vs).map (·.1) = ks := List.map_fst_zip (by have := hc.2.2.2.1; omega)
  cases h with
  | leaf h => exact (sameLeaf_map h).elim
  | @record _ t' _ _ ks' vs' R _ l hk _ _ =>
    have hks' : (ks'.zip vs').map (·.1) = ks' := List.map_fst_zip (by omega)
    refine ⟨⟨h1, fun k hkm => h2 k ((hk k).mpr hkm)⟩, ?_⟩
    intro x
    simp only [Val.items]
    rw [hks, hks']
    exact hk x
  | mapping R _ hn => exact absurd hv hn

/-- Updating a node with an equal one loses nothing. -/
theorem NodeFor.update {S : Strategies} {pool : List Val} {e a : Val} {k c : Node} (hk : NodeFor S pool e k) (hc : NodeFor S pool a c)
    (he : IsRecord S e) (ha : IsRecord S a) (hkeys : ∀ x, x ∈ e.items.map (·.1) ↔ x ∈ a.items.map (·.1)) :
    NodeFor S pool e (updateNode k c) := by
  have tk := hk.typed.mpr he
  have tc := hc.typed.mpr ha
  have rk := hk.record he
  have rc := hc.record ha
  obtain ⟨d, m, ek, hm⟩ := isTypedDict_kind tk
  obtain ⟨d', m', ec, hm'⟩ := isTypedDict_kind tc
  obtain ⟨m1, K, i1, i2, i3, i4⟩ := rk.info
  obtain ⟨m2, K', j1, j2, j3, j4⟩ := rc.info
  cases k with
  | mk h kids =>
    cases c with
    | mk h' kids' =>
      simp only [Node.hdr] at ek ec
      simp only [nodeMeta, nodeData, ek, Option.some.injEq] at i1 i2
      simp only [nodeMeta, nodeData, ec, Option.some.injEq] at j1 j2
      subst i1 j1
      have hu := update_typed hm hm'
      have eq : updateNode (.mk h kids) (.mk h' kids') =
          .mk { h with kind := .dict (m.update m').data (m.update m') } kids := by
        simp only [updateNode, ek, ec]
      rw [eq]
      have hKK : ∀ s, s ∈ K ↔ s ∈ K' := by
        intro s
        have a1 := i4 (.str s)
        have a2 := j4 (.str s)
        simp only [Key.str.injEq, exists_eq_right'] at a1 a2
        rw [← a1, ← a2]
        exact hkeys _
      have hinfo := i3.update j3 hKK
      obtain ⟨t1, t2, t3⟩ := hk.trim
      unfold TrimHdr at t1
      rw [ek] at t1
      have t1' := hc.trim.1
      unfold TrimHdr at t1'
      rw [ec] at t1'
      obtain ⟨a0, a1, a2, a3, a4, a5⟩ := t1
      obtain ⟨_, b1, _, _, b4, b5⟩ := t1'
      refine ⟨⟨?_, t2, t3⟩, ?_, ?_, ?_, ?_, ?_, fun hn => absurd he hn⟩
      · unfold TrimHdr
        refine ⟨a0, ?_, a2, fun s hs => ⟨(a3 s hs).1, keys_update.mpr (.inl (a3 s hs).2)⟩, ?_, ?_⟩
        · intro e0
          have e0 : h.slots = [] := e0
          have e1 : h'.slots = [] := by
            cases hs' : h'.slots with
            | nil => rfl
            | cons s r =>
              have hm : s.key ∈ (Node.mk h' kids').hdr.slots.map (·.key) := by simp [Node.hdr, hs']
              have := (rk.slots s.key).mpr ((hkeys s.key).mpr ((rc.slots s.key).mp hm))
              simp [Node.hdr, e0] at this
          cases hd : (m.update m').data with
          | nil => rfl
          | cons kv r =>
            rcases mem_update_data (show kv ∈ (m.update m').data by rw [hd]; simp) with h | h
            · rw [a1 e0] at h; cases h
            · rw [b1 e1] at h; cases h
        · intro kv hkv
          rcases mem_update_data hkv with h | h
          · exact a4 kv (i2 ▸ h)
          · exact b4 kv (j2 ▸ h)
        · intro kv hkv
          rcases mem_update_data hkv with h | h
          · exact a5 kv h
          · exact b5 kv h
      · intro w hw
        have hh := hk.holds w hw
        obtain ⟨t, ks, vs, rfl, _, _⟩ := record_dict he
        cases hw with
        | leaf hl => exact (sameLeaf_map hl).elim
        | mapping _ _ hn => exact absurd he hn
        | record R _ l hks _ _ =>
          cases hh with
          | leaf hl => exact hl.elim
          | record R' e' hm2 l2 r2 h1 h2 =>
            refine .record R' rfl hu l2 r2 ?_ h2
            intro s hs _
            rw [ek] at e'
            cases e'
            refine h1 s hs ?_
            have hs' : s.key ∈ (Val.map .dict t ks vs).items.map (·.1) := (rk.slots s.key).mp (List.mem_map_of_mem hs)
            obtain ⟨x, hx, ex⟩ := (i4 _).mp hs'
            rw [ex, i3.req, if_pos hx]
            rfl
          | mapping R' e' =>
            rcases e' with ⟨e', _⟩ | ⟨_, dd, mm, e', e''⟩
            · rw [ek] at e'; cases e'
            · rw [ek] at e'; cases e'
              rw [hm] at e''; cases e''
      · have : (Node.mk { h with kind := .dict (m.update m').data (m.update m') } kids).hash S = (Node.mk h kids).hash S := by
          simp only [Node.hash, hashOf, ek, hm, hu]
        rw [this]
        exact hk.hash
      · have := hk.tag
        simp only [Node.hdr, ek] at this
        exact this
      · rw [← hk.typed, tk]
        simp [isTypedDict, hu]
      · intro _
        refine ⟨?_, ⟨_, K, rfl, rfl, hinfo, i4⟩, rk.slots, rk.fields, rk.entries⟩
        intro kv hkv
        have hkv : kv ∈ (m.update m').data := hkv
        rcases mem_update_data hkv with h | h
        · exact rk.data kv (by simp only [nodeData, ek]; exact i2 ▸ h)
        · exact rc.data kv (by simp only [nodeData, ec]; exact j2 ▸ h)

end Verif
