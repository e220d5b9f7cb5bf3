import Verif.Spec.Settings
import Verif.Lemmas.Holds
/-
Helper lemmas for C95.
-/
namespace Verif
open Spec

theorem SameStructure.symm {S T : Strategies} (h : SameStructure S T) : SameStructure T S :=
  ⟨h.typed.symm, h.tuple.symm, h.columns.symm, h.merge.symm, h.checkMax.symm⟩

theorem isTyped_same {S T : Strategies} (h : SameStructure S T) (m : DMeta) : m.isTyped S = m.isTyped T := by
  unfold DMeta.isTyped
  rw [decide_eq_decide.mpr h.typed]

theorem isTypedDict_same {S T : Strategies} (h : SameStructure S T) : isTypedDict S = isTypedDict T := by
  funext ⟨hd, kids⟩
  simp only [isTypedDict]
  cases hd.kind <;> first | rfl | exact isTyped_same h _

theorem hashOf_same {S T : Strategies} (h : SameStructure S T) (hd : Hdr) (hs : List H) : hashOf S hd hs = hashOf T hd hs := by
  unfold hashOf
  simp only [isTyped_same h, h.tuple, h.columns]

mutual
theorem hash_same {S T : Strategies} (h : SameStructure S T) : ∀ n : Node, n.hash S = n.hash T
  | .mk hd kids => by simp only [Node.hash, hashList_same h kids, hashOf_same h]
theorem hashList_same {S T : Strategies} (h : SameStructure S T) : ∀ l : List Node, hashList S l = hashList T l
  | [] => rfl
  | n :: r => by simp only [hashList, hash_same h n, hashList_same h r]
end

theorem nodeEq_same {S T : Strategies} (h : SameStructure S T) : nodeEq S = nodeEq T := by
  funext a b
  unfold nodeEq
  simp only [hash_same h]

theorem shouldMerge_same {S T : Strategies} (h : SameStructure S T) (l : List Node) : shouldMerge S l = shouldMerge T l := by
  unfold shouldMerge
  rw [h.merge]

theorem setChildren_same {E : Env} {T : Strategies} (h : SameStructure E.S T) (rec : Str → Val → Except Err Node) (parent : Str) (es : List Val) :
    setChildren { E with S := T } rec parent es = setChildren E rec parent es := by
  have : setStep { E with S := T } rec parent = setStep E rec parent := by
    funext acc v
    unfold setStep
    simp only [nodeEq_same h, isTypedDict_same h]
  unfold setChildren
  simp only [this, isTypedDict_same h, shouldMerge_same h, h.checkMax]

theorem findEq_same {S T : Strategies} (h : SameStructure S T) (c : Node) : ∀ l, findEq S c l = findEq T c l
  | [] => rfl
  | (n, s) :: r => by simp only [findEq, nodeEq_same h, findEq_same h c r]

theorem tupleChildren_same {E : Env} {T : Strategies} (h : SameStructure E.S T) (rec : Str → Val → Except Err Node) (parent : Str) (es : List Val) :
    tupleChildren { E with S := T } rec parent es = tupleChildren E rec parent es := by
  have : tupleStep { E with S := T } rec parent = tupleStep E rec parent := by
    funext acc v
    unfold tupleStep
    simp only [findEq_same h]
  unfold tupleChildren
  simp only [this, isTypedDict_same h, shouldMerge_same h, h.checkMax]

theorem addGroup_same {S T : Strategies} (h : SameStructure S T) (k : Key) (n : Node) : ∀ l, addGroup S k n l = addGroup T k n l
  | [] => rfl
  | (m, ks) :: r => by simp only [addGroup, nodeEq_same h, addGroup_same h k n r]

theorem mapChildren_same {E : Env} {T : Strategies} (h : SameStructure E.S T) (rec : Str → Val → Except Err Node) (parent : Str)
    (items : List (Key × Val)) : mapChildren { E with S := T } rec parent items = mapChildren E rec parent items := by
  unfold mapChildren shareEqual
  simp only [addGroup_same h]

theorem dictData_same {S T : Strategies} (h : SameStructure S T) (items : List (Key × Val)) : dictData S items = dictData T items := by
  unfold dictData
  simp only [h.typed, h.checkMax]

theorem build_same {E : Env} {T : Strategies} (h : SameStructure E.S T) : ∀ f, build { E with S := T } f = build E f
  | 0 => by funext root name v; rfl
  | f + 1 => by
    funext root name v
    have ih := build_same h f
    cases v with
    | seq k t es => simp only [build, ih, tupleChildren_same h, setChildren_same h, h.tuple]
    | map k t ks vs =>
      cases k with
      | dict => simp only [build, ih, mapChildren_same h, dictData_same h]
      | proxy => simp only [build, ih, mapChildren_same h, h.checkMax]
      | frame i => simp only [build, ih]; rfl
    | _ => rfl

theorem fromData_same {E : Env} {T : Strategies} (h : SameStructure E.S T) (name : Str) (v : Val) :
    fromData { E with S := T } name v = fromData E name v := by
  unfold fromData buildTree
  simp only [build_same h]

theorem means_wider {S T : Strategies} (h : SameStructure S T) (hg : AsGeneral S T) {n : Node} {w : Val} (hw : Means S n w) : Means T n w := by
  have seqs : ∀ {k k'}, SeqLike S k k' → SeqLike T k k' := by
    rintro k k' (e | ⟨e, e', e''⟩)
    · exact .inl e
    · exact .inr ⟨e, e', hg.list e''⟩
  have maps : ∀ {k k'}, MapLike S k k' → MapLike T k k' := by
    rintro k k' (e | ⟨e, e', e''⟩)
    · exact .inl e
    · exact .inr ⟨e, e', hg.map e''⟩
  induction hw with
  | leaf ht ha => exact .leaf ht ha
  | noElements hk hl => exact .noElements hk (seqs hl)
  | tuple hk hS hl _ ih => exact .tuple hk (h.tuple ▸ hS) hl ih
  | seq R hk hn hl _ h1 ih => exact .seq R hk (fun hp => hn ⟨hp.1, h.tuple ▸ hp.2⟩) (seqs hl) ih h1
  | record R hk hty _ h1 h2 h3 ih => exact .record R hk (isTyped_same h _ ▸ hty) ih h1 h2 h3
  | mapping R hk hl _ h1 h2 ih =>
    refine .mapping R ?_ (maps hl) ih h1 h2
    rcases hk with hk | ⟨e, d, m, e', ht⟩
    · exact .inl hk
    · exact .inr ⟨e, d, m, e', by rw [← isTyped_same h]; exact ht⟩
  | frame R hk _ h1 h2 ih => exact .frame R hk ih h1 h2

/-! ### Tuples -/

/-- A node that describes a leaf stands for all values of its type. -/
theorem holds_leaf_means {S : Strategies} {n : Node} {e w : Val} {ty : TExpr} (h : Holds S n e) (he : leafType e = some ty)
    (hw : Admits [] ty w) : Means S n w := by
  cases h with
  | leaf h =>
    refine .leaf ?_ hw
    cases e with
    | inst t x => simp only [leafType, Option.some.injEq] at he; subst he; simp only [nodeType, h.1, h.2]
    | cls t c => simp only [LeafFits] at h; simp only [nodeType, h]; exact he
    | module => simp only [LeafFits] at h; simp only [nodeType, h]; exact he
    | io => simp only [LeafFits] at h; simp only [nodeType, h]; exact he
    | ndarray => simp only [LeafFits] at h; simp only [nodeType, h]; exact he
    | func f =>
      obtain ⟨g, h1, _, h3⟩ := h
      simp only [nodeType, h1, h3]; exact he
    | seq => exact h.elim
    | map => exact h.elim
  | tuple => cases he
  | seq => cases he
  | record => cases he
  | mapping R hk =>
    rcases hk with ⟨_, rfl⟩ | ⟨rfl, _⟩ <;> cases he
  | @frame hd kids i i' t ks vs R hk _ _ hs =>
    cases ks with
    | cons => cases he
    | nil =>
      refine .leaf ?_ hw
      have : hd.slots = [] := by
        cases e : hd.slots with
        | nil => rfl
        | cons s r => exact absurd (hs s (by simp [e])) (by simp)
      simpa only [nodeType, hk, this, if_true, leafType] using he

end Verif
