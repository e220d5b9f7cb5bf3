import Verif.Spec.Dispatch
/-
C17: which tree class handles a value.
-/
namespace Verif.Props
open Verif Verif.Spec

theorem lookupBase_registry (pandas numpy : Bool) (b : Base) :
    (Available pandas numpy b ∧ lookupBase b (registry pandas numpy) = some (ownKind b)) ∨
    (¬ Available pandas numpy b ∧ lookupBase b (registry pandas numpy) = none) := by
  cases pandas <;> cases numpy <;> cases b <;> first | exact .inl ⟨by simp [Available], rfl⟩ | exact .inr ⟨by simp [Available], rfl⟩

theorem mem_wrapsOf (pandas numpy : Bool) (b : Base) (tag : ClassTag) :
    b ∈ wrapsOf (registry pandas numpy) tag ↔ Available pandas numpy b ∧ ownKind b = tag := by
  cases pandas <;> cases numpy <;> cases b <;> cases tag <;> simp [Available] <;> decide

theorem mem_registry {pandas numpy : Bool} {b : Base} (h : Available pandas numpy b) : (b, ownKind b) ∈ registry pandas numpy := by
  revert h
  cases pandas <;> cases numpy <;> cases b <;> simp [Available] <;> decide

theorem before_iterator {pandas numpy : Bool} {b : Base} (h : Available pandas numpy b) (hb : b ∈ [Base.dict, .list, .dataFrame, .series]) :
    (b, ownKind b) ∈ (registry pandas numpy).takeWhile (fun bt => decide (bt.2 ≠ .iterator)) := by
  revert h hb
  cases pandas <;> cases numpy <;> cases b <;> simp [Available] <;> decide

theorem firstMatch_spec (reg : List (Base × ClassTag)) (t : RType) : ∀ l : List (Base × ClassTag),
    (∃ pre b tag post, l = pre ++ (b, tag) :: post ∧ firstMatch reg t l = tag ∧ (wrapsOf reg tag).any t.isa = true ∧
      ∀ bt ∈ pre, (wrapsOf reg bt.2).any t.isa = false) ∨
    (firstMatch reg t l = .inst ∧ ∀ bt ∈ l, (wrapsOf reg bt.2).any t.isa = false)
  | [] => .inr ⟨rfl, by simp⟩
  | (b, tag) :: r => by
    by_cases h : (wrapsOf reg tag).any t.isa = true
    · exact .inl ⟨[], b, tag, r, rfl, by simp only [firstMatch, h, if_true], h, by simp⟩
    · have h' : (wrapsOf reg tag).any t.isa = false := by simpa using h
      rcases firstMatch_spec reg t r with ⟨pre, b', tag', post, rfl, h1, h2, h3⟩ | ⟨h1, h2⟩
      · refine .inl ⟨(b, tag) :: pre, b', tag', post, rfl, by simp only [firstMatch, h', Bool.false_eq_true, if_false, h1], h2, ?_⟩
        intro bt hbt
        rcases List.mem_cons.mp hbt with rfl | hbt
        · exact h'
        · exact h3 bt hbt
      · refine .inr ⟨by simp only [firstMatch, h', Bool.false_eq_true, if_false, h1], ?_⟩
        intro bt hbt
        rcases List.mem_cons.mp hbt with rfl | hbt
        · exact h'
        · exact h2 bt hbt

/-- **C17**, the type check: for every class, the check of the chosen tree class succeeds. -/
theorem check_never_fires (pandas numpy : Bool) {t : RType} (ht : Lawful t) :
    checkTree (registry pandas numpy) (getSubclass (registry pandas numpy) t) t = true := by
  have loop : checkTree (registry pandas numpy) (firstMatch (registry pandas numpy) t (registry pandas numpy)) t = true := by
    rcases firstMatch_spec (registry pandas numpy) t (registry pandas numpy) with ⟨_, _, _, _, _, h1, h2, _⟩ | ⟨h1, _⟩
    · rw [h1, checkTree, h2, Bool.or_true]
    · rw [h1]; rfl
  unfold getSubclass
  cases he : t.exact with
  | none => exact loop
  | some b =>
    simp only [Option.bind_some]
    rcases lookupBase_registry pandas numpy b with ⟨h1, h2⟩ | ⟨_, h2⟩
    · rw [h2]
      simp only [checkTree, Bool.or_eq_true, List.any_eq_true]
      exact .inr ⟨b, (mem_wrapsOf pandas numpy b _).mpr ⟨h1, rfl⟩, ht.self b he⟩
    · rw [h2]; exact loop

/-- An instance of a class that is neither wrapped nor derived from a wrapped one is handled as a plain instance. -/
theorem other_instances (pandas numpy : Bool) {t : RType} (ht : Lawful t) (h : ∀ b, t.isa b = false) :
    getSubclass (registry pandas numpy) t = .inst := by
  have he : t.exact = none := by
    cases he : t.exact with
    | none => rfl
    | some b => have := ht.self b he; rw [h b] at this; cases this
  unfold getSubclass
  rw [he]
  simp only [Option.bind_none]
  rcases firstMatch_spec (registry pandas numpy) t (registry pandas numpy) with ⟨_, _, _, _, _, _, h2, _⟩ | ⟨h1, _⟩
  · rw [List.any_eq_true] at h2
    obtain ⟨b, _, hb⟩ := h2
    rw [h b] at hb; cases hb
  · exact h1

/-- **C17** (partial). An instance of a wrapped class or of a class derived from one is handled by the tree class of its kind.
Missing: classes that also satisfy the structural check for iterators; for these it holds for exact instances, dictionaries,
lists, frames and series, but fails otherwise. -/
theorem own_kind_partial (pandas numpy : Bool) {t : RType} (ht : Lawful t) {b : Base} (ha : Available pandas numpy b)
    (hb : t.isa b = true)
    (h : t.exact = some b ∨ t.isa .iterator = false ∧ t.exact = none ∨
      t.exact = none ∧ b ∈ [Base.dict, .list, .dataFrame, .series] ∨
      t.exact = none ∧ b = .iterator ∧ ∀ b', t.isa b' = true → b' = .iterator) :
    getSubclass (registry pandas numpy) t = ownKind b := by
  rcases h with he | h
  · unfold getSubclass
    rw [he]
    simp only [Option.bind_some]
    rcases lookupBase_registry pandas numpy b with ⟨_, h2⟩ | ⟨h1, _⟩
    · rw [h2]
    · exact absurd ha h1
  · have he : t.exact = none := by
      rcases h with h | h | h
      · exact h.2
      · exact h.1
      · exact h.1
    unfold getSubclass
    rw [he]
    simp only [Option.bind_none]
    have found : ∀ tag, (wrapsOf (registry pandas numpy) tag).any t.isa = true ↔
        ∃ b', Available pandas numpy b' ∧ ownKind b' = tag ∧ t.isa b' = true := by
      intro tag
      rw [List.any_eq_true]
      constructor
      · rintro ⟨b', h1, h2⟩
        exact ⟨b', ((mem_wrapsOf ..).mp h1).1, ((mem_wrapsOf ..).mp h1).2, h2⟩
      · rintro ⟨b', h1, h2, h3⟩
        exact ⟨b', (mem_wrapsOf ..).mpr ⟨h1, h2⟩, h3⟩
    rcases firstMatch_spec (registry pandas numpy) t (registry pandas numpy) with ⟨pre, b1, tag, post, e, h1, h2, h3⟩ | ⟨_, h2⟩
    · rw [h1]
      obtain ⟨b', ha', rfl, hb'⟩ := (found _).mp h2
      by_cases hi' : b' = .iterator
      · subst hi'
        rcases h with h | ⟨_, h⟩ | h
        · rw [h.1] at hb'; cases hb'
        · -- the own kind comes before iterators
          exfalso
          have hpre : (registry pandas numpy).takeWhile (fun bt => decide (bt.2 ≠ .iterator)) = pre := by
            rw [e, List.takeWhile_append_of_pos, List.takeWhile_cons]
            · simp [ownKind]
            · intro bt hbt
              rw [decide_eq_true_eq]
              intro e'
              have := h3 bt hbt
              rw [e', (found .iterator).mpr ⟨.iterator, trivial, rfl, hb'⟩] at this
              cases this
          have := h3 (b, ownKind b) (by rw [← hpre]; exact before_iterator ha h)
          rw [(found _).mpr ⟨b, ha, rfl, hb⟩] at this
          cases this
        · rw [h.2.1]
      · by_cases hbi : b = .iterator
        · rcases h with h | h | h
          · rw [hbi, h.1] at hb; cases hb
          · rw [hbi] at h; simp at h
          · exact absurd (h.2.2 b' hb') hi'
        · exact ht.layout b' b hi' hbi hb' hb
    · exfalso
      have := h2 (b, ownKind b) (mem_registry ha)
      rw [(found _).mpr ⟨b, ha, rfl, hb⟩] at this
      cases this

/-- The class of open text files, `io.TextIOWrapper`: derived from `io.IOBase`, which has `__iter__` and `__next__`. -/
def textFile : RType := ⟨none, fun b => decide (b = .ioBase) || decide (b = .iterator)⟩

theorem textFile_lawful : Lawful textFile := by
  constructor
  · intro b h; cases h
  · intro b b' h h' hb hb'
    simp only [textFile, Bool.or_eq_true, decide_eq_true_eq] at hb hb'
    rw [hb.resolve_right h, hb'.resolve_right h']

/-- **C17** is false as stated: open files are handled as iterators, which reads them, instead of as files. -/
theorem own_kind_fails : ¬ ∀ (t : RType) (b : Base), Lawful t → b ≠ .iterator → t.isa b = true →
    getSubclass (registry true true) t = ownKind b := by
  intro h
  have := h textFile .ioBase textFile_lawful (by decide) (by decide)
  revert this
  decide

/-- The hypotheses of `own_kind_partial` are met by a class derived from `int`. -/
example : Lawful ⟨none, fun b => decide (b = .int)⟩ ∧ getSubclass (registry true false) ⟨none, fun b => decide (b = .int)⟩ = .inst := by
  refine ⟨⟨(by intro b h; cases h), ?_⟩, by decide⟩
  intro b b' _ _ hb hb'
  rw [of_decide_eq_true hb, of_decide_eq_true hb']

end Verif.Props
