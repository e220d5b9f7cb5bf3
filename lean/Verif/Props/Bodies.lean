import Verif.Spec.Ast
/-
Removal of the bodies of functions from a syntax tree.
-/
namespace Verif.Props
open Verif Verif.Spec

theorem outsideAttrs_set (w : Ast) : ∀ (ns : List Str) (vs : List Ast), outsideAttrs ns (setAttr py!"body" w ns vs) = outsideAttrs ns vs
  | [], vs => by simp [setAttr]
  | n :: ns, [] => by simp [setAttr]
  | n :: ns, v :: vs => by
    by_cases h : n = py!"body"
    · simp only [setAttr, h, if_true, outsideAttrs]
    · simp only [setAttr, if_neg h, outsideAttrs, outsideAttrs_set w ns vs]

mutual
theorem outside_clear : ∀ t : Ast, outsideBodies t.clearBodies = outsideBodies t
  | .leaf _ _ => by simp [Ast.clearBodies]
  | .list xs => by simp only [Ast.clearBodies, outsideBodies, outsideList_clear xs]
  | .node c ns vs => by
    simp only [Ast.clearBodies, outsideBodies]
    by_cases hd : definesFunction c = true
    · rw [if_pos hd, if_pos hd]
      congr 1
      split
      · rw [outsideAttrs_set, outsideAttrs_clear]
      · rw [outsideAttrs_clear]
    · rw [if_neg hd, if_neg hd]
      congr 1
      rw [if_neg, outsideList_clear]
      intro h
      apply hd
      rw [h]; decide
theorem outsideAttrs_clear : ∀ (ns : List Str) (vs : List Ast), outsideAttrs ns (clearList vs) = outsideAttrs ns vs
  | [], vs => by cases vs <;> simp [outsideAttrs, clearList]
  | n :: ns, [] => by simp [outsideAttrs, clearList]
  | n :: ns, v :: vs => by
    simp only [clearList, outsideAttrs]
    rw [outside_clear v, outsideAttrs_clear ns vs]
theorem outsideList_clear : ∀ xs : List Ast, outsideList (clearList xs) = outsideList xs
  | [] => by simp [clearList]
  | x :: xs => by simp only [clearList, outsideList, outside_clear x, outsideList_clear xs]
end

/-- **C79.** Nothing but bodies of functions changes when method bodies are removed. -/
theorem only_bodies_change (t : Ast) : outsideBodies t.clearBodies = outsideBodies t := outside_clear t

/-- The full statement of C79: afterwards the body of every function is `...`. -/
def BodiesRemoved (ok : Ast → Prop) : Prop := ∀ t, HasBodies t → ok t → NoBodies t.clearBodies

theorem attr_set {k : Str} {w : Ast} : ∀ {ns : List Str} {vs : List Ast}, (∃ b, attr k ns vs = some b) → attr k ns (setAttr k w ns vs) = some w
  | [], _, h => by obtain ⟨b, h⟩ := h; cases h
  | n :: ns, [], h => by obtain ⟨b, h⟩ := h; cases h
  | n :: ns, v :: vs, h => by
    obtain ⟨b, h⟩ := h
    by_cases hn : n = k
    · simp [setAttr, attr, hn]
    · simp only [setAttr, if_neg hn, attr] at h ⊢
      exact attr_set ⟨b, h⟩

theorem attr_clear {k : Str} : ∀ {ns : List Str} {vs : List Ast}, (∃ b, attr k ns vs = some b) → ∃ b, attr k ns (clearList vs) = some b
  | [], _, h => by obtain ⟨b, h⟩ := h; cases h
  | n :: ns, [], h => by obtain ⟨b, h⟩ := h; cases h
  | n :: ns, v :: vs, h => by
    obtain ⟨b, h⟩ := h
    by_cases hn : n = k
    · exact ⟨v.clearBodies, by simp [clearList, attr, hn]⟩
    · simp only [clearList, attr, if_neg hn] at h ⊢
      exact attr_clear ⟨b, h⟩

theorem everyList_set {P : Str → List Str → List Ast → Prop} {k : Str} {w : Ast} (hw : EveryNode P w) : ∀ {ns : List Str} {vs : List Ast},
    EveryNodeList P vs → EveryNodeList P (setAttr k w ns vs)
  | [], _, h => by simpa [setAttr] using h
  | n :: ns, [], h => by simpa [setAttr] using h
  | n :: ns, v :: vs, h => by
    simp only [setAttr]
    split
    · exact ⟨hw, h.2⟩
    · exact ⟨h.1, everyList_set hw h.2⟩

mutual
theorem noBodies_clear : ∀ t : Ast, HasBodies t → NoAsync t → NoBodies t.clearBodies
  | .leaf _ _, _, _ => by simp [Ast.clearBodies, NoBodies, EveryNode]
  | .list xs, h, ha => by
    simp only [Ast.clearBodies, NoBodies, EveryNode]
    exact noBodies_clearList xs h ha
  | .node c ns vs, h, ha => by
    have ih := noBodies_clearList vs h.2 ha.2
    simp only [Ast.clearBodies, NoBodies, EveryNode]
    by_cases hc : c = py!"FunctionDef"
    · rw [if_pos hc]
      refine ⟨fun hd => attr_set (attr_clear (h.1 hd)), everyList_set ?_ ih⟩
      simp only [ellipsisBody, EveryNode, EveryNodeList, and_true]
      intro hd
      exact absurd hd (by decide)
    · rw [if_neg hc]
      refine ⟨fun hd => ?_, ih⟩
      simp only [definesFunction, Bool.or_eq_true, beq_iff_eq] at hd
      exact absurd hd (fun hd => hd.elim hc ha.1)
theorem noBodies_clearList : ∀ xs : List Ast, EveryNodeList (fun c ns vs => definesFunction c = true → ∃ b, attr py!"body" ns vs = some b) xs →
    EveryNodeList (fun c _ _ => c ≠ py!"AsyncFunctionDef") xs →
    EveryNodeList (fun c ns vs => definesFunction c = true →
      attr py!"body" ns vs = some (.list [.node py!"Constant" [py!"value"] [.leaf py!"ellipsis" py!"..."]])) (clearList xs)
  | [], _, _ => by simp [clearList, EveryNodeList]
  | x :: xs, h, ha => by
    simp only [clearList, EveryNodeList]
    exact ⟨noBodies_clear x h.1 ha.1, noBodies_clearList xs h.2 ha.2⟩
end

/-- **C79, partial.** So it is in trees without `async` functions. -/
theorem bodies_removed_partial : BodiesRemoved NoAsync := noBodies_clear

/-- `def f(): return 1` in a class meets the hypotheses. -/
def sampleClass (kind : Str) : Ast :=
  .node py!"Module" [py!"body"] [.list [.node py!"ClassDef" [py!"name", py!"body"] [.leaf py!"str" py!"A", .list
    [.node kind [py!"name", py!"body"] [.leaf py!"str" py!"f", .list [.node py!"Return" [py!"value"] [.leaf py!"int" py!"1"]]]]]]]

example : HasBodies (sampleClass py!"FunctionDef") ∧ NoAsync (sampleClass py!"FunctionDef") := by
  refine ⟨?_, ?_⟩
  · simp only [HasBodies, sampleClass, EveryNode, EveryNodeList, and_true, true_and]
    exact ⟨fun h => absurd h (by decide), fun h => absurd h (by decide), fun _ => ⟨_, rfl⟩, fun h => absurd h (by decide)⟩
  · simp only [NoAsync, sampleClass, EveryNode, EveryNodeList, and_true, true_and]
    decide

/-- **C79 fails.** `async` functions keep their bodies. -/
theorem bodies_removed_fails : ¬ BodiesRemoved (fun _ => True) := by
  intro h
  have := h (sampleClass py!"AsyncFunctionDef") (by
    simp only [HasBodies, sampleClass, EveryNode, EveryNodeList, and_true, true_and]
    exact ⟨fun h => absurd h (by decide), fun h => absurd h (by decide), fun _ => ⟨_, rfl⟩, fun h => absurd h (by decide)⟩) trivial
  have h2 := this.2.1.1.2.2.1.1.1 (by decide)
  simp [attr, clearList, Ast.clearBodies] at h2

end Verif.Props
