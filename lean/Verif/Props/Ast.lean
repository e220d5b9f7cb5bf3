import Verif.Lemmas.Ast
/-
Comparison of syntax trees (C61, C62).
-/
namespace Verif.Props
open Verif Verif.Spec

/-- **C61.** Comparing two parsed trees gives an answer, and it is yes exactly if they agree in everything but positions, expression contexts
and (`essence`) what was asked to be ignored. -/
theorem compare_exact (o : AstOpts) (attrs : Str → List Str) (a b : Ast) (ha : Shaped attrs a) (hb : Shaped attrs b) :
    ∃ r b', compareAst o false a b = some (r, b') ∧ (r = true ↔ essence o false a = essence o false b) := by
  obtain ⟨r, b', h1, h2, _⟩ := compareAst_ok o attrs a false b ha hb
  exact ⟨r, b', by simpa using h1, h2⟩

/-- The answer of a comparison. -/
def answer (o : AstOpts) (a b : Ast) : Option Bool := (compareAst o false a b).map (·.1)

/-- **C61.** The comparison is an equivalence. -/
theorem compare_equivalence (o : AstOpts) (attrs : Str → List Str) (a b c : Ast) (ha : Shaped attrs a) (hb : Shaped attrs b) (hc : Shaped attrs c) :
    answer o a a = some true ∧ answer o a b = answer o b a ∧
    (answer o a b = some true → answer o b c = some true → answer o a c = some true) := by
  have : ∀ x y : Ast, Decidable (x = y) := fun x y => Classical.propDecidable _
  have key : ∀ x y, Shaped attrs x → Shaped attrs y → answer o x y = some (decide (essence o false x = essence o false y)) := by
    intro x y hx hy
    obtain ⟨r, b', h1, h2⟩ := compare_exact o attrs x y hx hy
    unfold answer
    rw [h1, Option.map_some]
    congr 1
    by_cases h : essence o false x = essence o false y
    · simp [h, h2.mpr h]
    · cases r
      · simp [h]
      · exact absurd (h2.mp rfl) h
  rw [key a a ha ha, key a b ha hb, key b a hb ha, key b c hb hc, key a c ha hc]
  refine ⟨by simp, by simp [eq_comm], ?_⟩
  simp only [Option.some.injEq, decide_eq_true_eq]
  exact Eq.trans

theorem setAttr_same {k : Str} {w : Ast} : ∀ {ns : List Str} {vs : List Ast}, attr k ns vs = some w → setAttr k w ns vs = vs
  | [], _, h => by cases h
  | _ :: _, [], h => by cases h
  | n :: ns, v :: vs, h => by
    rw [attr] at h
    rw [setAttr]
    by_cases hn : n = k
    · rw [if_pos hn] at h ⊢
      rw [Option.some.inj h]
    · rw [if_neg hn] at h ⊢
      rw [setAttr_same h]

mutual
theorem keeps_ast {o : AstOpts} (ho : o.ignoreImports = false) : ∀ {a b b' : Ast} {r s : Bool}, compareAst o s a b = some (r, b') → b' = b
  | .node c ns vs, b, b', r, s, h => by
    rw [compareAst.eq_def] at h
    cases b with
    | node c' ns' vs' =>
      dsimp only at h
      by_cases hc : c = c'
      · rw [if_pos hc] at h
        cases hr : compareAttrs o ns vs ns' vs' with
        | none => rw [hr] at h; cases h
        | some p => rw [hr] at h; cases h; rw [keeps_attrs ho (r := p.1) hr]
      · rw [if_neg hc] at h; cases h; rfl
    | list _ => cases h; rfl
    | leaf _ _ => cases h; rfl
  | .list xs, b, b', r, s, h => by
    rw [compareAst.eq_def] at h
    cases b with
    | list ys =>
      dsimp only at h
      cases hr : compareItems o s xs ys with
      | none => rw [hr] at h; cases h
      | some p => rw [hr] at h; cases h; rw [keeps_items ho (r := p.1) hr]
    | node _ _ _ => cases h; rfl
    | leaf _ _ => cases h; rfl
  | .leaf t x, b, b', r, s, h => by
    rw [compareAst.eq_def] at h
    cases b <;> cases h <;> rfl
theorem keeps_attrs {o : AstOpts} (ho : o.ignoreImports = false) : ∀ {vs : List Ast} {ns ns' : List Str} {ws ws' : List Ast} {r : Bool},
    compareAttrs o ns vs ns' ws = some (r, ws') → ws' = ws
  | [], ns, ns', ws, ws', r, h => by
    rw [compareAttrs.eq_def] at h
    cases ns <;> cases h <;> rfl
  | v :: vs, [], ns', ws, ws', r, h => by
    rw [compareAttrs.eq_def] at h; cases h; rfl
  | v :: vs, k :: ns, ns', ws, ws', r, h => by
    rw [compareAttrs.eq_def] at h
    dsimp only at h
    by_cases hk : skippedAttr o k = true
    · rw [if_pos hk] at h; exact keeps_attrs ho h
    · rw [if_neg hk] at h
      cases ha : attr k ns' ws with
      | none => rw [ha] at h; cases h
      | some w =>
        rw [ha] at h
        simp only [ho, Bool.false_and, Bool.false_eq_true, if_false] at h
        cases hc : compareAst o false v w with
        | none => rw [hc] at h; cases h
        | some p =>
          rw [hc] at h
          have := keeps_ast ho (r := p.1) (b' := p.2) hc
          dsimp only at h
          rw [this, setAttr_same ha] at h
          cases hp : p.1 with
          | false => rw [hp] at h; cases h; rfl
          | true => rw [hp] at h; exact keeps_attrs ho h
theorem keeps_items {o : AstOpts} (ho : o.ignoreImports = false) : ∀ {xs ys ys' : List Ast} {r s : Bool}, compareItems o s xs ys = some (r, ys') → ys' = ys
  | [], ys, ys', r, s, h => by
    rw [compareItems.eq_def] at h; cases h; rfl
  | x :: xs, ys, ys', r, s, h => by
    rw [compareItems.eq_def] at h
    dsimp only at h
    by_cases hi : (s && x.isImport) = true
    · rw [if_pos hi] at h; exact keeps_items ho h
    · rw [if_neg hi] at h
      cases ys with
      | nil =>
        dsimp only at h
        cases hc : compareAst o false x .none with
        | none => rw [hc] at h; cases h
        | some p =>
          rw [hc] at h
          dsimp only at h
          cases hp : p.1 with
          | false => rw [hp] at h; cases h; rfl
          | true => rw [hp] at h; exact keeps_items ho h
      | cons y ys =>
        dsimp only at h
        cases hc : compareAst o false x y with
        | none => rw [hc] at h; cases h
        | some p =>
          rw [hc] at h
          have := keeps_ast ho (r := p.1) (b' := p.2) hc
          dsimp only at h
          cases hp : p.1 with
          | false => rw [hp] at h; cases h; rw [this]
          | true =>
            rw [hp] at h
            simp only [if_true] at h
            cases hr : compareItems o s xs ys with
            | none => rw [hr] at h; cases h
            | some q => rw [hr] at h; cases h; rw [this, keeps_items ho (r := q.1) hr]
end

/-- **C62, partial.** Unless imports are ignored, a comparison changes nothing. If they are, the second tree may lose import statements in
bodies and nothing else. Missing: it does lose them (`compare_keeps_trees_fails`). -/
theorem compare_keeps_trees_partial (o : AstOpts) (attrs : Str → List Str) (a b b' : Ast) (r : Bool) (ha : Shaped attrs a) (hb : Shaped attrs b)
    (h : compareAst o false a b = some (r, b')) :
    (o.ignoreImports = false → b' = b) ∧ essence o false b' = essence o false b ∧ Shaped attrs b' := by
  refine ⟨fun ho => keeps_ast ho h, ?_⟩
  obtain ⟨r', b'', h1, _, h3, h4⟩ := compareAst_ok o attrs a false b ha hb
  simp only [Bool.false_and, Bool.false_eq_true, if_false] at h1
  rw [h] at h1
  cases h1
  exact ⟨h3, h4⟩

/-- Attributes of the classes in the examples. -/
def sampleAttrs (c : Str) : List Str :=
  if c = py!"Module" then [py!"body", py!"type_ignores"]
  else if c = py!"Import" then [py!"names", py!"lineno"]
  else if c = py!"Expr" then [py!"value", py!"lineno"]
  else if c = py!"Name" then [py!"id", py!"ctx", py!"lineno"]
  else []

/-- `import os` in line `l`. -/
def sampleImport (l : Str) : Ast := .node py!"Import" [py!"names", py!"lineno"] [.list [.leaf py!"str" py!"os"], .leaf py!"int" l]
/-- The expression `x` in line `l`. -/
def sampleExpr (x l : Str) : Ast :=
  .node py!"Expr" [py!"value", py!"lineno"] [.node py!"Name" [py!"id", py!"ctx", py!"lineno"] [.leaf py!"str" x, .leaf py!"ctx" l, .leaf py!"int" l],
    .leaf py!"int" l]
def sampleModule (body : List Ast) : Ast := .node py!"Module" [py!"body", py!"type_ignores"] [.list body, .list []]

/-- `import os; x` and `x` as modules. -/
def sampleWith : Ast := sampleModule [sampleImport py!"1", sampleExpr py!"x" py!"2"]
def sampleWithout : Ast := sampleModule [sampleExpr py!"x" py!"1"]

/-- **C62 fails.** Ignoring imports removes them from the second tree: afterwards it is no longer equal to what it was. -/
theorem compare_keeps_trees_fails : ∃ (o : AstOpts) (a b b' : Ast), Shaped sampleAttrs a ∧ Shaped sampleAttrs b ∧
    compareAst o false a b = some (true, b') ∧ answer {} b b = some true ∧ answer {} b b' = some false := by
  refine ⟨{ ignoreImports := true }, sampleWithout, sampleWith, _, ?_, ?_, rfl, by decide +kernel, by decide +kernel⟩ <;>
  · simp only [sampleWith, sampleWithout, sampleModule, sampleImport, sampleExpr, Shaped, ShapedAll]
    decide +kernel

/-- The answers for the examples: positions do not count, names do, imports only if they are not ignored. -/
example : answer {} (sampleExpr py!"x" py!"1") (sampleExpr py!"x" py!"2") = some true ∧ answer {} (sampleExpr py!"x" py!"1") (sampleExpr py!"y" py!"1") = some false ∧
    answer {} sampleWith sampleWithout = some false ∧ answer { ignoreImports := true } sampleWith sampleWithout = some true := by decide +kernel

example : Shaped sampleAttrs sampleWith ∧ Shaped sampleAttrs sampleWithout := by
  simp only [sampleWith, sampleWithout, sampleModule, sampleImport, sampleExpr, Shaped, ShapedAll]
  decide +kernel

end Verif.Props
