import Verif.Lemmas.Quoted
import Verif.Props.Symbols
/-
Class names in quotes (C71).
-/
namespace Verif.Props
open Verif Verif.Spec

/-- C71, where quoted names come from: they are array types or names of classes in the data that are not builtin. -/
theorem quoted_names {E : Env} (hE : E.Fair) (hm : 0 < E.S.merge) {name : Str} {v : Val} {n : Node}
    (hv : Regular E.U v) (hn : fromData E name v = .ok n) :
    ∃ Γ : List TDecl, nodeStrings E n false = .ok (Γ.map TDecl.print) ∧
      ∀ d ∈ Γ, ∀ t ∈ d.body.types, ∀ x ∈ t.quotes,
        IsArrayType x ∨ ∃ u, Inside u v ∧ classNeeded u = some x ∧ E.isBuiltin x = false := by
  refine ⟨_, regular_strings hE hm hv hn, ?_⟩
  obtain ⟨_, hbuild, _⟩ := regular_build hE hm hv hn
  let Q : Str → Prop := fun x => IsArrayType x ∨ ∃ u, Inside u v ∧ classNeeded u = some x ∧ E.isBuiltin x = false
  have hi : Every (NeedOk E Q) v := by
    refine every_imp (fun u hu => ?_) v (every_inside v (.self v))
    intro x hx hb
    exact .inr ⟨u, hu, hx, hb⟩
  have h := build_ens hE (quoted_inv (E := E) (Q := Q) (fun d => .inl ⟨d, rfl⟩)) (v.depth + 1) true name v trivial hi (Nat.lt_succ_self _)
  rw [hbuild] at h
  have hq := quoted_abs n h.1.1
  intro d hd
  exact hq.emitted d (dedupDecls_mem hd)

/-- **C71,** for data whose classes are all builtin: every class name in quotes is declared or imported (there is none). Missing:
data with other classes, for which it fails. -/
theorem class_names_resolve_partial {E : Env} (hE : E.Fair) (hm : 0 < E.S.merge) {name : Str} {v : Val} {n : Node}
    (hv : Regular E.U v) (hb : ∀ u x, Inside u v → classNeeded u = some x → E.isBuiltin x = true) (hn : fromData E name v = .ok n) :
    ∃ Γ : List TDecl, nodeStrings E n false = .ok (Γ.map TDecl.print) ∧ ∀ sts, ClassesResolve sts Γ := by
  obtain ⟨Γ, h1, h2⟩ := quoted_names hE hm hv hn
  refine ⟨Γ, h1, ?_⟩
  intro sts d hd t ht x hx
  rcases h2 d hd t ht x hx with h | ⟨u, hu, hx, hf⟩
  · exact .inl h
  · rw [hb u x hu hx] at hf
    cases hf

/-- **C71 fails,** for every class that is not builtin: the hint of an instance names the class, and the text neither declares nor
imports it. -/
theorem class_names_resolve_fails (E : Env) (name : Str) (t : Ty) (x : Option Str) (hn : nameOk E.U name = true) (ht : t ≠ .noneType)
    (hb : E.isBuiltin t.name = false) (hl : t.name ≠ py!"TypeAlias") (hd : t.name ≠ name) (ha : ¬ IsArrayType t.name) :
    ∃ (n : Node) (sts : List ImportStmt) (block : Str) (d : TDecl), fromData E name (.inst t x) = .ok n ∧
      nodeStrings E n true = .ok [block, d.print] ∧ BlockText sts block ∧ ¬ ClassesResolve sts [d] := by
  have hb' : fromData E name (.inst t x) = .ok (.mk { kind := .inst, name, root := true, ty := t, slots := [] } []) := by
    unfold fromData
    rw [if_pos hn]
    simp [buildTree, build, hn, Val.ty]
  have hf : formatImports 90 [py!"TypeAlias"] = .ok py!"from typing_extensions import TypeAlias" := by decide +kernel
  refine ⟨_, [.fromImport py!"typing_extensions" [py!"TypeAlias"]], py!"from typing_extensions import TypeAlias", ⟨name, .alias (.quoted t.name)⟩, hb', ?_, ?_, ?_⟩
  · simp [nodeStrings, Node.render, Node.out, outList, combine, emitOf, permOf, topOf, instTop, ht, hb, firstFailure, declTexts, dedup, allKws, hf,
      TDecl.print, TExpr.print, typeAlias]
  · exact .one [] (.oneLine _ [py!"TypeAlias"] (by simp)) (by simp)
  · intro h
    have := h _ (List.mem_singleton.mpr rfl) (.quoted t.name) (by simp [Body.types]) t.name (by simp [TExpr.quotes])
    rcases this with h | h | ⟨m, h⟩
    · exact ha h
    · simp at h
      exact hd h
    · simp [ImportStmt.bindings] at h
      exact hl h.2

/-- A decimal number. -/
def decimalTy : Ty := ⟨py!"Decimal", 0⟩

/-- The hypotheses hold for decimal numbers. -/
example : ∃ (n : Node) (sts : List ImportStmt) (block : Str) (d : TDecl), fromData (exEnv {}) py!"Price" (.inst decimalTy none) = .ok n ∧
    nodeStrings (exEnv {}) n true = .ok [block, d.print] ∧ BlockText sts block ∧ ¬ ClassesResolve sts [d] :=
  class_names_resolve_fails (exEnv {}) py!"Price" decimalTy none (by decide) (by decide) (by decide) (by decide) (by decide)
    (by rintro ⟨d, h⟩; exact absurd (congrArg List.head? h) (by simp [decimalTy]))

/-- Data with builtin classes only. -/
def builtinData : Val := .dict [(.str py!"a", .seq .list .list [.inst .int none, .inst .noneType none]), (.str py!"b", .inst .float none)]

/-- The hypotheses of the positive part hold for it. -/
example : Regular (exEnv {}).U builtinData ∧ ∀ u x, Inside u builtinData → classNeeded u = some x → (exEnv {}).isBuiltin x = true := by
  refine ⟨plain_regular (by decide +kernel), ?_⟩
  intro u x hu hx
  have h : Every (fun u => ∀ x, classNeeded u = some x → (exEnv {}).isBuiltin x = true) builtinData := by
    simp [builtinData, Val.dict, Every, EveryList, classNeeded]
    decide +kernel
  exact inside_every hu h x hx

end Verif.Props
