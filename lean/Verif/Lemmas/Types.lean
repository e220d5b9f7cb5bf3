import Verif.Spec.Types
/-
Facts about the meaning of type expressions.
-/
namespace Verif
open Verif.Spec

/-- A declared name means its declaration. -/
theorem admits_declared {Γ : List TDecl} {n : Str} {v : Val} (h : Admits Γ (.name n) v) (hd : Declared Γ n) :
    (∃ t, Defines Γ n (.alias t) ∧ Admits Γ t v) ∨
    (∃ f doc entries ty ks vs, v = .map .dict ty ks vs ∧ Defines Γ n (.record f doc entries) ∧
      (∀ e ∈ entries, e.required = true → Key.str e.key ∈ ks) ∧ (∀ k ∈ ks, ∃ e ∈ entries, k = .str e.key) ∧
      (∀ kv ∈ ks.zip vs, ∀ e ∈ entries, kv.1 = .str e.key → Admits Γ e.type kv.2)) ∨
    (∃ ovs rest, Defines Γ n (.frame ovs rest)) := by
  generalize ht : TExpr.name n = t at h
  cases h with
  | any _ h => injection ht with ht; subst ht; exact absurd hd h
  | cls _ h => injection ht with ht; subst ht; exact absurd hd h
  | promote _ h => injection ht with ht; subst ht; exact absurd hd h
  | module h => injection ht with ht; subst ht; exact absurd hd h
  | file h => injection ht with ht; subst ht; exact absurd hd h
  | function h => injection ht with ht; subst ht; exact absurd hd h
  | anyFrame h => injection ht with ht; subst ht; exact absurd hd h
  | frame h => injection ht with ht; subst ht; exact .inr (.inr ⟨_, _, h⟩)
  | alias h1 h2 => injection ht with ht; subst ht; exact .inl ⟨_, h1, h2⟩
  | record h1 h2 h3 h4 => injection ht with ht; subst ht; exact .inr (.inl ⟨_, _, _, _, _, _, rfl, h1, h2, h3, h4⟩)
  | _ => cases ht

/-- An undeclared identifier is a class, up to `Any` and number promotion. -/
theorem admits_undeclared {Γ : List TDecl} {n : Str} {v : Val} (h : Admits Γ (.name n) v) (hd : ¬ Declared Γ n) :
    n = py!"Any" ∨ v.ty.name = n ∨ (n = py!"float" ∧ v.ty.name = py!"int") ∨ (n = py!"ModuleType" ∧ ∃ t, v = .module t) ∨
      (n = py!"TextIO" ∧ ∃ t, v = .io t) ∨ (n = py!"Callable" ∧ ∃ f, v = .func f) ∨
      n = py!"pd.DataFrame" := by
  generalize ht : TExpr.name n = t at h
  cases h with
  | any _ h => injection ht with ht; exact .inl ht
  | cls _ h => injection ht with ht; exact .inr (.inl ht.symm)
  | promote _ h h' => injection ht with ht; exact .inr (.inr (.inl ⟨ht, h'⟩))
  | @module t h => injection ht with ht; exact .inr (.inr (.inr (.inl ⟨ht, t, rfl⟩)))
  | @file t h => injection ht with ht; exact .inr (.inr (.inr (.inr (.inl ⟨ht, t, rfl⟩))))
  | @function f h => injection ht with ht; exact .inr (.inr (.inr (.inr (.inr (.inl ⟨ht, f, rfl⟩)))))
  | anyFrame h => injection ht with ht; exact .inr (.inr (.inr (.inr (.inr (.inr ht)))))
  | frame h => injection ht with ht; subst ht; exact absurd ⟨_, h.1, rfl⟩ hd
  | alias h1 h2 => injection ht with ht; subst ht; exact absurd ⟨_, h1.1, rfl⟩ hd
  | record h1 h2 h3 h4 => injection ht with ht; subst ht; exact absurd ⟨_, h1.1, rfl⟩ hd
  | _ => cases ht

theorem defines_unique {Γ : List TDecl} {n : Str} {b b' : Body} (h : Defines Γ n b) (h' : Defines Γ n b') : b = b' :=
  h'.2 _ h.1 rfl

theorem admits_app {Γ : List TDecl} {con : Str} {t : TExpr} {v : Val} (h : Admits Γ (.app con t) v) :
    (∃ k ty es, v = .seq k ty es ∧ containerFits k con = true ∧ ∀ e ∈ es, Admits Γ t e) ∨
      (con = py!"Type" ∧ ∃ m n, v = .cls m n ∧ (t = .name n ∨ t = .quoted n)) := by
  cases h with
  | app _ h1 h2 => exact .inl ⟨_, _, _, rfl, h1, h2⟩
  | typeOf _ _ h => exact .inr ⟨rfl, _, _, rfl, h⟩

end Verif
