import Verif.Spec.Shape
/-
Data whose hint does not depend on the order in which Python sets are iterated.
-/
namespace Verif.Spec
open Verif

/-- Values that get the same hint up to names: they have the same classes, keys and, in tuples of fixed size, positions; the
inspected elements of other sequences correspond to each other in any order and number. -/
inductive Like (S : Strategies) : Val → Val → Prop
  | inst {t x y} : Like S (.inst t x) (.inst t y)
  | cls {m n} : Like S (.cls m n) (.cls m n)
  | func {f} : Like S (.func f) (.func f)
  | module {t} : Like S (.module t) (.module t)
  | io {t} : Like S (.io t) (.io t)
  | ndarray {t d} : Like S (.ndarray t d) (.ndarray t d)
  | tuple {t es es'} : S.tuple = .fixed → es.length = es'.length → (∀ p ∈ es.zip es', Like S p.1 p.2) →
      Like S (.seq .tuple t es) (.seq .tuple t es')
  | seq {k t es es'} (R : Val → Val → Prop) : ¬ (k = .tuple ∧ S.tuple = .fixed) → (∀ a b, R a b → Like S a b) →
      (∀ e ∈ limit S.checkMax es, ∃ e' ∈ limit S.checkMax es', R e e') →
      (∀ e' ∈ limit S.checkMax es', ∃ e ∈ limit S.checkMax es, R e e') → Like S (.seq k t es) (.seq k t es')
  | map {k t ks vs vs'} : vs.length = vs'.length → (∀ p ∈ vs.zip vs', Like S p.1 p.2) →
      Like S (.map k t ks vs) (.map k t ks vs')

mutual
/-- Values that are described in place, without a declaration: no functions, frames and TypedDicts, and nested at most `n`
deep. -/
def Inline (S : Strategies) : Nat → Val → Prop
  | _, .func _ => False
  | 0, .seq .. => False
  | n + 1, .seq _ _ es => InlineAll S n es
  | _, .map (.frame _) _ _ _ => False
  | 0, .map .. => False
  | n + 1, .map k t ks vs => ¬ IsRecord S (.map k t ks vs) ∧ InlineAll S n vs
  | _, _ => True
def InlineAll (S : Strategies) : Nat → List Val → Prop
  | _, [] => True
  | n, v :: l => Inline S n v ∧ InlineAll S n l
end

/-- Data in which the dictionaries that stand in the same tuple of fixed size are alike, if TypedDicts describe them. -/
def Uniform (S : Strategies) (v : Val) : Prop :=
  Every (fun w => match w with
    | .seq k _ es => k = .tuple ∧ S.tuple = .fixed → ∀ e ∈ limit S.checkMax es, ∀ e' ∈ limit S.checkMax es,
        IsRecord S e → IsRecord S e' → Like S e e'
    | _ => True) v

/-- Data in which those elements of a sequence that need a declaration are alike; sequences here are all sequences and
sets but tuples of fixed size. The keys of mappings are distinct. -/
def Steady (S : Strategies) (v : Val) : Prop :=
  Every (fun w => match w with
    | .seq k _ es => ¬ (k = .tuple ∧ S.tuple = .fixed) → ∀ e ∈ limit S.checkMax es, ∀ e' ∈ limit S.checkMax es,
        Inline S S.minHeight e ∨ Inline S S.minHeight e' ∨ (Like S e e' ∧ Uniform S e ∧ Uniform S e')
    | .map _ _ ks vs => ks.Nodup ∧ ks.length = vs.length
    | _ => True) v

end Verif.Spec
