import Verif.Spec.Inspected
import Verif.Spec.Prefixed
/-
Data without repeated elements.
-/
namespace Verif.Spec
open Verif

mutual
/-- The values are equal, apart from the contents of strings. -/
def equalVal : Val → Val → Bool
  | .inst t _, .inst t' _ => decide (t = t')
  | .func f, .func g => decide (f = g)
  | .cls m n, .cls m' n' => decide (m = m' ∧ n = n')
  | .module t, .module t' => decide (t = t')
  | .io t, .io t' => decide (t = t')
  | .ndarray t d, .ndarray t' d' => decide (t = t' ∧ d = d')
  | .seq k t es, .seq k' t' es' => decide (k = k' ∧ t = t') && equalVals es es'
  | .map k t ks vs, .map k' t' ks' vs' => decide (k = k' ∧ t = t' ∧ ks = ks') && equalVals vs vs'
  | _, _ => false
def equalVals : List Val → List Val → Bool
  | [], [] => true
  | v :: r, w :: r' => equalVal v w && equalVals r r'
  | _, _ => false
end

/-- The elements that equal none before them. -/
def firstOfEach : List Val → List Val → List Val
  | _, [] => []
  | seen, v :: r => if seen.any (equalVal v) then firstOfEach seen r else v :: firstOfEach (seen ++ [v]) r

mutual
/-- The inspected part of the data without repeated elements, at every level. Tuples of which every element is described keep theirs. -/
def distinctPart (S : Strategies) : Val → Val
  | .seq k t es =>
    if k = .tuple ∧ S.tuple = .fixed then .seq k t (firstElems S.checkMax (distinctParts S es))
    else .seq k t (firstOfEach [] (firstElems S.checkMax (distinctParts S es)))
  | .map .dict t ks vs =>
    if S.dict = .typedDict then .map .dict t ks (distinctParts S vs)
    else .map .dict t (firstElems S.checkMax ks) (firstElems S.checkMax (distinctParts S vs))
  | .map .proxy t ks vs => .map .proxy t (firstElems S.checkMax ks) (firstElems S.checkMax (distinctParts S vs))
  | .map (.frame i) t ks vs => .map (.frame i) t ks (distinctParts S vs)
  | v => v
def distinctParts (S : Strategies) : List Val → List Val
  | [] => []
  | v :: r => distinctPart S v :: distinctParts S r
end

end Verif.Spec
