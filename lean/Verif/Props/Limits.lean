import Verif.Model.Loop
import Verif.Model.Generator
import Verif.Lemmas.Fuel
/-
C23: the element limit. C41: consumption of iterators.
-/
namespace Verif.Props
open Verif

theorem inspectLoop_spec {α} (n : Nat) : ∀ (l : List α) (idx : Nat),
    inspectLoop n idx l = if n = 0 then (l, []) else (l.take (n - idx), l.drop (n - idx + 1))
  | [], idx => by simp [inspectLoop]
  | e :: r, idx => by
    simp only [inspectLoop, inspectLoop_spec n r (idx + 1)]
    by_cases hn : n = 0
    · simp [hn]
    · by_cases hi : n ≤ idx
      · have : n - idx = 0 := by omega
        simp [hn, hi, this]
      · have : n - idx = (n - (idx + 1)) + 1 := by omega
        simp [hn, hi, this]

/-- The loop inspects exactly the elements that the tree model uses. -/
theorem loop_inspects_limit {α} (n : Nat) (l : List α) : (inspectLoop n 0 l).1 = limit n l := by
  rw [inspectLoop_spec]
  unfold limit
  split <;> simp

/-- The claim of C41: at most `n` elements are taken from the iterator. -/
def ConsumesAtMostLimit : Prop := ∀ (n : Nat) (l : List Val), 0 < n → l.length - (inspectLoop n 0 l).2.length ≤ n

/-- **C41**, negative part: one element beyond the limit is consumed and lost. -/
theorem iterator_consumption_fails : ¬ ConsumesAtMostLimit := by
  intro h
  have := h 1 [.inst .int none, .inst .int none] (by decide)
  simp [inspectLoop] at this

/-- **C41**: with a limit `n`, exactly the first `n + 1` elements are consumed (all, if there are fewer), and exactly the
first `n` are inspected; what is left is the rest of the iterator. Missing: the bound `n` of the claim. -/
theorem iterator_consumption_partial {α} (n : Nat) (hn : 0 < n) (l : List α) :
    inspectLoop n 0 l = (l.take n, l.drop (n + 1)) := by
  rw [inspectLoop_spec, if_neg (by omega)]; simp

example : inspectLoop 2 0 [1, 2, 3, 4] = ([1, 2], [4]) := by decide

theorem limit_limit {α} (n : Nat) (l : List α) : limit n (limit n l) = limit n l := by
  unfold limit; split <;> simp [List.take_take]

theorem depthList_take : ∀ (n : Nat) (l : List Val), depthList (l.take n) ≤ depthList l
  | 0, _ => by simp [depthList]
  | _, [] => by simp [depthList]
  | n + 1, v :: l => by
    simp only [List.take_succ_cons, depthList]
    have := depthList_take n l
    omega

theorem build_seq_limit (E : Env) (fuel : Nat) (root : Bool) (name : Str) (k : SeqKind) (t : Ty) (es : List Val) :
    build E fuel root name (.seq k t (limit E.S.checkMax es)) = build E fuel root name (.seq k t es) := by
  cases fuel with
  | zero => rfl
  | succ f => simp only [build, setChildren, tupleChildren, limit_limit]; rfl

theorem buildTree_inspected {E : Env} (hE : E.Fair) (hn : 0 < E.S.checkMax) {name : Str} {k : SeqKind} {t : Ty} {es : List Val} :
    buildTree E name (.seq k t es) = buildTree E name (.seq k t (es.take E.S.checkMax)) := by
  have hl : limit E.S.checkMax es = es.take E.S.checkMax := by unfold limit; rw [if_neg (by omega)]
  unfold buildTree
  rw [← hl, build_seq_limit]
  symm
  have h1 : (Val.seq k t es).depth + 1 ≥ (Val.seq k t (limit E.S.checkMax es)).depth + 1 := by
    simp only [Val.depth, hl]
    have := depthList_take E.S.checkMax es
    omega
  rw [← build_seq_limit E ((Val.seq k t (limit E.S.checkMax es)).depth + 1),
    ← build_seq_limit E ((Val.seq k t es).depth + 1)]
  exact (build_fuel hE (by omega) h1).symm

/-- **C23**: with a positive limit `n`, the hint of a list, tuple, set, frozenset, iterator or series is the hint of its
first `n` elements, wherever the limit cuts and whatever comes after it. -/
theorem hint_of_first_elements (E : Env) (hE : E.Fair) (hn : 0 < E.S.checkMax) (name : Str) (k : SeqKind) (t : Ty)
    (es : List Val) (imports : Bool) :
    generate E name (.seq k t es) imports = generate E name (.seq k t (es.take E.S.checkMax)) imports := by
  unfold generate fromData
  rw [buildTree_inspected hE hn]

/-- In particular two sequences that agree on the first `n` elements have the same hint. -/
theorem hint_ignores_rest (E : Env) (hE : E.Fair) (hn : 0 < E.S.checkMax) (name : Str) (k : SeqKind) (t : Ty)
    (es es' : List Val) (imports : Bool) (h : es.take E.S.checkMax = es'.take E.S.checkMax) :
    generate E name (.seq k t es) imports = generate E name (.seq k t es') imports := by
  rw [hint_of_first_elements E hE hn, hint_of_first_elements E hE hn _ _ _ es', h]

example : generate (exEnv { checkMax := 1 }) py!"X" (.seq .list .list [.inst .int none, .inst .str none]) false =
    .ok py!"X: TypeAlias = List[int]\n" := by decide +kernel

end Verif.Props
