import Verif.Model.Val
namespace Verif

/-- The loop `for idx, element in enumerate(data): if n and idx >= n: break; ...` over an iterator
(set_and_sequence_operations.py:48-50): the elements inspected, and what is left in the iterator afterwards. -/
def inspectLoop {α} (n : Nat) : Nat → List α → List α × List α
  | _, [] => ([], [])
  | idx, e :: r =>
    if n ≠ 0 ∧ n ≤ idx then ([], r)
    else ((e :: (inspectLoop n (idx + 1) r).1), (inspectLoop n (idx + 1) r).2)

end Verif
