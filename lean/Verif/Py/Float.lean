/-
The one floating-point computation of the code: `int(100 * (common / total))` (dict_data_type_tree.py:46), in
IEEE-754 binary64 with round-to-nearest-even, computed exactly with natural numbers. The operands are set sizes, so
neither overflow nor subnormal numbers occur.
-/
namespace Verif

/-- The fraction `n / d` rounded to the nearest integer, ties to even. -/
def roundHalfEven (n d : Nat) : Nat :=
  let q := n / d
  let r := n % d
  if 2 * r < d then q else if d < 2 * r then q + 1 else if q % 2 = 0 then q else q + 1

/-- The scale `s` for which `c * 2^s / t` lies in `[2^52, 2^53)`, for `0 < c ≤ t`. -/
def divScale (c t : Nat) : Nat :=
  let s := 52 + (t.log2 - c.log2)
  if 2 ^ 52 * t ≤ c * 2 ^ s then s else s + 1

/-- Significand of the double `c / t`, for `0 < c ≤ t`: the double is `divSig c t / 2 ^ divScale c t`. -/
def divSig (c t : Nat) : Nat := roundHalfEven (c * 2 ^ divScale c t) t

/-- A natural number rounded to 53 significant bits, ties to even. -/
def round53 (n : Nat) : Nat :=
  let k := n.log2 - 52
  roundHalfEven n (2 ^ k) * 2 ^ k

/-- `int(100 * (c / t))` for `c ≤ t`, `t ≠ 0`; `0` for `t = 0` (`percentage_similarity`,
dict_data_type_tree.py:41-46). -/
def percentSimilarity (c t : Nat) : Nat :=
  if t = 0 then 0 else if c = 0 then 0
  else round53 (100 * divSig c t) / 2 ^ divScale c t

example : percentSimilarity 1 3 = 33 := by decide +kernel
/-- Rounding loses a percent here: 29/100 as a double times 100 is 28.999999999999996. -/
example : percentSimilarity 29 100 = 28 := by decide +kernel
example : percentSimilarity 57 100 = 56 := by decide +kernel
example : percentSimilarity 5 5 = 100 := by decide +kernel

end Verif
