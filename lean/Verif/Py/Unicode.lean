import Verif.Py.Str
/-
The Unicode tables of the Python interpreter, as a parameter of the model.

Theorems quantify over every `Uni`. The laws below hold of CPython's tables; nothing is assumed about the
case mapping of non-ASCII characters (in Python, `upper` of a letter need not consist of letters).
-/
namespace Verif

/-- A character below 128. -/
def isAscii (c : Char) : Bool := c.toNat < 128

structure Uni where
  /-- `str.isalpha` of one character. -/
  isAlpha : Char → Bool
  /-- `str.isnumeric` of one character. -/
  isNumeric : Char → Bool
  /-- `\d` of the `re` module (Unicode decimal digits). -/
  isDecimal : Char → Bool
  /-- `str.isupper` of one character. -/
  isUpper : Char → Bool
  /-- `str.upper` of one character (may be several characters). -/
  upper : Char → Str
  /-- `str.lower` of one character (may be several characters). -/
  lower : Char → Str
  /-- title-case of one character, used by `str.capitalize` (may be several characters). -/
  title : Char → Str
  decimal_numeric : ∀ c, isDecimal c = true → isNumeric c = true
  alpha_ascii : ∀ c, isAscii c = true → isAlpha c = c.isAlpha
  numeric_ascii : ∀ c, isAscii c = true → isNumeric c = c.isDigit
  decimal_ascii : ∀ c, isAscii c = true → isDecimal c = c.isDigit
  upper_ascii : ∀ c, isAscii c = true → upper c = [c.toUpper]
  lower_ascii : ∀ c, isAscii c = true → lower c = [c.toLower]
  title_ascii : ∀ c, isAscii c = true → title c = [c.toUpper]
  isUpper_ascii : ∀ c, isAscii c = true → isUpper c = c.isUpper
  /-- No whitespace character is a letter or number. -/
  space_alnum : ∀ c, isSpace c = true → isAlpha c = false ∧ isNumeric c = false
  /-- The upper case of a visible character is not empty and has no whitespace. -/
  upper_word : ∀ c, isSpace c = false → upper c ≠ [] ∧ ∀ d ∈ upper c, isSpace d = false

namespace Uni

/-- `str.isalnum` of one character: letters, decimals, digits and numerics; the latter three are all numeric. -/
def isAlnum (U : Uni) (c : Char) : Bool := U.isAlpha c || U.isNumeric c

/-- `s.upper()` for a string. -/
def upperStr (U : Uni) (s : Str) : Str := s.flatMap U.upper

/-- `s.capitalize()`. -/
def capitalize (U : Uni) : Str → Str
  | [] => []
  | c :: r => U.title c ++ r.flatMap U.lower

end Uni

theorem ascii_space_alnum (c : Char) (h : isSpace c = true) :
    (isAscii c && c.isAlpha) = false ∧ (isAscii c && c.isDigit) = false := by
  by_cases ha : isAscii c = true
  · have h3 : c.toNat < 128 := by simpa [isAscii] using ha
    have key : ∀ n : Fin 128, isSpace (Char.ofNat n) = true →
        (Char.ofNat n).isAlpha = false ∧ (Char.ofNat n).isDigit = false := by decide +kernel
    have := key ⟨c.toNat, h3⟩ (by simpa [Char.ofNat_toNat] using h)
    simp only [Char.ofNat_toNat] at this
    simp [this.1, this.2]
  · simp only [Bool.not_eq_true] at ha
    simp [ha]

theorem ascii_upper_space (c : Char) (ha : isAscii c = true) (h : isSpace c = false) : isSpace c.toUpper = false := by
  have h3 : c.toNat < 128 := by simpa [isAscii] using ha
  have key : ∀ n : Fin 128, isSpace (Char.ofNat n) = false → isSpace (Char.ofNat n).toUpper = false := by decide +kernel
  have := key ⟨c.toNat, h3⟩ (by simpa [Char.ofNat_toNat] using h)
  simpa only [Char.ofNat_toNat] using this

/-- The tables restricted to ASCII (everything else is neither letter nor digit): used in examples. -/
def asciiUni : Uni where
  isAlpha c := isAscii c && c.isAlpha
  isNumeric c := isAscii c && c.isDigit
  isDecimal c := isAscii c && c.isDigit
  isUpper c := isAscii c && c.isUpper
  upper c := if isAscii c then [c.toUpper] else [c]
  lower c := if isAscii c then [c.toLower] else [c]
  title c := if isAscii c then [c.toUpper] else [c]
  decimal_numeric c h := h
  alpha_ascii c h := by simp [h]
  numeric_ascii c h := by simp [h]
  decimal_ascii c h := by simp [h]
  upper_ascii c h := by simp [h]
  lower_ascii c h := by simp [h]
  title_ascii c h := by simp [h]
  isUpper_ascii c h := by simp [h]
  space_alnum := ascii_space_alnum
  upper_word c h := by
    by_cases ha : isAscii c = true
    · simp [ha, ascii_upper_space c ha h]
    · simp [ha, h]

/-- `asciiUni` plus the one non-ASCII letter `ǰ` (U+01F0), whose upper case in Python is `J` followed by the
combining caron U+030C, which is not alphanumeric. Used for a negative example. -/
def caronUni : Uni where
  isAlpha c := (isAscii c && c.isAlpha) || c == 'ǰ'
  isNumeric c := isAscii c && c.isDigit
  isDecimal c := isAscii c && c.isDigit
  isUpper c := isAscii c && c.isUpper
  upper c := if isAscii c then [c.toUpper] else if c == 'ǰ' then ['J', '̌'] else [c]
  lower c := if isAscii c then [c.toLower] else [c]
  title c := if isAscii c then [c.toUpper] else if c == 'ǰ' then ['J', '̌'] else [c]
  decimal_numeric c h := h
  alpha_ascii c h := by
    have : (c == 'ǰ') = false := by
      by_cases hc : c = 'ǰ'
      · subst hc; simp [isAscii] at h
      · simpa using hc
    simp [h, this]
  numeric_ascii c h := by simp [h]
  decimal_ascii c h := by simp [h]
  upper_ascii c h := by simp [h]
  lower_ascii c h := by simp [h]
  title_ascii c h := by simp [h]
  isUpper_ascii c h := by simp [h]
  space_alnum c h := by
    have h1 := ascii_space_alnum c h
    have : (c == 'ǰ') = false := by
      by_cases hc : c = 'ǰ'
      · subst hc; revert h; decide
      · simpa using hc
    simp [h1, this]
  upper_word c h := by
    by_cases ha : isAscii c = true
    · simp [ha, ascii_upper_space c ha h]
    · by_cases hc : c = 'ǰ'
      · subst hc; simp only [ha, if_neg, Bool.false_eq_true, not_false_eq_true, beq_self_eq_true, if_true]; decide
      · have : (c == 'ǰ') = false := by simpa using hc
        simp [ha, h, this]

end Verif
