import Lean.Elab.Term
/-
Python strings as lists of code points, and the string methods the modelled code uses.

These definitions are part of the trusted reading of Python: each states the Python expression it stands for.
-/
namespace Verif

/-- A Python `str`: a list of code points. -/
abbrev Str := List Char

/-- `py!"text"` is the literal `['t','e','x','t']`, so that the kernel computes with it directly. -/
syntax:max (name := pyLit) "py!" str : term

@[term_elab pyLit] def elabPyLit : Lean.Elab.Term.TermElab := fun stx _ =>
  match stx with
  | `(py! $s:str) => return Lean.toExpr s.getString.toList
  | _ => Lean.Elab.throwUnsupportedSyntax

/-- `TAB` of lazy_type_hint/utils/utils.py:7. -/
def TAB : Str := py!"    "

/-- Python `str.isspace` for one character (the complete table of CPython's `_PyUnicode_IsWhitespace`). -/
def isSpace (c : Char) : Bool :=
  let n := c.toNat
  (9 ≤ n && n ≤ 13) || (28 ≤ n && n ≤ 32) || n == 0x85 || n == 0xa0 || n == 0x1680 ||
  (0x2000 ≤ n && n ≤ 0x200a) || n == 0x2028 || n == 0x2029 || n == 0x202f || n == 0x205f || n == 0x3000

/-- Line boundaries of `str.splitlines` other than the pair `\r\n`. -/
def isLineBreak (c : Char) : Bool :=
  let n := c.toNat
  (10 ≤ n && n ≤ 13) || (28 ≤ n && n ≤ 30) || n == 0x85 || n == 0x2028 || n == 0x2029

/-- `str.lstrip()`. -/
def lstrip (s : Str) : Str := s.dropWhile isSpace

/-- `str.rstrip()`. -/
def rstrip (s : Str) : Str := (s.reverse.dropWhile isSpace).reverse

/-- `str.strip()`. -/
def strip (s : Str) : Str := rstrip (lstrip s)

/-- `s.rstrip(c)` for a one-character argument. -/
def rstripChar (c : Char) (s : Str) : Str := (s.reverse.dropWhile (· == c)).reverse

/-- `s.strip(c)` for a one-character argument. -/
def stripChar (c : Char) (s : Str) : Str := rstripChar c (s.dropWhile (· == c))

/-- `sep.join(parts)`. -/
def join (sep : Str) : List Str → Str
  | [] => []
  | [x] => x
  | x :: y :: r => x ++ sep ++ join sep (y :: r)

/-- `s.split(c)` for a one-character separator. Never empty. -/
def splitChar (c : Char) : Str → List Str
  | [] => [[]]
  | d :: r =>
    if d == c then [] :: splitChar c r
    else match splitChar c r with
      | [] => [[d]]
      | w :: ws => (d :: w) :: ws

/-- Worker of `str.split()`: `cur` is the current word, reversed. -/
def wordsAux : Str → Str → List Str
  | cur, [] => if cur.isEmpty then [] else [cur.reverse]
  | cur, c :: r =>
    if isSpace c then
      (if cur.isEmpty then wordsAux [] r else cur.reverse :: wordsAux [] r)
    else wordsAux (c :: cur) r

/-- `s.split()`: the maximal runs of non-whitespace characters. -/
def words (s : Str) : List Str := wordsAux [] s

/-- Worker of `splitlines`: `cur` is the current line, reversed. -/
def splitlinesAux : Str → Str → List Str
  | cur, [] => if cur.isEmpty then [] else [cur.reverse]
  | cur, '\r' :: '\n' :: r => cur.reverse :: splitlinesAux [] r
  | cur, c :: r => if isLineBreak c then cur.reverse :: splitlinesAux [] r else splitlinesAux (c :: cur) r

/-- `s.splitlines()`. -/
def splitlines (s : Str) : List Str := splitlinesAux [] s

/-- `s.startswith(p)`. -/
def startsWith (s p : Str) : Bool := p.isPrefixOf s

/-- `s.endswith(p)`. -/
def endsWith (s p : Str) : Bool := p.isSuffixOf s

/-- `p in s`. -/
def contains (p : Str) : Str → Bool
  | [] => p.isEmpty
  | c :: r => p.isPrefixOf (c :: r) || contains p r

/-- `s.find(p)`; `none` stands for `-1`. -/
def find (p : Str) : Str → Option Nat
  | [] => if p.isEmpty then some 0 else none
  | c :: r => if p.isPrefixOf (c :: r) then some 0 else (find p r).map (· + 1)

/-- `s.rfind(c)` for one character; `none` stands for `-1`. -/
def rfindChar (c : Char) : Str → Option Nat
  | [] => none
  | d :: r => match rfindChar c r with
    | some i => some (i + 1)
    | none => if d == c then some 0 else none

/-- `s.rfind(p)`; `none` stands for `-1`. -/
def rfind (p : Str) : Str → Option Nat
  | [] => if p.isEmpty then some 0 else none
  | c :: r => match rfind p r with
    | some i => some (i + 1)
    | none => if p.isPrefixOf (c :: r) then some 0 else none

/-- Worker of `replace`: `skip` characters of a match just replaced are still to be dropped. -/
def replaceAux (old new : Str) : Nat → Str → Str
  | _, [] => []
  | skip + 1, _ :: r => replaceAux old new skip r
  | 0, c :: r =>
    if old.isPrefixOf (c :: r) then new ++ replaceAux old new (old.length - 1) r
    else c :: replaceAux old new 0 r

/-- `s.replace(old, new)` for non-empty `old` (all non-overlapping occurrences, from the left). -/
def replace (old new s : Str) : Str := replaceAux old new 0 s

/-- `s.replace(c, d, 1)` for characters. -/
def replaceFirstChar (c d : Char) : Str → Str
  | [] => []
  | x :: r => if x == c then d :: r else x :: replaceFirstChar c d r

/-- `str(n)` for a natural number. -/
def natStr (n : Nat) : Str := Nat.toDigits 10 n

/-- Comparison of Python strings (`<=`), by code points. -/
def strLe : Str → Str → Bool
  | [], _ => true
  | _ :: _, [] => false
  | a :: as, b :: bs =>
    if a.toNat < b.toNat then true
    else if b.toNat < a.toNat then false
    else strLe as bs

/-- Insert into a sorted list. -/
def insertBy {α} (le : α → α → Bool) (x : α) : List α → List α
  | [] => [x]
  | y :: r => if le x y then x :: y :: r else y :: insertBy le x r

/-- `sorted(...)` (stable). -/
def sortBy {α} (le : α → α → Bool) : List α → List α
  | [] => []
  | x :: r => insertBy le x (sortBy le r)

/-- `sorted` on strings. -/
def sortStr (l : List Str) : List Str := sortBy strLe l

/-- First occurrences only, in order: `list(dict.fromkeys(l))`; also used for `set(l)` when order is irrelevant. -/
def dedup {α} [DecidableEq α] : List α → List α
  | [] => []
  | x :: r => x :: (dedup r).filter (· ≠ x)

deriving instance DecidableEq for Except

/-- Is the string free of the character? -/
def free (c : Char) (s : Str) : Prop := c ∉ s

end Verif
