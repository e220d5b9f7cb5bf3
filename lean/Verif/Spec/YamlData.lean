import Verif.Spec.Comments
import Verif.Spec.Yaml
import Verif.Spec.Live
/-
YAML documents with comments: nested block mappings and block sequences of scalars, with the data YAML defines for them. This is a
part of YAML 1.1 (as PyYAML reads it), described by how documents are written.
-/
namespace Verif.Spec
open Verif

/-- A printable character other than line breaks and tabs. -/
def Printed (c : Char) : Prop := (0x20 ≤ c.toNat ∧ c.toNat ≤ 0x7e) ∨ (0xa0 ≤ c.toNat ∧ c.toNat ≠ 0x2028 ∧ c.toNat ≠ 0x2029 ∧ c.toNat ≠ 0xfeff ∧ c.toNat ≠ 0xfffe ∧ c.toNat ≠ 0xffff)

def PrintedLine (s : Str) : Prop := ∀ c ∈ s, Printed c

/-- Unquoted words YAML 1.1 reads as truth values or null. -/
def yamlWords : List Str := [py!"null", py!"true", py!"false", py!"yes", py!"no", py!"on", py!"off", py!"y", py!"n"]

def yamlChar (c : Char) : Bool := isAscii c && (c.isAlphanum || c == '_')

/-- Unquoted words that YAML reads as strings: ASCII letters, digits and underscores, not beginning with a digit. (Keys are limited to
1024 characters.) -/
def PlainWord (s : Str) : Prop :=
  (∃ c r, s = c :: r ∧ c.isDigit = false) ∧ (∀ c ∈ s, yamlChar c = true) ∧ s.map Char.toLower ∉ yamlWords ∧ s.length ≤ 1024

/-- Scalars. -/
inductive YScalar
  | int (digits : Str)
  | bool (b : Bool)
  | null
  | word (s : Str)
  | quoted (s : Str)

/-- How a scalar is written. -/
def YScalar.text : YScalar → Str
  | .int d => d
  | .bool true => py!"true"
  | .bool false => py!"false"
  | .null => py!"null"
  | .word s => s
  | .quoted s => '"' :: s ++ ['"']

/-- What it stands for. -/
def YScalar.value : YScalar → Val
  | .int _ => .inst .int none
  | .bool _ => .inst .bool none
  | .null => .inst .noneType none
  | .word s => .inst .str (some s)
  | .quoted s => .inst .str (some s)

def YScalar.OK : YScalar → Prop
  | .int d => d ≠ [] ∧ (∀ c ∈ d, isAscii c = true ∧ c.isDigit = true) ∧ (d.head? = some '0' → d = py!"0")
  | .word s => PlainWord s
  | .quoted s => PrintedLine s ∧ '"' ∉ s ∧ '\\' ∉ s
  | _ => True

/-- What may follow on the line of a key or element: nothing, or a comment. -/
def CommentTail (t : Str) : Prop := PrintedLine t ∧ (t = [] ∨ ∃ n s, t = List.replicate (n + 1) ' ' ++ '#' :: s)

/-- A line without data: blank, or a comment. -/
def NoteLine (l : Str) : Prop := PrintedLine l ∧ ((∀ c ∈ l, c = ' ') ∨ ∃ n s, l = List.replicate n ' ' ++ '#' :: s)

/-- The lines of a text block: the first line does not begin with a blank, and the last one is not empty. -/
def TextBlock (ls : List Str) : Prop := (∀ l ∈ ls, PrintedLine l) ∧ (∃ c s r, ls = (c :: s) :: r ∧ c ≠ ' ') ∧ (∀ l, ls.getLast? = some l → ∃ c ∈ l, isSpace c = false)

mutual
/-- The lines of a block mapping, grouped by entries: lines without data, entries with a scalar, with a nested mapping or sequence
(indented by further `step` blanks), and text blocks (`|`). -/
inductive YMap
  | nil
  | note (line : Str) (rest : YMap)
  | scalar (key : Str) (s : YScalar) (tail : Str) (rest : YMap)
  | map (key tail : Str) (step : Nat) (v : YMap) (rest : YMap)
  | seq (key tail : Str) (step : Nat) (v : YSeq) (rest : YMap)
  | text (key : Str) (lines : List Str) (rest : YMap)
/-- The lines of a block sequence. -/
inductive YSeq
  | nil
  | note (line : Str) (rest : YSeq)
  | scalar (s : YScalar) (tail : Str) (rest : YSeq)
  | map (v : YMap) (rest : YSeq)
end

def blanks (n : Nat) : Str := List.replicate n ' '

/-- The first line of a list item: the blanks at its beginning make room for the dash. -/
def dashed (w : Nat) : List Str → List Str
  | [] => []
  | l :: r => (blanks w ++ py!"- " ++ l.drop (w + 2)) :: r

mutual
/-- How a mapping is written at column `w`. -/
def YMap.lines : Nat → YMap → List Str
  | _, .nil => []
  | w, .note l r => l :: r.lines w
  | w, .scalar k s t r => (blanks w ++ k ++ py!": " ++ s.text ++ t) :: r.lines w
  | w, .map k t step v r => (blanks w ++ k ++ py!":" ++ t) :: v.lines (w + step) ++ r.lines w
  | w, .seq k t step v r => (blanks w ++ k ++ py!":" ++ t) :: v.lines (w + step) ++ r.lines w
  | w, .text k ls r => (blanks w ++ k ++ py!": |") :: ls.map (blanks (w + 1) ++ ·) ++ r.lines w
/-- How a sequence is written at column `w`. -/
def YSeq.lines : Nat → YSeq → List Str
  | _, .nil => []
  | w, .note l r => l :: r.lines w
  | w, .scalar s t r => (blanks w ++ py!"- " ++ s.text ++ t) :: r.lines w
  | w, .map v r => dashed w (v.lines (w + 2)) ++ r.lines w
end

mutual
/-- The entries of the mapping. -/
def YMap.items : YMap → Dct
  | .nil => []
  | .note _ r => r.items
  | .scalar k s _ r => (k, s.value) :: r.items
  | .map k _ _ v r => (k, dictOf v.items) :: r.items
  | .seq k _ _ v r => (k, .seq .list .list v.elems) :: r.items
  | .text k ls r => (k, .inst .str (some (join py!"\n" ls ++ py!"\n"))) :: r.items
/-- The elements of the sequence. -/
def YSeq.elems : YSeq → List Val
  | .nil => []
  | .note _ r => r.elems
  | .scalar s _ r => s.value :: r.elems
  | .map v r => dictOf v.items :: r.elems
end

/-- The mapping begins with an entry. -/
def YMap.begins : YMap → Prop
  | .nil => False
  | .note _ _ => False
  | _ => True

mutual
/-- The document can be read as intended: keys are words and differ, nothing is empty, text blocks are followed by entries. -/
def YMap.OK : YMap → Prop
  | .nil => True
  | .note l r => NoteLine l ∧ r.OK
  | .scalar k s t r => PlainWord k ∧ s.OK ∧ CommentTail t ∧ r.OK
  | .map k t step v r => PlainWord k ∧ CommentTail t ∧ 0 < step ∧ v.items ≠ [] ∧ (v.items.map (·.1)).Nodup ∧ v.OK ∧ r.OK
  | .seq k t _ v r => PlainWord k ∧ CommentTail t ∧ v.elems ≠ [] ∧ v.OK ∧ r.OK
  | .text k ls r => PlainWord k ∧ TextBlock ls ∧ r.begins ∧ r.OK
def YSeq.OK : YSeq → Prop
  | .nil => True
  | .note l r => NoteLine l ∧ r.OK
  | .scalar s t r => s.OK ∧ CommentTail t ∧ r.OK
  | .map v r => v.begins ∧ (v.items.map (·.1)).Nodup ∧ v.OK ∧ r.OK
end

mutual
/-- Documents as users write them, for which comments are understood: no text blocks, no hidden keys, no colon on the lines of scalars
in sequences, and keys that can be prolonged by the prefix of hidden keys. -/
def YMap.Plain : YMap → Prop
  | .nil => True
  | .note _ r => r.Plain
  | .scalar k _ _ r => k.length ≤ 1000 ∧ (Key.str k).hidden = false ∧ r.Plain
  | .map k _ _ v r => k.length ≤ 1000 ∧ (Key.str k).hidden = false ∧ v.Plain ∧ r.Plain
  | .seq k _ _ v r => k.length ≤ 1000 ∧ (Key.str k).hidden = false ∧ v.Plain ∧ r.Plain
  | .text _ _ _ => False
def YSeq.Plain : YSeq → Prop
  | .nil => True
  | .note _ r => r.Plain
  | .scalar s t r => ':' ∉ s.text ++ t ∧ r.Plain
  | .map v r => v.Plain ∧ r.Plain
end

mutual
/-- The document without the text blocks under hidden keys. -/
def YMap.bare : YMap → YMap
  | .nil => .nil
  | .note l r => .note l r.bare
  | .scalar k s t r => .scalar k s t r.bare
  | .map k t step v r => .map k t step v.bare r.bare
  | .seq k t step v r => .seq k t step v.bare r.bare
  | .text k ls r => if (Key.str k).hidden then r.bare else .text k ls r.bare
def YSeq.bare : YSeq → YSeq
  | .nil => .nil
  | .note l r => .note l r.bare
  | .scalar s t r => .scalar s t r.bare
  | .map v r => .map v.bare r.bare
end

/-- The key of the entry the mapping begins with. -/
def YMap.firstKey : YMap → Option Str
  | .scalar k _ _ _ => some k
  | .map k _ _ _ _ => some k
  | .seq k _ _ _ _ => some k
  | _ => none

mutual
/-- The only hidden keys are those of text blocks, and these come right before the key they belong to. -/
def YMap.Documented : YMap → Prop
  | .nil => True
  | .note _ r => r.Documented
  | .scalar k _ _ r => (Key.str k).hidden = false ∧ r.Documented
  | .map k _ _ v r => (Key.str k).hidden = false ∧ v.Documented ∧ r.Documented
  | .seq k _ _ v r => (Key.str k).hidden = false ∧ v.Documented ∧ r.Documented
  | .text k _ r => (∃ key, k = hiddenPrefix ++ key ∧ r.firstKey = some key) ∧ r.Documented
def YSeq.Documented : YSeq → Prop
  | .nil => True
  | .note _ r => r.Documented
  | .scalar _ _ r => r.Documented
  | .map v r => v.Documented ∧ r.Documented
end

mutual
/-- For every entry, the line it is written in, its key and the text block before it (if any) are as `T` says. `i` is the number of the
line, not counting the text blocks under hidden keys, `start` is what the first line begins with, and `p` is the text block before it. -/
def YMap.Shows (T : Nat → Str → Str → Option (List Str) → Prop) : Str → Nat → Nat → Option (List Str) → YMap → Prop
  | _, _, _, _, .nil => True
  | _, w, i, _, .note _ r => r.Shows T (blanks w) w (i + 1) none
  | start, w, i, p, .scalar k s t r => T i (start ++ (k ++ ':' :: (' ' :: s.text ++ t))) k p ∧ r.Shows T (blanks w) w (i + 1) none
  | start, w, i, p, .map k t step v r => T i (start ++ (k ++ ':' :: t)) k p ∧
      v.Shows T (blanks (w + step)) (w + step) (i + 1) none ∧ r.Shows T (blanks w) w (i + 1 + (v.bare.lines (w + step)).length) none
  | start, w, i, p, .seq k t step v r => T i (start ++ (k ++ ':' :: t)) k p ∧
      v.Shows T (w + step) (i + 1) ∧ r.Shows T (blanks w) w (i + 1 + (v.bare.lines (w + step)).length) none
  | start, w, i, _, .text _ ls r => r.Shows T start w i (some ls)
def YSeq.Shows (T : Nat → Str → Str → Option (List Str) → Prop) : Nat → Nat → YSeq → Prop
  | _, _, .nil => True
  | w, i, .note _ r => r.Shows T w (i + 1)
  | w, i, .scalar _ _ r => r.Shows T w (i + 1)
  | w, i, .map v r => v.Shows T (blanks w ++ py!"- ") (w + 2) i none ∧ r.Shows T w (i + (v.bare.lines (w + 2)).length)
end

/-- The text block before a key is made of the comments of its line. There is none if the line has no comments, or if it is not
recognised as the line of a key. -/
def BlockFor (U : Uni) (texts : Nat → Str → List Str → Prop) (i : Nat) (line key : Str) (p : Option (List Str)) : Prop :=
  (p = none ∧ (texts i line [] ∨ ¬ KeyLine U false line key)) ∨
  (∃ ts, ts ≠ [] ∧ texts i line ts ∧ KeyLine U false line key ∧ p = some (splitlines (join py!"\n\n" ts)))

/-- Documents: a mapping or a sequence. -/
inductive YDoc
  | map (m : YMap)
  | seq (s : YSeq)

def YDoc.lines : YDoc → List Str
  | .map m => m.lines 0
  | .seq s => s.lines 0

/-- The text of the file. -/
def YDoc.text (d : YDoc) : Str := d.lines.flatMap (· ++ py!"\n")

def YDoc.value : YDoc → Val
  | .map m => dictOf m.items
  | .seq s => .seq .list .list s.elems

def YDoc.OK : YDoc → Prop
  | .map m => m.items ≠ [] ∧ (m.items.map (·.1)).Nodup ∧ m.OK
  | .seq s => s.elems ≠ [] ∧ s.OK

def YDoc.Plain : YDoc → Prop
  | .map m => m.Plain
  | .seq s => s.Plain

/-- The second document is the first one with comments as text blocks under hidden keys. -/
def YDoc.Documents (d d' : YDoc) : Prop := match d, d' with
  | .map m, .map m' => m'.bare = m ∧ m'.Documented
  | .seq s, .seq s' => s'.bare = s ∧ s'.Documented
  | _, _ => False

/-- The text blocks are those made of the comments. -/
def YDoc.Shows (T : Nat → Str → Str → Option (List Str) → Prop) : YDoc → Prop
  | .map m => m.Shows T [] 0 0 none
  | .seq s => s.Shows T 0 0

end Verif.Spec
