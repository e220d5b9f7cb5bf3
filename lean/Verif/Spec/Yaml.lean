import Verif.Model.Yaml
/-
What YAML comments should become.
-/
namespace Verif.Spec
open Verif

/-- How many quotation marks there are before a position. -/
def quotesBefore (line : Str) (i : Nat) : Nat := (line.take i).countP (fun c => c == '\'' || c == '"')

/-- The position is not between quotation marks. -/
def Unquoted (line : Str) (i : Nat) : Prop := quotesBefore line i % 2 = 0

/-- The word with a capital first letter. -/
def capital (U : Uni) : Str → Str
  | [] => []
  | c :: r => U.upper c ++ r

/-- A word as it may appear in a sentence: perhaps with a capital first letter, perhaps followed by a full stop. -/
def InSentence (U : Uni) (w w' : Str) : Prop := ∃ x, (x = w ∨ x = capital U w) ∧ (w' = x ∨ w' = x ++ py!".")

/-- The words appear one for one, in order. -/
inductive Sentence (U : Uni) : List Str → List Str → Prop
  | nil : Sentence U [] []
  | cons {w w' : Str} {ws ws' : List Str} : InSentence U w w' → Sentence U ws ws' → Sentence U (w :: ws) (w' :: ws')

/-- There is a comment in the line, at the column. -/
def hashAt (col : Nat) (line : Str) : Bool := line[col]? == some '#'

/-- The text of that comment. -/
def textAt (col : Nat) (line : Str) : Str := strip (line.drop (col + 1))

/-- The column of the key in a line: after blanks and dashes. -/
def keyCol (line : Str) : Nat := (line.takeWhile (fun c => isSpace c || c == '-')).length

/-- The comment lines directly above and directly below line number `i`, in the column. -/
def runAbove (lines : List Str) (i col : Nat) : List Str := ((lines.take i).reverse.takeWhile (hashAt col)).reverse
def runBelow (lines : List Str) (i col : Nat) : List Str := (lines.drop (i + 1)).takeWhile (hashAt col)

/-- The comment made of comment lines: joined to sentences, without docstring delimiters, with a capital first letter. -/
def blockText (U : Uni) (col : Nat) (run : List Str) : Str :=
  capital U (replace py!"\"\"\"" [] (replace py!"'''" [] (joinComments U (run.map (textAt col)))))

/-- With a full stop, unless there is one or nothing to end. -/
def ended (s : Str) : Str := if s = [] ∨ endsWith s py!"." = true then s else s ++ py!"."

/-- The comment after the value: from the first `#` outside quotation marks, if a space precedes it. -/
def SideText (line t : Str) : Prop :=
  (∃ i, line[i]? = some ' ' ∧ line[i + 1]? = some '#' ∧ Unquoted line (i + 1) ∧
    (∀ j < i + 1, line[j]? = some '#' → ¬ Unquoted line j) ∧ t = ended (strip (line.drop (i + 2)))) ∨
  ((∀ i, line[i]? = some ' ' → line[i + 1]? = some '#' → Unquoted line (i + 1) → ∃ j < i + 1, line[j]? = some '#' ∧ Unquoted line j) ∧ t = [])

/-- The comment of line number `i` at one of the positions. -/
def TextOf (U : Uni) (lines : List Str) (i : Nat) (line : Str) : CommentsAre → Str → Prop
  | .above, t => t = blockText U (keyCol line) (runAbove lines i (keyCol line))
  | .below, t => t = blockText U (keyCol line) (runBelow lines i (keyCol line))
  | .side, t => SideText line t

/-- The comments at several positions, those that are not empty. -/
inductive TextsOf (U : Uni) (lines : List Str) (i : Nat) (line : Str) : List CommentsAre → List Str → Prop
  | nil : TextsOf U lines i line [] []
  | skip {p : CommentsAre} {ps : List CommentsAre} {ts : List Str} :
      TextOf U lines i line p [] → TextsOf U lines i line ps ts → TextsOf U lines i line (p :: ps) ts
  | take {p : CommentsAre} {ps : List CommentsAre} {t : Str} {ts : List Str} :
      TextOf U lines i line p t → t ≠ [] → TextsOf U lines i line ps ts → TextsOf U lines i line (p :: ps) (t :: ts)

/-- The blanks and dashes a line begins with. -/
def indentOf (line : Str) : Str := line.takeWhile (fun c => c == ' ' || c == '\t' || c == '-')

/-- Lines as a block of YAML text, each behind the indentation. -/
def literalBlock (ind : Str) (text : List Str) : Str := text.flatMap (fun l => '\n' :: (ind ++ l))

/-- An entry of a mapping whose key is hidden and whose value is the text. -/
def hiddenEntry (start : Str) (key : Str) (ind : Str) (text : List Str) : Str :=
  start ++ py!"___docstring_hidden_key_" ++ key ++ py!": |" ++ literalBlock ind text

/-- A key without its quotation marks. -/
def unquote (key : Str) : Str :=
  if startsWith key py!"\"" ∧ endsWith key py!"\"" then stripChar '"' key
  else if startsWith key py!"'" ∧ endsWith key py!"'" then stripChar '\'' key
  else key

/-- A line without its tabs, and without the blanks at its start and after tabs. `skip` is true at these places. -/
def visibleFrom : Bool → Str → Str
  | _, [] => []
  | skip, c :: r => if c = '\t' then visibleFrom true r else if skip = true ∧ isSpace c = true then visibleFrom true r else c :: visibleFrom false r

def visibleText (line : Str) : Str := visibleFrom true line

/-- The text of a line from its key on: without blanks, tabs and the first dash. -/
def lineBody (line : Str) : Str := match visibleText line with
  | '-' :: r => lstrip r
  | s => s

/-- Lines that are recognised as lines of a mapping: the first character is a letter or a dash (not in documents indented with tabs),
and the text up to the first colon outside quotation marks is the key. -/
def KeyLine (U : Uni) (tabs : Bool) (line key : Str) : Prop :=
  key ≠ [] ∧ (∃ c r, visibleText line = c :: r ∧ (U.isAlpha c = true ∨ c = '-')) ∧ (tabs = true → '-' ∉ line) ∧
  ∃ i, (lineBody line)[i]? = some ':' ∧ Unquoted (lineBody line) i ∧
    (∀ j < i, (lineBody line)[j]? = some ':' → ¬ Unquoted (lineBody line) j) ∧ key = unquote ((lineBody line).take i)

/-- Documents indented with spaces or with tabs (and not with both). -/
def Indented : Bool → List Str → Prop
  | false, lines => (∀ l ∈ lines, '\t' ∉ l) ∧ ∃ l ∈ lines, ' ' ∈ l
  | true, lines => (∀ l ∈ lines, ' ' ∉ l) ∧ ∃ l ∈ lines, '\t' ∈ l

/-- What becomes of a line with the given comments: it stays if there are none or if it is not the line of a key. Otherwise a hidden
entry with the same indentation is put before it; in a list item, the hidden entry takes over the dash. -/
inductive LineBecomes (U : Uni) (tabs : Bool) (texts : List Str) : Str → List Str → Prop
  | same {line : Str} : (texts = [] ∨ ∀ key, ¬ KeyLine U tabs line key) → LineBecomes U tabs texts line [line]
  | key {line key : Str} {c : Char} : KeyLine U tabs line key → texts ≠ [] → c = (if tabs then '\t' else ' ') →
      (∀ d ∈ indentOf line, d = c) → (∀ r, visibleText line ≠ '-' :: r) →
      LineBecomes U tabs texts line
        [hiddenEntry (indentOf line) key (indentOf line ++ [c]) (splitlines (join py!"\n\n" texts)), line]
  | item {a b key : Str} {n : Nat} : KeyLine U tabs (a ++ '-' :: b) key → texts ≠ [] → tabs = false → (∀ c ∈ a, isSpace c = true) →
      (indentOf (a ++ '-' :: b)).length = n + 2 →
      LineBecomes U tabs texts (a ++ '-' :: b)
        [hiddenEntry (List.replicate n ' ' ++ py!"- ") key (List.replicate (n + 3) ' ') (splitlines (join py!"\n\n" texts)), a ++ ' ' :: b]

/-- The new lines, line by line from number `i`; `texts` tells the comments of a line. -/
inductive Becomes (U : Uni) (tabs : Bool) (texts : Nat → Str → List Str → Prop) : Nat → List Str → List Str → Prop
  | nil (i : Nat) : Becomes U tabs texts i [] []
  | cons {i : Nat} {line : Str} {r new out : List Str} {ts : List Str} : texts i line ts → LineBecomes U tabs ts line new →
      Becomes U tabs texts (i + 1) r out → Becomes U tabs texts i (line :: r) (new ++ out)

/-- All lines are kept in order; entries with hidden keys may be inserted and dashes that begin a line be blanked. -/
inductive Kept : List Str → List Str → Prop
  | nil : Kept [] []
  | entry {start key ind : Str} {body lines out : List Str} : Kept lines out → Kept lines (hiddenEntry start key ind body :: out)
  | line {l : Str} {lines out : List Str} : Kept lines out → Kept (l :: lines) (l :: out)
  | dash {a b : Str} {lines out : List Str} : (∀ c ∈ a, isSpace c = true) → Kept lines out → Kept ((a ++ '-' :: b) :: lines) ((a ++ ' ' :: b) :: out)

/-- No key with nothing but comments above it in its column, while the last line of the document is a comment in that column. -/
def NoWrap (lines : List Str) : Prop := ∀ i line last, lines[i]? = some line → lines.getLast? = some last →
  (∀ l ∈ lines.take i, hashAt (keyCol line) l = true) → hashAt (keyCol line) last = false

/-- Dashes begin list items: a line whose first visible character is a dash begins with at least two blanks or dashes, and has more
than the dash. -/
def DashesBegin (lines : List Str) : Prop := ∀ line ∈ lines, ∀ r, lstrip line = '-' :: r → strip line ≠ py!"-" ∧ 2 ≤ (indentOf line).length

end Verif.Spec
