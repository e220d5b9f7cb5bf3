import Verif.Py.Str
namespace Verif

/-- Inner loop of `_split_string` (lazy_type_hint/utils/docstring_formatter.py:20-33) over the words of one line:
`cur` is `current_substring`. -/
def packWords (maxLen : Nat) : Str → List Str → List Str
  | cur, [] => if cur.isEmpty then [] else [cur]
  | cur, w :: ws =>
    if cur.length + w.length + 1 ≤ maxLen then
      (if cur.isEmpty then packWords maxLen w ws else packWords maxLen (cur ++ py!" " ++ w) ws)
    else
      (if cur.isEmpty then packWords maxLen w ws else cur :: packWords maxLen w ws)

/-- One iteration of the outer loop (docstring_formatter.py:17-33): the substrings contributed by one line. -/
def splitLine (maxLen : Nat) (line : Str) : List Str :=
  (if line.isEmpty then [[]] else []) ++ packWords maxLen [] (words line)

/-- `_split_string` (docstring_formatter.py:4-34). -/
def splitString (s : Str) (maxLen : Nat) : List Str :=
  ((splitChar '\n' s).map (splitLine maxLen)).flatten

def quotes3 : Str := py!"\"\"\""

/-- The text after `rstrip("\n")` and appending the full stop (docstring_formatter.py:49-51). -/
def docText (s : Str) : Str :=
  let s := rstripChar '\n' s
  if endsWith s py!"." then s else s ++ py!"."

/-- `format_string_as_docstring` (docstring_formatter.py:37-60). -/
def formatDoc (s : Str) (maxLen : Nat) (indent : Str) : Str :=
  let s := docText s
  let doc := quotes3 ++ s ++ quotes3
  if doc.length ≤ maxLen ∧ ¬ ('\n' ∈ doc) then indent ++ doc
  else
    let subs := splitString s maxLen
    if subs.length = 1 ∧ ¬ ('\n' ∈ doc) then indent ++ doc
    else
      indent ++ quotes3 ++ py!"\n" ++ join py!"\n" (subs.map (indent ++ ·)) ++ py!"\n" ++ indent ++ quotes3

end Verif
