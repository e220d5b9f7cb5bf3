import Verif.Py.Unicode
import Verif.Model.PyFile
/-
Comments of YAML files as hidden keys: `YamlFileModifier` (lazy_type_hint/file_modifiers/yaml_file_modifier.py). Texts are read back
as written (encodings are not modelled).
-/
namespace Verif

/-- Where comments are looked for (yaml_file_modifier.py:21). -/
inductive CommentsAre | above | below | side
  deriving DecidableEq

/-- `Comment` (yaml_file_modifier.py:25-42); `tabs` and `width` are `spacing_element`, `dash` is
`must_replace_its_key_as_first_element_of_list`. -/
structure Comment where
  text : Str
  key : Str
  line : Nat
  tabs : Bool
  width : Nat
  dash : Bool
  deriving DecidableEq

/-- One unit of indentation. -/
def indentChar (tabs : Bool) : Char := if tabs then '\t' else ' '

/-- `Comment.spacing` (yaml_file_modifier.py:35-42). -/
def Comment.spacing (c : Comment) : Except PyErr Str :=
  let lst : Str := List.replicate c.width (indentChar c.tabs)
  if c.dash then
    if c.width < 2 then .error .index else .ok (lst.set (c.width - 2) '-')
  else .ok lst

/-- `prefix` (yaml_file_modifier.py:56). -/
def yamlPrefix : Str := py!"___docstring_hidden_key_"

/-- Failures of the constructor. -/
inductive YamlErr
  /-- `below` and `above` at the same time -/
  | positions
  /-- neither `.yaml` nor `.yml` -/
  | suffix
  /-- the file cannot be read -/
  | read
  deriving DecidableEq

/-- `Path(...).suffix` from the last component of the path: from the last dot on, unless it is the first or last character. -/
def pathSuffix (name : Str) : Str := match rfindChar '.' name with
  | some i => if 0 < i ∧ i + 1 < name.length then name.drop i else []
  | none => []

/-- `__init__` (yaml_file_modifier.py:63-85): the lines of the file. `name` is the last component of the path, `content` what the file
holds. A single position is a list of one. -/
def yamlOpen (name : Str) (content : Option Str) (cs : List CommentsAre) : Except YamlErr (List Str) :=
  if cs.contains .above && cs.contains .below then .error .positions
  else if !(endsWith (pathSuffix name) py!".yaml" || endsWith (pathSuffix name) py!".yml") then .error .suffix
  else match content with
    | none => .error .read
    | some s => .ok (splitlines s)

/-- `_capitalize_only_first_letter` (yaml_file_modifier.py:87-92). -/
def capFirst (U : Uni) : Str → Str
  | [] => []
  | c :: r => U.upper c ++ r

/-- `_remove_spacing` (yaml_file_modifier.py:94-99). -/
def removeSpacing (line : Str) : Str := ((splitChar '\t' line).map lstrip).flatten

/-- One turn of the loop of `_join_multi_line_comments` (yaml_file_modifier.py:118-144); `first` is `idx == 0`. -/
def joinStep (U : Uni) (first : Bool) (result line : Str) : Str :=
  match line with
  | [] => result ++ py!"\n\n"
  | c :: _ =>
    if first then result ++ strip line
    else if U.isUpper c then
      if endsWith result py!"." then result ++ py!" " ++ strip line
      else if endsWith result py!"\n" then result ++ capFirst U (strip line)
      else result ++ py!". " ++ strip line
    else
      if endsWith result py!"." then result ++ py!" " ++ capFirst U (strip line)
      else if endsWith result py!"\n" then result ++ capFirst U (strip line)
      else result ++ py!" " ++ strip line

def joinLoop (U : Uni) : Bool → Str → List Str → Str
  | _, result, [] => result
  | first, result, line :: r => joinLoop U false (joinStep U first result line) r

/-- Null strings are removed from both sides (yaml_file_modifier.py:110-114). -/
def trimEmpty (lines : List Str) : List Str :=
  ((lines.dropWhile (·.isEmpty)).reverse.dropWhile (·.isEmpty)).reverse

/-- `_join_multi_line_comments` (yaml_file_modifier.py:101-150). -/
def joinComments (U : Uni) (lines : List Str) : Str :=
  let result := joinLoop U true [] (trimEmpty lines)
  if result.isEmpty then result
  else if endsWith result py!"." then result
  else result ++ py!"."

/-- The characters that begin and end quoted text. -/
def isQuote (c : Char) : Bool := c == '\'' || c == '"'

/-- `_find_first_occurrence_that_is_not_between` (yaml_file_modifier.py:218-240): the loop, at index `i`. -/
def findOutsideFrom (x : Char) : Bool → Nat → Str → Option Nat
  | _, _, [] => none
  | between, i, c :: r =>
    if isQuote c then findOutsideFrom x (!between) (i + 1) r
    else if c = x ∧ between = false then some i
    else findOutsideFrom x between (i + 1) r

def findOutside (line : Str) (x : Char) : Option Nat := findOutsideFrom x false 0 line

/-- `_extract_side_comment` (yaml_file_modifier.py:152-171). -/
def sideComment (line : Str) : Str := match findOutside line '#' with
  | none => []
  | some 0 => []
  | some (i + 1) =>
    if line[i]? = some ' ' then
      let comment := strip (line.drop (i + 2))
      if comment ≠ [] ∧ endsWith comment py!"." = false then comment ++ py!"." else comment
    else []

/-- The comment in a line at a column: the text after `#` (yaml_file_modifier.py:205-206); `none` also when the line is too short
(the `IndexError` is suppressed). -/
def commentAt (col : Nat) (line : Str) : Option Str :=
  if line[col]? = some '#' then some (strip (line.drop (col + 1))) else none

/-- The lines looked at, in order (yaml_file_modifier.py:201-207): upwards, the negative indices after the first line are those of the
last lines. -/
def linesAbove (lines : List Str) (i : Nat) : List Str := (lines.take i).reverse ++ lines.reverse
def linesBelow (lines : List Str) (i : Nat) : List Str := lines.drop (i + 1)

/-- The comments in the first lines that have one at the column. -/
def commentRun (col : Nat) : List Str → List Str
  | [] => []
  | l :: r => match commentAt col l with
    | some t => t :: commentRun col r
    | none => []

/-- The column of the first character that matters (yaml_file_modifier.py:199). -/
def keyColumn (line : Str) : Except PyErr Nat := match strip (replace py!"-" [] (strip line)) with
  | [] => .error .index
  | c :: _ => .ok ((find [c] line).getD 0)

/-- `_extract_single_block_comment` (yaml_file_modifier.py:173-216) for `above` (`up`) or `below`. -/
def blockComment (U : Uni) (lines : List Str) (i : Nat) (up : Bool) : Except PyErr Str :=
  match lines[i]? with
  | none => .ok []
  | some line => match findOutside line ':' with
    | none => .ok []
    | some 0 => .ok []
    | some _ => match keyColumn line with
      | .error e => .error e
      | .ok col =>
        let found := if up then (commentRun col (linesAbove lines i)).reverse else commentRun col (linesBelow lines i)
        if found.isEmpty then .ok []
        else .ok (replace py!"\"\"\"" [] (replace py!"'''" [] (joinComments U found)))

/-- The key of a line whose dash has been blanked (yaml_file_modifier.py:255-265). -/
def keyIn (line : Str) : Except PyErr Str :=
  match strip line with
  | [] => .error .index
  | d :: _ =>
    let first := (find [d] line).getD 0
    match findOutside line ':' with
    | none => .ok []
    | some 0 => .ok []
    | some (last + 1) =>
      let key := (line.take (last + 1)).drop first
      if startsWith key py!"\"" && endsWith key py!"\"" then .ok (stripChar '"' key)
      else if startsWith key py!"'" && endsWith key py!"'" then .ok (stripChar '\'' key)
      else .ok key

/-- `_extract_key_from_line` (yaml_file_modifier.py:242-265). -/
def keyOfLine (line : Str) : Except PyErr Str :=
  match removeSpacing line with
  | [] => .error .index
  | c :: r => keyIn (if c = '-' then ' ' :: r else c :: r)

/-- `_detect_indentation` (yaml_file_modifier.py:267-290): tabs, spaces, or `none` for `"??"`. -/
def indentation (lines : List Str) : Option Bool :=
  let tabs := lines.any (·.contains '\t')
  let spaces := lines.any (·.contains ' ')
  if tabs && spaces then none else if tabs then some true else if spaces then some false else none

/-- `_count_spaces_or_tabs_at_start` (yaml_file_modifier.py:292-313). -/
def countIndent (tabs : Bool) (line : Str) : Option Nat :=
  if line.contains '-' && tabs then none
  else some ((replace py!"-" py!" " line).takeWhile (fun c => c == ' ' || c == '\t')).length

/-- The comment of a line for one position (yaml_file_modifier.py:343-347). -/
def commentFor (U : Uni) (lines : List Str) (i : Nat) (line : Str) : CommentsAre → Except PyErr Str
  | .above => (blockComment U lines i true).map (capFirst U)
  | .below => (blockComment U lines i false).map (capFirst U)
  | .side => .ok (sideComment line)

/-- The loop over the positions (yaml_file_modifier.py:342-360). -/
def commentsForLine (U : Uni) (lines : List Str) (mk : Str → Comment) (i : Nat) (line : Str) :
    List CommentsAre → Except PyErr (List Comment)
  | [] => .ok []
  | p :: ps => match commentFor U lines i line p with
    | .error e => .error e
    | .ok t => match commentsForLine U lines mk i line ps with
      | .error e => .error e
      | .ok cs => .ok (if t.isEmpty then cs else mk t :: cs)

/-- One turn of the loop over the lines (yaml_file_modifier.py:330-360). -/
def extractLine (U : Uni) (cs : List CommentsAre) (lines : List Str) (tabs : Bool) (i : Nat) (line : Str) :
    Except PyErr (List Comment) :=
  match removeSpacing line with
  | [] => .ok []
  | c :: _ =>
    if U.isAlpha c || c == '-' then
      match countIndent tabs line with
      | none => .ok []
      | some width => match keyOfLine line with
        | .error e => .error e
        | .ok key =>
          if key.isEmpty then .ok []
          else commentsForLine U lines (fun t => { text := t, key, line := i, tabs, width, dash := c == '-' }) i line cs
    else .ok []

/-- The loop over the lines, from index `i`; `all` is the document. -/
def extractFrom (U : Uni) (cs : List CommentsAre) (all : List Str) (tabs : Bool) : Nat → List Str → Except PyErr (List Comment)
  | _, [] => .ok []
  | i, line :: r => match extractLine U cs all tabs i line with
    | .error e => .error e
    | .ok a => (extractFrom U cs all tabs (i + 1) r).map (a ++ ·)

/-- `_merge_comments` (yaml_file_modifier.py:379-404), for a group of comments of one line. -/
def mergeGroup : List Comment → Option Comment
  | [] => none
  | c :: r => some { c with text := join py!"\n\n" ((c :: r).map (·.text)), dash := (c :: r).any (·.dash) }

def mergeComments (cs : List Comment) : List Comment :=
  (dedup (cs.map (·.line))).filterMap (fun l => mergeGroup (cs.filter (·.line = l)))

/-- `_extract_comments` (yaml_file_modifier.py:315-362). -/
def extractComments (U : Uni) (cs : List CommentsAre) (lines : List Str) : Except PyErr (List Comment) :=
  match indentation lines with
  | none => .ok []
  | some tabs => (extractFrom U cs lines tabs 0 lines).map mergeComments

/-- `_format_comment_as_multiline_yaml` (yaml_file_modifier.py:364-377). -/
def commentBlock (c : Comment) : Str :=
  join ('\n' :: List.replicate (c.width + 1) (indentChar c.tabs)) ([] :: splitlines c.text)

/-- One turn of the loop of `_create_temporary_string_with_comments_as_keys` (yaml_file_modifier.py:411-416). -/
def injectOne (new : List Str) (c : Comment) : Except PyErr (List Str) :=
  match c.spacing with
  | .error e => .error e
  | .ok sp =>
    let text := sp ++ yamlPrefix ++ c.key ++ py!": |" ++ commentBlock c
    let new := if c.dash then new.modify c.line (replaceFirstChar '-' ' ') else new
    .ok (addLine new c.line text)

def injectAll : List Str → List Comment → Except PyErr (List Str)
  | new, [] => .ok new
  | new, c :: r => match injectOne new c with
    | .error e => .error e
    | .ok new => injectAll new r

/-- `_create_temporary_string_with_comments_as_keys` (yaml_file_modifier.py:406-417). -/
def withHiddenKeys (U : Uni) (cs : List CommentsAre) (lines : List Str) : Except PyErr Str :=
  match extractComments U cs lines with
  | .error e => .error e
  | .ok comments => (injectAll lines (sortBy (fun a b => decide (b.line ≤ a.line)) comments)).map (join py!"\n")

end Verif
