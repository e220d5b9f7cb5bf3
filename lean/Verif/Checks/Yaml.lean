import Verif.Model.Yaml
/-
Expected values of the repository's unit tests for the YAML editor
(tests/test_file_modifiers/test_yaml_file_modifier/test_yaml_file_modifier.py), evaluated in the model. These are tests of the
reading of the code, not proofs of properties.
-/
namespace Verif.Checks
open Verif

deriving instance DecidableEq for Comment

/-- The outcome is a value, and this one. -/
def isOk (x : Except PyErr (List Comment)) (y : List Comment) : Bool :=
  match x with
  | .ok v => v == y
  | .error _ => false

example : joinComments asciiUni [py!"This is a", py!" comment"] = py!"This is a comment." := by decide +kernel
example : joinComments asciiUni [py!"This is a.", py!" comment"] = py!"This is a. Comment." := by decide +kernel
example : joinComments asciiUni [py!"This is a.", py!"comment"] = py!"This is a. Comment." := by decide +kernel
example : joinComments asciiUni [py!"This is a comment", py!"This is another"] = py!"This is a comment. This is another." := by decide +kernel
example : joinComments asciiUni [py!"This is a comment ", py!"This is another"] = py!"This is a comment. This is another." := by decide +kernel
example : joinComments asciiUni [py!"This is a comment.", py!"This is another"] = py!"This is a comment. This is another." := by decide +kernel
example : joinComments asciiUni [py!"", py!""] = py!"" := by decide +kernel
example : joinComments asciiUni [py!"", py!"This is a comment"] = py!"This is a comment." := by decide +kernel
example : joinComments asciiUni [py!"This is a comment", py!""] = py!"This is a comment." := by decide +kernel
example : joinComments asciiUni [py!"This is a comment.", py!"", py!"This is another"] = py!"This is a comment.\n\nThis is another." := by decide +kernel
example : joinComments asciiUni [py!"This is a comment.", py!"", py!"this is another"] = py!"This is a comment.\n\nThis is another." := by decide +kernel
example : joinComments asciiUni [] = py!"" := by decide +kernel
example : sideComment py!"key: text# comment" = py!"" := by decide +kernel
example : sideComment py!"key: text #" = py!"" := by decide +kernel
example : sideComment py!"key: text # " = py!"" := by decide +kernel
example : sideComment py!"key: text #  " = py!"" := by decide +kernel
example : sideComment py!"key: text # comment" = py!"comment." := by decide +kernel
example : sideComment py!"key: text # Comment" = py!"Comment." := by decide +kernel
example : sideComment py!"key: text #  Comment" = py!"Comment." := by decide +kernel
example : sideComment py!"key: text #Comment" = py!"Comment." := by decide +kernel
example : sideComment py!"key: text # comment\n" = py!"comment." := by decide +kernel
example : sideComment py!"key: '#' # comment" = py!"comment." := by decide +kernel
example : sideComment py!"key: '#\" # comment" = py!"comment." := by decide +kernel
example : sideComment py!"key: \"#\" # comment" = py!"comment." := by decide +kernel
example : sideComment py!"key: \"#\"" = py!"" := by decide +kernel
example : sideComment py!"key: text" = py!"" := by decide +kernel
example : keyOfLine py!"    key: text" = .ok py!"key" := by decide +kernel
example : keyOfLine py!"\tkey: text" = .ok py!"key" := by decide +kernel
example : keyOfLine py!"key: text" = .ok py!"key" := by decide +kernel
example : keyOfLine py!"    - key: text" = .ok py!"key" := by decide +kernel
example : keyOfLine py!"\t- key: text" = .ok py!"key" := by decide +kernel
example : keyOfLine py!"- key: text" = .ok py!"key" := by decide +kernel
example : keyOfLine py!"    -key: text" = .ok py!"key" := by decide +kernel
example : keyOfLine py!"\t-key: text" = .ok py!"key" := by decide +kernel
example : keyOfLine py!"-key: text" = .ok py!"key" := by decide +kernel
example : keyOfLine py!"    -'key': text" = .ok py!"key" := by decide +kernel
example : keyOfLine py!"\t-'key': text" = .ok py!"key" := by decide +kernel
example : keyOfLine py!"-'key': text" = .ok py!"key" := by decide +kernel
example : keyOfLine py!"    - 'key': text" = .ok py!"key" := by decide +kernel
example : keyOfLine py!"\t- 'key': text" = .ok py!"key" := by decide +kernel
example : keyOfLine py!"- 'key': text" = .ok py!"key" := by decide +kernel
example : keyOfLine py!"    \"key\": text" = .ok py!"key" := by decide +kernel
example : keyOfLine py!"\t\"key\": text" = .ok py!"key" := by decide +kernel
example : keyOfLine py!"\"key\": text" = .ok py!"key" := by decide +kernel
example : keyOfLine py!"    key_1: text" = .ok py!"key_1" := by decide +kernel
example : keyOfLine py!"\tkey_1: text" = .ok py!"key_1" := by decide +kernel
example : keyOfLine py!"key_1: text" = .ok py!"key_1" := by decide +kernel
example : keyOfLine py!"    key 1: text" = .ok py!"key 1" := by decide +kernel
example : keyOfLine py!"\tkey 1: text" = .ok py!"key 1" := by decide +kernel
example : keyOfLine py!"key 1: text" = .ok py!"key 1" := by decide +kernel
example : keyOfLine py!"    \"key:1\": text" = .ok py!"key:1" := by decide +kernel
example : keyOfLine py!"\t\"key:1\": text" = .ok py!"key:1" := by decide +kernel
example : keyOfLine py!"\"key:1\": text" = .ok py!"key:1" := by decide +kernel
example : keyOfLine py!"    \"key1\" text" = .ok py!"" := by decide +kernel
example : keyOfLine py!"\t\"key1\" text" = .ok py!"" := by decide +kernel
example : keyOfLine py!"\"key1\" text" = .ok py!"" := by decide +kernel
example : findOutside py!"key: text" 'j' = none := by decide +kernel
example : findOutside py!"key: text" ' ' = some 4 := by decide +kernel
example : findOutside py!"key: text:" ':' = some 3 := by decide +kernel
example : findOutside py!"key':' text:" ':' = some 11 := by decide +kernel
example : findOutside py!"key\":\" text:" ':' = some 11 := by decide +kernel
example : countIndent false py!"key: text" = some 0 := by decide +kernel
example : countIndent false py!" key: text" = some 1 := by decide +kernel
example : countIndent false py!"  key: text" = some 2 := by decide +kernel
example : countIndent false py!"   key: text" = some 3 := by decide +kernel
example : countIndent true py!"\tkey: text" = some 1 := by decide +kernel
example : countIndent true py!"\t\tkey: text" = some 2 := by decide +kernel
example : countIndent true py!"\t\t\tkey: text" = some 3 := by decide +kernel
example : countIndent false py!"-key: text" = some 1 := by decide +kernel
example : countIndent false py!"- key: text" = some 2 := by decide +kernel
example : countIndent false py!" - key: text" = some 3 := by decide +kernel
example : blockComment asciiUni (splitlines py!"# This is a single comment\nkey: comment") 1 true = .ok py!"This is a single comment." := by decide +kernel
example : blockComment asciiUni (splitlines py!"  # This is a single comment\n  key: comment") 1 true = .ok py!"This is a single comment." := by decide +kernel
example : blockComment asciiUni (splitlines py!"# This is another comment.\n# This is a single comment.\nkey: comment") 2 true = .ok py!"This is another comment. This is a single comment." := by decide +kernel
example : blockComment asciiUni (splitlines py!"key2: value\n    # This is another comment.\n# This is a single comment.\nkey: comment") 3 true = .ok py!"This is a single comment." := by decide +kernel
example : blockComment asciiUni (splitlines py!"key2: value\n# This is another comment.\n # This is a single comment.\nkey: comment") 3 true = .ok py!"" := by decide +kernel
example : blockComment asciiUni (splitlines py!"key2: comment\nkey: comment") 1 true = .ok py!"" := by decide +kernel
example : blockComment asciiUni (splitlines py!"key: comment\n# My comment") 0 false = .ok py!"My comment." := by decide +kernel
example : blockComment asciiUni (splitlines py!"key: comment\n# This is a single comment\n# This is another comment") 0 false = .ok py!"This is a single comment. This is another comment." := by decide +kernel
example : blockComment asciiUni (splitlines py!"key: comment\n# This is a comment\n# that finishes in another line.") 0 false = .ok py!"This is a comment that finishes in another line." := by decide +kernel
example : blockComment asciiUni (splitlines py!"'key': comment\n# This is a comment") 0 false = .ok py!"This is a comment." := by decide +kernel
example : blockComment asciiUni (splitlines py!"\"key\": comment\n# This is a comment") 0 false = .ok py!"This is a comment." := by decide +kernel
example : blockComment asciiUni (splitlines py!"key2: value\n# This is another comment.\n    # This is a single comment.\nkey: comment") 0 false = .ok py!"This is another comment." := by decide +kernel
example : blockComment asciiUni (splitlines py!"key2: value\n # This is another comment.\n# This is a single comment.\nkey: comment") 0 false = .ok py!"" := by decide +kernel
example : blockComment asciiUni (splitlines py!"key2: value\n# This is another comment.\n#\n# This is a single comment.\nkey: comment") 0 false = .ok py!"This is another comment.\n\nThis is a single comment." := by decide +kernel
example : blockComment asciiUni (splitlines py!"key2: value\n# This is another comment.\n# \n# This is a single comment.\nkey: comment") 0 false = .ok py!"This is another comment.\n\nThis is a single comment." := by decide +kernel
example : blockComment asciiUni (splitlines py!"key2: comment\nkey: comment") 0 false = .ok py!"" := by decide +kernel
example : blockComment asciiUni (splitlines py!"key2: comment\nkey: comment") 1 false = .ok py!"" := by decide +kernel
example : blockComment asciiUni (splitlines py!"key2: comment\nkey: comment") 2 false = .ok py!"" := by decide +kernel
example : blockComment asciiUni (splitlines py!"- key: comment\n  # This is a comment\n") 0 false = .ok py!"This is a comment." := by decide +kernel
example : blockComment asciiUni (splitlines py!"- key: comment\n  key2: comment\n  # This is a comment\n") 1 false = .ok py!"This is a comment." := by decide +kernel
example : blockComment asciiUni (splitlines py!"- key\n  # This is a comment\n") 0 false = .ok py!"" := by decide +kernel
example : blockComment asciiUni (splitlines py!"- 'key':\n  # This is a comment\n") 0 false = .ok py!"This is a comment." := by decide +kernel
example : isOk (extractComments asciiUni [.above] (splitlines py!"---\n# doc for level1\nlevel1:\n  # doc for key1\n  key1: value1\n# non valid doc for key2\n  key2: value2\n  # multi line\n  # comment for level2\n  level2:\n    # This is key3\n    #\n    # It is just an example\n    key3: value3\n    key4: value4\n    level3:\n       # non valid doc for key5\n      key5: value5\n      key6: value6")) [{ text := py!"Doc for level1.", key := py!"level1", line := 2, tabs := false, width := 0, dash := false }, { text := py!"Doc for key1.", key := py!"key1", line := 4, tabs := false, width := 2, dash := false }, { text := py!"Multi line comment for level2.", key := py!"level2", line := 9, tabs := false, width := 2, dash := false }, { text := py!"This is key3\n\nIt is just an example.", key := py!"key3", line := 13, tabs := false, width := 4, dash := false }] := by decide +kernel
example : isOk (extractComments asciiUni [.below] (splitlines py!"---\nlevel1:\n# doc for level1\n  key1: value1\n  # doc for key1\n  key2: value2\n# non valid doc for key2\n  level2:\n  # multi line\n  # comment for level2\n    key3: value3\n    # This is key3\n    #\n    # It is just an example\n    key4: value4\n    level3:\n      key5: value5\n       # non valid doc for key5\n      key6: value6")) [{ text := py!"Doc for level1.", key := py!"level1", line := 1, tabs := false, width := 0, dash := false }, { text := py!"Doc for key1.", key := py!"key1", line := 3, tabs := false, width := 2, dash := false }, { text := py!"Multi line comment for level2.", key := py!"level2", line := 7, tabs := false, width := 2, dash := false }, { text := py!"This is key3\n\nIt is just an example.", key := py!"key3", line := 10, tabs := false, width := 4, dash := false }] := by decide +kernel
example : isOk (extractComments asciiUni [.side] (splitlines py!"---\nlevel1: # doc for level1\n  key1: value1 # doc for key1\n  key2: value2# non valid doc for key2\n  level2: # comment for level2\n    key3: value3  # comment for key3\n    key4: value4\n    level3:\n      key5: value5\"# non valid comment\"\n      key6: value6")) [{ text := py!"doc for level1.", key := py!"level1", line := 1, tabs := false, width := 0, dash := false }, { text := py!"doc for key1.", key := py!"key1", line := 2, tabs := false, width := 2, dash := false }, { text := py!"comment for level2.", key := py!"level2", line := 4, tabs := false, width := 2, dash := false }, { text := py!"comment for key3.", key := py!"key3", line := 5, tabs := false, width := 4, dash := false }] := by decide +kernel
example : isOk (extractComments asciiUni [.above] (splitlines py!"---\n# Comment for level1\nlevel1:\n  # Comment for list1\n  list1:\n    - item1\n    - item2\n    - item3\n  list2:\n    # Non valid comment for subitem1\n    - subitem1:  # Comment for subitem1\n        # Comment for subkey1\n        subkey1: subvalue1  # [mm]\n      # Comment not valid for subkey1\n        subkey2: subvalue2#Not a comment\n    - subitem2:\n        subkey3: subvalue3\n        subkey4: subvalue4\n")) [{ text := py!"Comment for level1.", key := py!"level1", line := 2, tabs := false, width := 0, dash := false }, { text := py!"Comment for list1.", key := py!"list1", line := 4, tabs := false, width := 2, dash := false }, { text := py!"Comment for subkey1.", key := py!"subkey1", line := 12, tabs := false, width := 8, dash := false }] := by decide +kernel
example : isOk (extractComments asciiUni [.above, .side] (splitlines py!"  # First comment\n- names:  # Side comment\n  - name: Juan\n    age: 18\n  - name: Juan\n    age: 18")) [{ text := py!"First comment.\n\nSide comment.", key := py!"names", line := 1, tabs := false, width := 2, dash := true }] := by decide +kernel
example : capFirst asciiUni py!"" = py!"" := by decide +kernel
example : capFirst asciiUni py!" " = py!" " := by decide +kernel
example : capFirst asciiUni py!"hey" = py!"Hey" := by decide +kernel
example : capFirst asciiUni py!"Hey" = py!"Hey" := by decide +kernel
example : capFirst asciiUni py!"Hey Joan" = py!"Hey Joan" := by decide +kernel
example : capFirst asciiUni py!"Hey joan" = py!"Hey joan" := by decide +kernel
example : removeSpacing py!"    This is a line" = py!"This is a line" := by decide +kernel
example : removeSpacing py!"        This is a line" = py!"This is a line" := by decide +kernel
example : removeSpacing py!"\tThis is a line" = py!"This is a line" := by decide +kernel
example : removeSpacing py!"\t\tThis is a line" = py!"This is a line" := by decide +kernel
example : mergeComments [{ text := py!"Comment for key1.", key := py!"key1", line := 2, tabs := false, width := 0, dash := true }, { text := py!"Comment 2 for key1.", key := py!"key1", line := 2, tabs := false, width := 0, dash := false }] = [{ text := py!"Comment for key1.\n\nComment 2 for key1.", key := py!"key1", line := 2, tabs := false, width := 0, dash := true }] := by decide +kernel
example : mergeComments [{ text := py!"Comment for key1.", key := py!"key1", line := 2, tabs := false, width := 0, dash := false }, { text := py!"Comment 2 for key1.", key := py!"key1", line := 2, tabs := false, width := 0, dash := false }] = [{ text := py!"Comment for key1.\n\nComment 2 for key1.", key := py!"key1", line := 2, tabs := false, width := 0, dash := false }] := by decide +kernel
example : mergeComments [{ text := py!"Comment for key1.", key := py!"key1", line := 2, tabs := false, width := 0, dash := false }, { text := py!"Comment 2 for key1.", key := py!"key1", line := 2, tabs := false, width := 0, dash := false }, { text := py!"Comment for key2.", key := py!"key2", line := 3, tabs := false, width := 2, dash := false }] = [{ text := py!"Comment for key1.\n\nComment 2 for key1.", key := py!"key1", line := 2, tabs := false, width := 0, dash := false }, { text := py!"Comment for key2.", key := py!"key2", line := 3, tabs := false, width := 2, dash := false }] := by decide +kernel
example : mergeComments [{ text := py!"Comment for key1.", key := py!"key1", line := 2, tabs := false, width := 0, dash := false }, { text := py!"Comment 2 for key1.", key := py!"key1", line := 2, tabs := false, width := 0, dash := false }, { text := py!"Comment for key2.", key := py!"key2", line := 3, tabs := false, width := 2, dash := false }, { text := py!"Comment 2 for key2.", key := py!"key2", line := 3, tabs := false, width := 2, dash := false }] = [{ text := py!"Comment for key1.\n\nComment 2 for key1.", key := py!"key1", line := 2, tabs := false, width := 0, dash := false }, { text := py!"Comment for key2.\n\nComment 2 for key2.", key := py!"key2", line := 3, tabs := false, width := 2, dash := false }] := by decide +kernel

end Verif.Checks
