# Design

Formal model in Lean 4 of `lazy_type_hint` (repository mflova/dynamic_pyi_generator, read as text from
/repo). Properties are listed in `properties.jsonl`, the status of each in `MANIFEST.json`.

## Method

Shallow model: every Python function is a total, computable Lean function, written branch by branch, with
exceptions as values (`Except`). The properties are theorems about these functions, for all inputs. Where the
English property is false of the code, the negation is proved with a concrete witness and a weaker `_partial`
theorem keeps what is true.

Layout of `lean/Verif/`:

* `Py/` – Python primitives used by the code (strings as lists of characters, `split`, `join`, `strip`,
  `splitlines`, decimal numbers, sorting by code point, IEEE-754 doubles for one division).
* `Model/` – the code. Every definition cites file and lines in /repo and states its simplifications.
* `Spec/` – small specifications that do not use the model (type-expression syntax with printer and meaning,
  reference definitions of "words", "first occurrence", ...).
* `Lemmas/` – helper lemmas.
* `Props/` – the property theorems only, grouped by area, each with an `example` that a concrete non-trivial
  case meets its hypotheses.

## Modelling decisions

* `Str := List Char` (code points), so that the kernel can compute with literals.
* Python facts that depend on the interpreter are parameters of the model, with the laws used stated as fields:
  Unicode tables (`isalpha`, `isnumeric`, `upper`, ...), names of builtin classes, the `repr` of strings (of strings of
  letters, digits, underscores and spaces: the string in single quotes), and the iteration order of Python sets (an arbitrary
  permutation). Theorems quantify over these parameters.
* Input data is a finite inductive type of values (instances, functions, classes, modules, arrays, sequences,
  mappings, frames). Cyclic data is outside the model (the code does not terminate on it).
  Values of kind frame hold the labels the generator visits; how these come from the columns is modelled separately (C81, C82).
* Objects shared between several slots of a mapping or tuple: each slot holds a copy with the number of visited
  slots that share it, so that in-place renaming (which happens once per visited slot) has the same effect.
* Structural hashes are modelled as the hashed structure itself, i.e. Python's `hash` is taken to be
  collision-free. This is in the trusted base.
* The recursion of tree construction is by fuel because merging rebuilds a tree from merged data; a theorem
  shows that fuel `depth + 1` always suffices, so it is not a hidden bound.
* Files: the live generator is a state machine over (stub text, class sources), with one step per write so that
  a crash may happen between any two writes.

## Plan per property

| id | modelled by | proof |
|----|-------------|-------|
| C01 | `Model/OrderedSet` | induction over operations |
| C02, C03 | `Model/Names` | case analysis; C03 false (keywords), witness + partial |
| C04 | `Model/TreeObject` (state = cached strings and file system, ops = `to_string(include_imports)` and `to_file(path, create_if_not_exists)`), `Model/Cache` (a cached getter in general); `Spec/TreeCalls` (each call answers to its own arguments) | false for every hint, witness histories (`tree_calls_fails`, `tree_calls_fails_file`); partial for histories whose calls all ask for the same; `tree_calls_iff` says exactly which histories of `to_string` work |
| C05–C09 | `Model/Imports` | sortedness uniqueness, permutation invariance, table lookup |
| C10–C12, C85 | `Model/Docstring`; greedy filling in `Spec/Fill` | induction over words and lines; C12 false for texts with quotes, C11 for the whole docstring |
| C13 | `Model/Strategies` | case analysis |
| C14, C15 | `Model/Names` | induction over characters; C14 on the tree model |
| C16 | `Model/Tree` | fuel sufficiency, then induction; false for functions without source text |
| C17 | `Model/Dispatch` | case analysis over the ordered table; false for open files |
| C18–C20 | `Model/Tree`, `Spec/TypeExpr` | refinement to printed declarations, then induction; negative witnesses |
| C21–C24 | `Spec/Meaning`, `Spec/Coherent` | soundness on an explicit fragment, by an invariant that says which values a node describes (`Lemmas/Holds`) and that construction, comparison, updating, merging and renaming keep; negative witnesses for the rest |
| C25, C26 | `Model/Tree` | permutation invariance; C26 false in general; for data in which the elements of a sequence that need a declaration are alike (`Spec/Steady`) by a simulation between the trees of two iteration orders |
| C27–C29 | `Model/Dict` | list induction; C29 false (escaping) |
| C30–C32 | `Model/Dict`, `Spec/Mixed` | induction over the merged family, also among other values (`Lemmas/MergeMixed`); C31, C32 have negative witnesses (nested types, rounding) |
| C33–C36 | `Model/Tree`, `Spec/Levels` | structural induction; C33 false in general; for C35 and C36 the levels counted in the text are shown to be the heights of the nodes |
| C37 | `Model/Tree` | structural induction on rendered expressions; false in general |
| C38, C39 | `Model/Layout` | list induction; C39 false for alias declarations |
| C40 | `Model/Imports` (regular expressions written as scanners) | false, witness; partial |
| C41, C42 | `Model/Tree` | witness + partial |
| C43 | `Model/ToFile` (file system as a function from paths to entries) | case analysis over file-system states; success in all other cases is false, witness |
| C44–C51 | `Model/Live`, `Model/PyFile` | refinement of `Spec/Live` (a list of classes with their texts) over all histories of events; crash points as prefixes of the write sequence; C47, C49, C50 and the YAML part of C51 false, witnesses |
| C52, C53 | `Model/PyFile` | string induction |
| C54–C59 | `Model/Yaml`, `Model/YamlLoad` | induction over lines and characters to the relation `Becomes` of `Spec/Yaml`; C54 (quotation marks), C56, C57 false, witnesses |
| C60 | `Model/YamlLoad` (`Temp`: schedules of writes and loads) | induction over schedules; false for equal file names, witness |
| C61, C62 | `Model/Ast` | mutual structural induction to `essence` of `Spec/Ast`; C62 false, witness |
| C63 | `Model/Mypy` (the output of the checker is an argument) | induction over the errors in the output; false, witnesses |
| C64–C66 | `Model/CheckCode` (results of the tools are arguments) | permutation invariance, list induction; C65, C66 false, witnesses |
| C67, C68 | `Model/Render` (`funcTop`), `Model/HasReturn`; what calls a parameter list accepts and which bodies give a value in `Spec/Calls` | case analysis, induction over bodies; false for all functions without `*args`; generators, equal signatures: witnesses |
| C69, C70 | `Model/Render` (`frameTop`), expected text in `Spec/Frames` | list induction over the columns; C69 witness; C70 false for all frames with literal labels |
| C71 | `Model/Tree`, `Model/Render`; `Spec/Quoted` | invariant of construction, structural induction; false for all classes that are not builtin |
| C72 | `Model/Render`, `Model/Imports`; words of a text in `Spec/Lexemes` | invariant of every node: what it imports is a word of its own text or of a parent; false for inline collections and for annotations such as `list`, witnesses |
| C73 | `Model/Render`; words of a text in `Spec/Lexemes`, references in `Spec/Refers` | invariant of every node: its body mentions every child that is declared, by induction on the tree; false for class names not in camel case and for frames with tuples and other labels, witnesses |
| C74 | `Model/PyFile` (`removePrivate`); files as pieces in `Spec/PyFiles` | induction over the pieces: the indices collected are those of the lines of private methods; false for lines directly below and for blank lines in bodies, witnesses |
| C75–C77 | `Model/PyFile` (`addImports`, `searchMethod`, `getSignature`); `Spec/PyFiles` | list induction; false for comments, longer names, annotated parameters, decorators with arguments, witnesses |
| C78 | `Model/Generator` (`inheritStrings`) | reduction to the proof for renaming; false for aliases, witness and exact text |
| C79 | `Model/Ast` (`clearBodies`); `Spec/Ast` | structural induction; false for `async` functions, witness |
| C80 | `Spec/Grammar` (the part of Python's grammar stubs are written in, as predicates on texts), `Spec/Written` (data that can be written down); text of C38 | invariant of construction (names, keys, documentation), induction over the tree: every reference is an expression and every declaration a module; import block by C06; false for keywords as class names, for `_1a` and for frames with tuples and other labels, witnesses |
| C81, C82 | `Model/Frames`, `Model/Tables` (columns and levels of labels, indexing as in pandas, recursion with a limit); `Spec/Tables` | list induction, induction over the levels; C81 false for other labels; C82 false for all frames with repeated labels: induction over the limit |
| C83 | `Model/Recursion` (construction with a limited number of nested levels), `Spec/Recursion` (levels that are looked at; memory with references) | a result other than the lack of recursion is final (order on results); induction over the limit; endless paths by dependent choice |
| C86 | `Model/PyFile` (`searchDecorator`); `Spec/PyFiles` | the search for methods of C76; false for several decorators, witness |
| C87, C88 | `Model/Tree`; `Spec/Comments` (data and trees without comments), `Spec/InnerDicts`, `Spec/InnerRows` (dictionaries, and lists of them, found by following keys) | commutation of construction with dropping comments, relation between the two outputs declaration by declaration; for lists an invariant of the loop over the elements (every node knows the keys of its dictionaries, and only those); witnesses for the limit, comments without a key, functional syntax |
| C89 | `Model/Tree`; `Spec/Inspected` (data cut to the limit at every level) | construction commutes with cutting (the trees differ only in the values that dictionaries keep); these values never reach the text |
| C90 | as C21; `Spec/Matches` (values of the same shape) | the meaning of a tree (`Means`): what the declarations admit has the meaning of the tree, by induction over trees; the meaning of the tree built for a coherent value is that of the value, along with the invariant used for C21 |
| C91 | `Model/Tree`; `Spec/Distinct` (equality up to the contents of strings; data without repeated elements) | `Lemmas/Prefixed`: construction under a name that begins with `p` is construction without `p`, with `p` put in front of all names, so equal values get trees that differ only in names and texts; an element that was met leaves the children as they are when it is met again (updating metadata twice is updating them once), and this stays so |
| C92 | `Model/Tree`, `Model/Render`, `Model/Generator`; `Spec/Prefixed` (the tree with a word put in front of all names) | `Lemmas/Prefixed` (as for C91) under both names, where the test of names gives the same answers; heights, permissions and failures of rendering do not look at names; for the values, the hint of a tree admits exactly the values its nodes stand for (`means_admits`, the converse of what C90 uses), which do not depend on names |
| C93 | `Model/Tree`, `Model/Render`, `Model/Generator`; `Spec/Unmerged` (data in which no different dictionaries are merged) | the simulation of C26, now with children in any order (`Lemmas/Sim`, `Lemmas/SimRender`), and that too few common fields prevent merging under every order (`Lemmas/Unmerged`); what a hint admits does not depend on the order of its declarations; false with merging |
| C94 | `Model/Reads` (construction with the state of every iterator); `Spec/Reads` (visited values, data in which no iterator can be read twice) | construction with the state agrees with construction without it, by induction over the data (`Lemmas/Reads`); merging a single dictionary gives its hint again; witnesses for iterators that are read twice |
| C95 | as C92; `Spec/Settings` (settings that agree on the structure) | construction reads only the settings on the structure, function by function (`Lemmas/Settings`); the meaning of a tree (as for C90 and C92) grows with the containers, by induction; for the setting for tuples, what the hint of a tuple of leaves admits (C90) is compared with what the tree under the other setting stands for |
| C96 | `Model/LiveSteps`: a call as a sequence of steps on the shared disk, any interleaving of any number of calls; `Spec/Together`; `Model/Pieces`: one file, written in pieces at the offsets of several calls | the steps of one call refine to the call of `Model/Live`; simulation of a disturbed by an undisturbed run; invariants over all schedules for the files of classes and the stub (`Lemmas/LiveSteps`); three negations by concrete schedules; for pieces: what the call that opened the file last has written so far is there |
| C97 | `Model/Later`: the tree object at a later time, with other contents of the objects it refers to; `Spec/Snapshot` (harmless changes) | rendering reads the objects only at the places listed in `Model/Later`; induction over the tree and over the history of calls; negations by concrete changes |
| C98 | `Model/Tree`, `Spec/Types`, `Spec/Growing` | children without TypedDicts of the shorter sequence are children of the longer one (induction over the elements, with the invariant of C21), and more children stand for more values; negations by concrete lists |
| C99 | `Model/Encoded`: the live generator on files of bytes, UTF-8, locales, line ends; `Spec/Encoded` | UTF-8 decodes what it encodes (arithmetic on code points); a simulation between files of bytes and files of text over the whole history, with the exact form of the stub for its characters; negations by concrete histories |
| C100 | `Model/Tree`, `Model/Render`, `Spec/Rows` | the children of the tree (C30) and what a tree stands for (C90) give the keys; soundness for the rows (C21) gives the classes, since a type that admits an instance admits its class; negations by concrete rows |
| C101 | `Model/Yaml`, `Model/YamlLoad`; `Spec/YamlData`: YAML documents by how they are written, with their data; `Spec/YamlInner`: mappings inside mappings; `Spec/YamlRows`: lists of mappings with the lines of their keys | induction over documents: what becomes of the lines (C) is a document again; its data without hidden keys is that of the file, so C87, C88 and C21 apply; the loader is a hypothesis on two files |
| C102 | `Model/PushHook`: command line, hook file, `git push` | invariant over sequences of calls: the hook file is there exactly if checks are on; negations by concrete calls |
| C103 | `Model/ResetSteps`: the steps of a call and of any number of resets on one disk | invariant over all schedules for the files and the stub; simulation by the call alone while the directory stays; negations by concrete schedules (`Lemmas/ResetSteps`) |
| C104 | `Model/Outline`: `print_all_children` and `__repr__` | induction over trees; an independent reader that goes by indentation reads back the tree |
| C84 | `Model/Iter` (`__iter__`/`__next__` with one shared position per tree; loops with arbitrary bodies) | induction over the remaining children; negations for every tree with two children |

Not expressible here: running time, memory, mypy's own behaviour, the behaviour of user-supplied loaders
(they are arbitrary functions in the model), `ast.parse`/`ast.unparse` (the initial stub text is a constant,
`unparsedModule`).

## What is modelled

| file in /repo/lazy_type_hint | model |
|------|-------|
| `utils/ordered_set.py`, `utils/utils.py` (name test, cache) | `Model/OrderedSet`, `Model/Names`, `Model/Cache` |
| `utils/import_manager.py` | `Model/Imports`, `Model/Signature` |
| `utils/docstring_formatter.py` | `Model/Docstring` |
| `strategies.py` | `Model/Strategies` |
| `data_type_tree/factory.py`, `data_type_tree.py` (choice of the tree class) | `Model/Dispatch` |
| `data_type_tree/**` (construction, hashing, merging, renaming) | `Model/Tree`, `Model/Loop`, `Model/Val`; with the state of iterators `Model/Reads` |
| `function_data_type_tree.py` (`_has_return`; signatures as printed by `inspect`) | `Model/HasReturn` |
| `data_type_tree/**` (text of declarations, imports, layout, `rename_declaration`, `print_all_children`) | `Model/Render`, `Model/Generator`, `Model/Outline` |
| `generators/lazy_type_hint.py`, `generators/lazy_type_hint_abc.py` | `Model/Generator`, `Model/ToFile`, `Model/TreeObject`, `Model/Later`, `Model/YamlLoad` |
| `generators/lazy_type_hint_live.py` | `Model/Live`, `Model/YamlLoad`, `Model/LiveSteps` (steps of calls at the same time), `Model/ResetSteps` (... and resets), `Model/Encoded` (files of bytes) |
| `file_modifiers/py_file_modifier.py` | `Model/PyFile` |
| `file_modifiers/yaml_file_modifier.py` | `Model/Yaml` |
| `utils/utils.py` (`compare_ast`), `utils/mypy.py` (what is made of the output) | `Model/Ast`, `Model/Mypy` |
| `/repo/check_code.py` (options, selection of tools, status, printed lines, exit status, hook) | `Model/CheckCode`, `Model/PushHook` |

Not modelled: parsing and printing of syntax trees (`ast`; `remove_all_method_bodies` is modelled on trees, its printed
result on the one file it is applied to is the constant `unparsedModule`), `check_if_command_available`, starting mypy and
the other tools, `argparse`, the `mypy` daemon and colours of `check_code.py`, `Tree` in
`lazy_type_hint_abc.py` (unused), encodings of YAML files, file permissions, links and full disks.

## Simplifications

* Values are finite trees; each model definition says in its comment what it leaves out.
* Text files are read back as written, except in C99 (`Model/Encoded`), which says when this agrees with files of bytes. YAML files are
  read and written in the encoding of the locale.
* In `Model/Tree` a one-shot iterator is the list of its elements, however often it is read; the code consumes it. Model and code
  differ for iterators in dictionaries in sequences and for one iterator at several places. C94 (`Model/Reads`) says when they agree.
* `aboveDecorators`: for a method in the first line the code looks at the last line; here the walk ends.
* Removing the directory `build` is one step.

## Trusted base

Lean's kernel; axioms `propext`, `Classical.choice`, `Quot.sound` at most (checked with `#print axioms` for every
theorem of the manifest); the reading of the Python code (each model definition cites its source);
collision-freedom of `hash` on structural keys; the laws of `Uni` (Unicode tables), each stated as a field and
satisfied by the ASCII table and by a second, non-ASCII table: among them that characters which are alphanumeric are
not white space, and that upper-casing a character that is not white space gives visible characters. 

The reading of the code was compared with the repository's own unit tests. Their inputs and expected values were
transcribed (the test files were read as text, never run) and evaluated in the model; all agree. The modules are
`Verif/Checks/Trees.lean` (sets, sequences, iterators, mappings, dictionaries: printed text, heights, documentation,
merging, hidden keys, functional syntax, hashes, renaming), `Verif/Checks/Editor.lean` (frames, series, functions, the
other classes of values, import manager, docstring formatter, keyword check, ordered set, cache, editor of stub files)
`Verif/Checks/Readme.lean` (the examples of the README) and `Verif/Checks/Yaml.lean` (the YAML editor, 112 values). These modules are tests of the reading, not proofs, and no
claim rests on them. Not transcribed: tests that need a YAML loader, a type checker or pandas itself, constructor
tests and `remove_all_method_bodies` (modelled on syntax trees, not on text). The code was never run.

## Findings

Differences between the code and the properties, or surprising behaviour found while modelling. For those with a
property number, see the `_fails` theorems and notes of that property in the manifest. The others were found by reading
and are not stated as theorems.

Trees and text
* Python keywords are accepted as class names (C03). Class names not in camel case are declared as given but
  referenced in camel case (C18).
* For the class name `_1a` the class of a nested dictionary is declared as `_1aK`, but its parent refers to it as `1aK`, which is
  not Python; for a frame with tuples and other labels that gets no alias a
  class is printed inside of a type (C80).
* Functions without source text or without a signature that can be inspected make the generation raise (C16).
* Keys with letters whose upper case contains a combining mark give invalid names (C14).
* A class name that is used in its own hint, such as `int`, shadows it (C22). The empty tuple becomes `Tuple[Any, ...]` (C24).
* One more example can narrow a hint: `[{a, b, c}, {a, b, d}]` admits `{a, b}`, with `{e}` added it does not, because nothing is merged
  any more; `[]` admits more than `[1]` (C98).
* The documentation of a dictionary and the labels of a frame are read when the text is made, not when `from_data` is called. If they
  are changed in between the text describes neither the old nor the new data (C97).
* `dict` as strategy for dictionaries is not more general than `TypedDict`: merged TypedDicts admit combinations of keys that no
  alternative of the other hint admits (C95, `typed_dict_general_fails`).
* `print_all_children(recursive=False)` prints everything, like `recursive=True`; after a `None` key nothing is printed (C104).
* One element more than the limit is taken from an iterator (C41).
* Dictionaries in a sequence are read twice, even a single one. An iterator in them is exhausted at the second time: the hint of
  `[{"a": iter([1])}]` has `a: Iterator[Any]`. With a limit, the hint describes the elements behind the limit (C94).
* Open files satisfy the structural `Iterator` check, so they are handled (and consumed) as iterators; files opened for
  writing raise (C17). `.io` trees are never reached through the generators.
* Keys of classes that are not builtin appear unquoted and unimported in key types; `None` keys appear as `NoneType` (C18).
* A `None` key ends the iteration over a mapping: its own and all later values do not contribute to the value type,
  nor to the height (C42, C35).
* Equal values inside equal values are renamed once for every place they occur at, each time cutting off as many letters as
  the old name had. `{"configuration": c, "other": c}` with `c = {"a": [[1]], "b": [[1]]}` declares `XDict` both as an alias and
  as a class, although no keys clash (C20, `one_definition_fails_shared`).
* Keys that contribute nothing to names (the empty string) lead to duplicate or coinciding declarations (C19, C20); keys that
  differ only in separators as well.
* Renaming a declaration replaces every `class` followed by white space and a word: if the class of a value is called
  `Subclass`, the key in the next line is lost (C39).
* String keys are not escaped in functional `TypedDict`s (C29). The key `_` and hidden keys without owner force the
  functional syntax (C28).
* Sets and frozensets with the same element types are considered equal (C33), so a frozenset next to such a set in a
  dictionary is hinted as `Set` (C90, `hint_precise_fails`); frames are considered equal if the texts of
  their columns are, whatever the cells hold: of two frames in a list with the same columns, but other types of cells, the
  second is lost (C21, `frames_told_apart_fails`). pandas abbreviates the text of long lists of columns, so even frames with
  other columns may be considered equal.
* Classes are compared by their metaclass and arrays without their element type, so `[int, str]` gives `List[Type[int]]` (C21).
* Empty collections of different kinds have equal hashes, so the second element of `[[{}], [[]]]` is lost (C21).
* Sharing of equal values drops `NotRequired` differences between siblings; merging overwrites the types of values of the
  same class (C31) and keeps only the depth of the last value (C35). So a key that occurs in only one of several dictionaries
  in lists below a shared key is declared as required (C30). Whether dictionaries are merged may depend on the order
  of `int` and `float` values.
* The declarations of several dictionaries, or of several nested lists, in one list follow the iteration order of a set
  (C26).
* In `[{"a": 1, "b": [1]}, {"a": 1, "b": ["x"]}]` the iteration order of a set also decides which of the two dictionaries the
  merged `TypedDict` describes: one run of the interpreter may print `b: List[str]`, another `b: List[int]` (C93).
* The similarity in percent is rounded down by floating-point arithmetic for thresholds 29, 57 and 58 (C32).
* A class of the user that is called like a library symbol, such as `Sequence`, is printed by its bare name in the types of
  keys and never imported (C37).
* Frames with literal labels always get a class, whatever `min_height_to_define_type_alias` (C36). The strategy
  "Do not type hint columns" prints the same class as "Type hint only for autocomplete". Nested frames that mix tuple
  labels and plain ones, and get no alias, are printed inline as the text of a class.
* The README (lines 310-317) shows the results for `min_height_to_define_type_alias` 0 and 1 the wrong way round, and says that
  dictionaries are merged from 80% similarity by default (line 184), where the code has 50 (`Checks/Readme`).
* `rename_declaration` loses the annotation of aliases and keeps the old name inside functional `TypedDict`s (C39).
* A node shared by several slots is renamed once per slot, by prefix length, which garbles its name ("XDictictList", C34).
* A docstring whose words fit stays on one line with all blanks between its words, however many (C11). Lines of blanks are dropped,
  empty lines are kept (C85).
* Docstrings containing quotation marks may end the docstring early (C12).
* The `__call__` in the hint of a function has no `self`, so the first parameter is taken for the object (C67). A lambda is
  hinted with one `Any` per parameter, whatever its kind or default (C67).
* Generators, and functions whose source cannot be parsed, are said to return `None`; functions with equal signatures share the
  hint of the first one (C68). A default value that contains `->` makes a signature look annotated. Default values are
  printed with `repr`, which need not be valid Python.
* Columns whose labels give the same name, such as `a b` and `a_b`, are declared under one name (C69).
* One label that is neither a string nor an integer nor a truth value hides all columns of a frame (C81).
* A frame in which two columns have the same label cannot be described: the recursion does not end, because indexing with the
  label returns a frame with the same two columns (C82).
* A tree is its own iterator. A loop over a tree inside of a loop over the same tree, also `x in tree` or the first `hash(tree)`,
  moves the position of the outer loop: it skips children or never ends (C84). The package itself never nests such loops.
* The strategy "Do not type hint columns" makes all frames equal but does not change the text (C70).
* Instances and classes that are not builtin are written as forward references that nothing in the text resolves (C71).
* Annotations: only the text before the first comma or blank is searched for symbols; `Type`, `np`, `pd` and `Scalar` are
  never imported for signatures (C40).
* Collections described in place import `TypeAlias`, annotations with `list`, `set`, `tuple`, `dict` import `List` …,
  without any use (C72).
* A class name such as `my_class` is declared as given, but nested names made from it are referred to in camel case
  (`my_classA` is declared, `MyClassA` is used); columns below tuples next to other labels are declared and never
  used (C73).
* The option to inherit from the original type gives `class X: TypeAlias(_X: TypeAlias):` for every alias (C78).
* Cached getters ignore their arguments after the first call (C04). In particular a file written by `to_file` after
  `to_string(include_imports=False)` on the same hint has no imports.

Files and live generators
* Removing private methods also removes the line below each of them, leaves the rest of a body behind its first blank line,
  and finds the second of two adjacent ones twice, which removes one more line (C74). For a private method in the first line
  the search for decorators goes on at the end of the file.
* Imports are put above those from `__future__`, and in a comment that mentions `if TYPE_CHECKING:` (C75). Methods are searched
  by the beginning of their name (C76). Of several decorators only the last is looked at, and decorators
  are found by the beginning of their name (C86). The first `)` or `:`, also of a decorator, ends a signature (C77).
* `remove_all_method_bodies` keeps the bodies of `async` functions (C79).
* `to_file` leaves created directories behind if `to_string` raises. `lazy_type_hint_abc.py` has an unused `Tree.to_file` that
  tests the file instead of its directory.
* Validation blanks only the lines that contain docstring delimiters (C47). A validating call that succeeds rewrites the file.
* Write order: class file, registry, import, two overloads. A crash between them leaves an incomplete stub that is never
  repaired, or a torn stub with which every later call fails (C49). `reset` removes the files before the stub (C48).
* A generator does not read the stub again: with several generators updates are lost (C50), and a generator created before
  `reset` fails afterwards. One missing class file makes all calls fail.
* `reset` in one process during a call in another one (C103): the call may raise FileNotFoundError, or register a class whose file was
  just removed, after which every call of a new generator fails until the next reset. Two resets at the same time: one of them raises.
* Processes that call the live generator at the same time disturb each other (C96): `exists()` and `os.makedirs` are separate steps, so
  that one of two first calls may raise FileExistsError (`undisturbed_first_fails`); the file of a class and the stub may become mixtures
  of two texts (`whole_class_fails`, `whole_stub_fails`); the registration of one of two classes may be lost although both calls succeed
  (`registration_lost`).
* The live generator writes its files in the encoding of the locale and reads them as UTF-8 (lazy_type_hint_live.py:77, 130, 180, 251). In
  Latin-1 a class name with an accent makes every later constructor raise `UnicodeDecodeError` until `reset`, and hints with accents fail
  to be validated; a character that the locale lacks leaves an empty file behind. A key with a carriage return fails its own validation
  in every locale (C99).
* The live `from_yaml_file` returns the data with hidden keys (C51).
* Values with `=`, quotes or blanks at the ends are not read back from assignments (C52).
* Only the line directly above a method is searched for `@overload`, and that line is `@override`: so every new class puts one
  more `@overload` in front of the method, and its overload copies all of them.

YAML comments
* Above the first line the search continues at the end of the document (C56).
* A dash alone in a line, or a dash not followed by a blank in the first column, raises (C57); with the fallback all comments of
  the file are lost silently (C59).
* Documents with a tab and a blank anywhere get no comments at all.
* Keys that begin with a quotation mark, a digit or an underscore never get comments, except in the first line of a list item, where the dash counts as
  the first character (`underscore_comments_fails`, C101). An apostrophe in a value hides the side
  comment of its line; so does an earlier `#` without a blank.
* Lines in text blocks (`|`) that look like keys with comments get hidden entries as well, so the text changes (C101). A scalar in a
  sequence with a colon in its comment (`- abc # see: y`) is taken for a key; the temporary file is then not YAML, and all comments of the
  file are lost.
* Side comments are not freed from docstring delimiters.
* Comments count against the limit on inspected elements unless dictionaries become TypedDicts; a comment without its key can
  force the functional syntax (C87). The functional syntax shows no comments of keys (C88). Of equal dictionaries that share a
  declaration, only the comments of the first are shown. Of dictionaries in a list that comment the same key differently, one comment is shown.
* The temporary file has a name that depends only on the file name (C60), and is never removed.

Development tools
* Comparing trees with imports ignored removes the imports from the second tree (C62). Only the imports of `body` are
  ignored, not those of `orelse` or `finalbody`; ignoring arguments also ignores the arguments of calls.
* `scan_string` loses errors without a code; `scan_file` ignores a line only if it contains all keywords (C63).
  `scan_file` passes its command as one string without a shell, which on POSIX names a program that does not exist.
* `check_code.py --auto-linting enable` writes a hook that is not executable, which git ignores on POSIX; any hook that is there already
  counts as the own one and is deleted by `disable`; an empty text means `disable` (C102). `--disable-parallel` is always on, so the tools
  never run in parallel.
* A single tool name is matched by substring (C65). `only_include` overrides `ignore` (C66).
