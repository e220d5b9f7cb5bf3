{"id": "C01", "title": "Ordered set is first-occurrence dedup", "statement": "After any sequence of add operations, OrderedSet.as_list holds every added element exactly once, in order of first addition, and re-adding an element changes nothing.", "quantifier": "all element types with decidable equality, all finite sequences of add operations", "why_tests_cant": "The emitted file relies on this for every possible multiset of declarations; tests try a handful of short sequences.", "anchors": ["lazy_type_hint/utils/ordered_set.py: OrderedSet.add, as_list"]}
{"id": "C02", "title": "Class-name admission", "statement": "from_data accepts a class name exactly when it has at least one letter or digit, contains only letters, digits and underscores, and does not start with a digit; hence over ASCII every accepted name matches the Python identifier grammar.", "quantifier": "all strings", "why_tests_cant": "The set of strings is infinite; the tests enumerate about ten names.", "anchors": ["lazy_type_hint/utils/utils.py: is_string_python_keyword_compatible", "lazy_type_hint/generators/lazy_type_hint.py: LazyTypeHint.from_data", "lazy_type_hint/data_type_tree/data_type_tree.py: DataTypeTree.__init__"]}
{"id": "C03", "title": "Accepted class names can be declared", "statement": "Every class name accepted by from_data can be used as the name of the generated class, i.e. it is an identifier and not a reserved keyword.", "quantifier": "all strings accepted by the name check", "why_tests_cant": "Only a statement over all accepted names finds the reserved words that slip through.", "anchors": ["lazy_type_hint/utils/utils.py: is_string_python_keyword_compatible"]}
{"id": "C04", "title": "Every call of the text getters honours its own arguments", "statement": "In any history of calls on one generated tree, each call to get_str_all_nodes / get_strs_all_nodes_unformatted / to_string returns text with imports exactly when that call asked for imports.", "quantifier": "all finite histories of calls with arbitrary arguments", "why_tests_cant": "Histories are unbounded; each unit test builds a fresh tree and calls the getter once.", "anchors": ["lazy_type_hint/utils/utils.py: cache_returned_value_per_instance", "lazy_type_hint/data_type_tree/data_type_tree.py: get_strs_all_nodes_unformatted", "lazy_type_hint/generators/lazy_type_hint.py: to_string"]}
{"id": "C05", "title": "Import block is independent of hash order", "statement": "The import block printed for a set of required symbols is one and the same text whatever order the symbols were requested in and whatever order Python's set iteration yields them.", "quantifier": "all finite sets of known symbols, all pairs of iteration orders", "why_tests_cant": "Set order depends on the per-process hash seed; a test run sees one seed.", "anchors": ["lazy_type_hint/utils/import_manager.py: ImportManager.format, add"]}
{"id": "C06", "title": "Import block binds exactly what was requested", "statement": "The printed import block binds every requested symbol, binds no other symbol, and names each symbol once.", "quantifier": "all finite sets of known symbols", "why_tests_cant": "2^33 subsets of symbols; tests look at five.", "anchors": ["lazy_type_hint/utils/import_manager.py: ImportManager.format, _format_single_package"]}
{"id": "C07", "title": "__future__ import comes first", "statement": "If the __future__ import is part of the printed import block it is the very first line, so the generated module is legal Python.", "quantifier": "all finite sets of known symbols containing 'annotations'", "why_tests_cant": "Relies on the sort key over every possible set of packages.", "anchors": ["lazy_type_hint/utils/import_manager.py: ImportManager.format"]}
{"id": "C08", "title": "Import line width", "statement": "Every physical line of the printed import block fits within the configured width, unless it is a single unbreakable element; long import lines are wrapped one symbol per line.", "quantifier": "all finite sets of known symbols, all widths", "why_tests_cant": "Depends on the total length of arbitrary subsets.", "anchors": ["lazy_type_hint/utils/import_manager.py: ImportManager._format_single_package"]}
{"id": "C09", "title": "Unknown import keywords are rejected, known ones never are", "statement": "Printing the import block raises ValueError exactly when some requested symbol is outside the fixed symbol table.", "quantifier": "all finite lists of requested strings", "why_tests_cant": "Universal over strings.", "anchors": ["lazy_type_hint/utils/import_manager.py: ImportManager.format, PACKAGE"]}
{"id": "C10", "title": "Docstring reflow keeps all words in order", "statement": "Formatting a text as a docstring keeps exactly the words of every non-blank input line, in order, adding only line breaks, indentation, the quotes and the final full stop.", "quantifier": "all texts, all widths, all indentations", "why_tests_cant": "Arbitrary texts and widths.", "anchors": ["lazy_type_hint/utils/docstring_formatter.py: _split_string, format_string_as_docstring"]}
{"id": "C11", "title": "Docstring width", "statement": "Every line produced by the docstring splitter is at most the configured width unless it is a single word that is itself longer.", "quantifier": "all texts and widths", "why_tests_cant": "Boundary condition over all word-length sequences.", "anchors": ["lazy_type_hint/utils/docstring_formatter.py: _split_string"]}
{"id": "C12", "title": "A docstring is one closed string literal", "statement": "For a text free of double quotes and backslashes the formatted docstring is exactly one triple-quoted literal: it starts and ends with three quotes and contains no other quote; the same should hold for every text.", "quantifier": "all texts", "why_tests_cant": "Quoting has to survive every possible comment text that users write.", "anchors": ["lazy_type_hint/utils/docstring_formatter.py: format_string_as_docstring"]}
{"id": "C13", "title": "Strategy validation", "statement": "ParsingStrategies can be constructed exactly when each enumerated option has an allowed value, min_height >= 0, 0 < merge threshold <= 100, and the element limit is absent, zero or positive.", "quantifier": "all option records", "why_tests_cant": "Unbounded numeric and string domains.", "anchors": ["lazy_type_hint/strategies.py: ParsingStrategies.__post_init__"]}
{"id": "C14", "title": "Generated alias names are valid", "statement": "Starting from an accepted class name, every alias or class name that the generator invents for nested data passes the same name check, so generation never fails because of a key, type or attribute name.", "quantifier": "all class names, all keys (any characters), all nested data", "why_tests_cant": "Keys are arbitrary user strings.", "anchors": ["lazy_type_hint/data_type_tree/generic_type/mapping_data_type_tree.py: _to_camel_case", "lazy_type_hint/data_type_tree/generic_type/mapping_data_type_tree.py: _instantiate_children", "lazy_type_hint/data_type_tree/generic_type/set_and_sequence_operations.py"]}
{"id": "C15", "title": "camelCase conversion yields letters and digits only", "statement": "The name conversion drops every non-alphanumeric character, keeps the alphanumeric ones in order (up to case and a leading run of digits), and leaves already converted names unchanged.", "quantifier": "all strings", "why_tests_cant": "Arbitrary Unicode keys.", "anchors": ["lazy_type_hint/data_type_tree/generic_type/mapping_data_type_tree.py: _to_camel_case"]}
{"id": "C16", "title": "Generation is total", "statement": "For every accepted class name, every admissible strategy record and every finite acyclic value built from supported kinds, from_data followed by to_string returns a text and raises nothing.", "quantifier": "all supported values of any depth and width, all strategies, all iteration orders of sets", "why_tests_cant": "Recursion over arbitrary nesting with merging in the middle.", "anchors": ["lazy_type_hint/data_type_tree/factory.py: data_type_tree_factory", "lazy_type_hint/data_type_tree/data_type_tree.py", "lazy_type_hint/data_type_tree/generic_type/*"]}
{"id": "C17", "title": "Every type is handled by the tree of its own kind", "statement": "A dict, list, tuple, set, frozenset, iterator, mapping proxy, function, class, module, open file or plain instance is always dispatched to the handler of that kind, and the internal type check never fires.", "quantifier": "all runtime types with arbitrary subclass relations among the supported kinds", "why_tests_cant": "The dispatcher walks a table; all subclass combinations matter.", "anchors": ["lazy_type_hint/data_type_tree/factory.py: data_type_tree_factory", "lazy_type_hint/data_type_tree/data_type_tree.py: _check_tree_is_correct_one, get_subclass"]}
{"id": "C18", "title": "Declared before use", "statement": "In the generated text every alias referenced by a declaration is declared earlier in the text (or is a typing/builtin symbol or a quoted forward reference).", "quantifier": "all class names, values and strategies", "why_tests_cant": "Ranges over all nesting structures.", "anchors": ["lazy_type_hint/data_type_tree/data_type_tree.py: _get_strs_all_nodes_unformatted", "lazy_type_hint/data_type_tree/generic_type/dict_data_type_tree.py: _parse_typed_dict"]}
{"id": "C19", "title": "The requested name is declared last", "statement": "The last declaration of the generated text declares exactly the class name that was passed in.", "quantifier": "all values and strategies", "why_tests_cant": "All nesting structures.", "anchors": ["lazy_type_hint/data_type_tree/data_type_tree.py: get_strs_all_nodes_unformatted"]}
{"id": "C20", "title": "One definition per name", "statement": "The generated text never declares one name twice with different definitions.", "quantifier": "all class names, values and strategies", "why_tests_cant": "Collisions arise from combinations of keys and types that a sample does not meet.", "anchors": ["lazy_type_hint/data_type_tree/data_type_tree.py", "lazy_type_hint/data_type_tree/generic_type/mapping_data_type_tree.py: _assign_same_data_type_tree_to_keys_with_same_value_type", "lazy_type_hint/data_type_tree/generic_type/mapping_data_type_tree.py: _to_camel_case"]}
{"id": "C21", "title": "Soundness of the hint", "statement": "The type denoted by the generated declarations admits the value it was generated from.", "quantifier": "all values and strategies", "why_tests_cant": "The central promise; quantifies over all data.", "anchors": ["lazy_type_hint/data_type_tree/factory.py", "lazy_type_hint/data_type_tree/generic_type/*"]}
{"id": "C22", "title": "Soundness for sequences of scalars", "statement": "For a list, set, frozenset, tuple or iterator of plain instances with at most the element limit many elements, the element type in the hint admits every element (taking Python's int-to-float promotion into account) and mentions no type that does not occur, provided the class name passed in is not itself one of the identifiers the hint uses.", "quantifier": "all element sequences up to the limit (any limit), all strategies", "why_tests_cant": "Unbounded lengths and types.", "anchors": ["lazy_type_hint/data_type_tree/generic_type/list_data_type_tree.py", "lazy_type_hint/data_type_tree/generic_type/set_data_type_tree.py", "lazy_type_hint/data_type_tree/generic_type/tuple_data_type_tree.py", "lazy_type_hint/data_type_tree/generic_type/iterator_data_type_tree.py", "lazy_type_hint/data_type_tree/generic_type/generic_data_type_tree.py: _get_types"]}
{"id": "C23", "title": "Only the first n elements matter", "statement": "With a positive element limit n the hint of a list, tuple, set, frozenset or iterator is the same as the hint of its first n elements.", "quantifier": "all limits, all element sequences", "why_tests_cant": "All lengths on both sides of the boundary.", "anchors": ["lazy_type_hint/data_type_tree/generic_type/sequence_data_type_tree.py", "lazy_type_hint/data_type_tree/generic_type/set_data_type_tree.py", "lazy_type_hint/data_type_tree/generic_type/iterator_data_type_tree.py", "lazy_type_hint/data_type_tree/generic_type/mapping_data_type_tree.py", "lazy_type_hint/strategies.py"]}
{"id": "C24", "title": "Fixed-size tuples keep arity and position", "statement": "With the fixed tuple strategy, the hint of a tuple within the limit lists one type per position, the i-th admitting the i-th element.", "quantifier": "all tuples of plain instances within the limit", "why_tests_cant": "Arbitrary arities.", "anchors": ["lazy_type_hint/data_type_tree/generic_type/tuple_data_type_tree.py", "lazy_type_hint/data_type_tree/generic_type/sequence_data_type_tree.py"]}
{"id": "C25", "title": "Scalar-list hints ignore order and repetition", "statement": "The hint of a list of plain instances depends only on the set of element types: permuting, repeating elements, or a different set iteration order leaves the text unchanged.", "quantifier": "all lists, all permutations, all hash orders", "why_tests_cant": "Permutations and hash seeds are not enumerable.", "anchors": ["lazy_type_hint/data_type_tree/generic_type/list_data_type_tree.py", "lazy_type_hint/data_type_tree/generic_type/generic_data_type_tree.py: _get_types, _format_types"]}
{"id": "C26", "title": "Generation is deterministic across runs", "statement": "Generating twice from the same value yields the same text, whatever the process hash seed or object addresses are.", "quantifier": "all values, all pairs of set-iteration orders", "why_tests_cant": "A test process has one hash seed.", "anchors": ["lazy_type_hint/data_type_tree/generic_type/list_data_type_tree.py: _instantiate_children", "lazy_type_hint/data_type_tree/generic_type/set_and_sequence_operations.py"]}
{"id": "C27", "title": "TypedDict mirrors the keys", "statement": "For a dictionary with only string keys under the TypedDict strategy, the hint has one entry per visible key, in insertion order, and no others.", "quantifier": "all dictionaries with string keys", "why_tests_cant": "Arbitrary keys.", "anchors": ["lazy_type_hint/data_type_tree/generic_type/dict_data_type_tree.py: _parse_typed_dict, _build_typed_dict"]}
{"id": "C28", "title": "Class syntax only for identifier keys", "statement": "A TypedDict is printed in class syntax exactly when every visible key is an identifier and not a keyword, otherwise in functional syntax.", "quantifier": "all dictionaries with string keys", "why_tests_cant": "Arbitrary keys.", "anchors": ["lazy_type_hint/data_type_tree/generic_type/dict_data_type_tree.py: DictMetadata.is_functional_syntax, _build_typed_dict"]}
{"id": "C29", "title": "Functional TypedDict keys are faithful string literals", "statement": "In functional syntax each printed key literal denotes exactly the dictionary key.", "quantifier": "all keys, including quotes, backslashes and newlines", "why_tests_cant": "Escaping must hold for every string.", "anchors": ["lazy_type_hint/data_type_tree/generic_type/dict_data_type_tree.py: _build_typed_dict"]}
{"id": "C30", "title": "Merging marks required keys correctly", "statement": "When dictionaries are merged, a key is marked required exactly when every merged dictionary has it, and the merged hint has precisely the union of the keys.", "quantifier": "all finite families of dictionaries", "why_tests_cant": "Arbitrary families and key overlap.", "anchors": ["lazy_type_hint/data_type_tree/generic_type/dict_data_type_tree.py: DictMetadata.update, DictDataTypeTree.from_multiple_dict_data_type_trees"]}
{"id": "C31", "title": "Merging admits every merged dictionary", "statement": "If two dictionaries are merged then the merged hint admits both.", "quantifier": "all pairs of dictionaries with arbitrary nested values", "why_tests_cant": "Nested values of any depth.", "anchors": ["lazy_type_hint/data_type_tree/generic_type/dict_data_type_tree.py", "lazy_type_hint/data_type_tree/generic_type/set_and_sequence_operations.py: _merge_similar_typed_dicts"]}
{"id": "C32", "title": "Merge threshold", "statement": "Two dictionaries without conflicting value types are merged exactly when their share of common keys, in percent, is at least the threshold; in particular at threshold 100 only dictionaries with the same keys are merged.", "quantifier": "all key sets and thresholds", "why_tests_cant": "Rounding at every ratio.", "anchors": ["lazy_type_hint/data_type_tree/generic_type/dict_data_type_tree.py: DictMetadata.compare_multiple_dicts, DictMetadataComparison.percentage_similarity", "lazy_type_hint/strategies.py: merge_different_typed_dicts_if_similarity_above"]}
{"id": "C33", "title": "Equal structure test is sound", "statement": "Two trees that the generator treats as duplicates denote the same type.", "quantifier": "all pairs of values", "why_tests_cant": "Pairs of arbitrary nested values.", "anchors": ["lazy_type_hint/data_type_tree/data_type_tree.py: __eq__, __hash__", "lazy_type_hint/data_type_tree/generic_type/*: _get_hash"]}
{"id": "C34", "title": "Renaming changes names only", "statement": "Renaming a tree changes no structure: the structural hash, height and shape stay the same, and after renaming the root has the new name.", "quantifier": "all trees and names", "why_tests_cant": "All trees.", "anchors": ["lazy_type_hint/data_type_tree/data_type_tree.py: rename, _rename"]}
{"id": "C35", "title": "Depth is the nesting depth", "statement": "The height that decides when aliases are created equals the nesting depth of the (inspected) data.", "quantifier": "all values", "why_tests_cant": "Arbitrary nesting.", "anchors": ["lazy_type_hint/data_type_tree/data_type_tree.py: _get_height"]}
{"id": "C36", "title": "Alias creation threshold", "statement": "A nested value gets its own alias exactly when it is a TypedDict, a function, or its depth exceeds min_height; otherwise it is written inline.", "quantifier": "all values and strategies", "why_tests_cant": "Arbitrary nesting.", "anchors": ["lazy_type_hint/data_type_tree/data_type_tree.py: permission_to_be_created_as_type_alias"]}
{"id": "C37", "title": "All used typing symbols are imported", "statement": "Every typing symbol that appears in a generated declaration is in the import block of the same text (for data without functions).", "quantifier": "all values and strategies", "why_tests_cant": "All constructs in all combinations.", "anchors": ["lazy_type_hint/data_type_tree/data_type_tree.py", "lazy_type_hint/utils/import_manager.py"]}
{"id": "C38", "title": "Layout keeps every declaration verbatim", "statement": "The formatted text consists of the declarations, verbatim and in order, separated only by blank lines.", "quantifier": "all declaration lists", "why_tests_cant": "Arbitrary declaration lists.", "anchors": ["lazy_type_hint/data_type_tree/data_type_tree.py: _format_node_strings"]}
{"id": "C39", "title": "Declaration renaming", "statement": "rename_declaration replaces exactly the declared name by the new name and returns the old one, for every declaration form that the generator itself produces.", "quantifier": "all declarations produced by the generator", "why_tests_cant": "All names and right-hand sides.", "anchors": ["lazy_type_hint/data_type_tree/data_type_tree.py: rename_declaration"]}
{"id": "C40", "title": "Signatures: imports for annotations", "statement": "For every function signature, all known typing symbols mentioned in its annotations are requested for import.", "quantifier": "all signature strings", "why_tests_cant": "Regex behaviour over all strings.", "anchors": ["lazy_type_hint/utils/import_manager.py: import_all_unkown_symbols_from_signature"]}
{"id": "C41", "title": "Iterators are not disturbed beyond the inspected prefix", "statement": "Generating a hint from an iterator consumes no more elements than the element limit.", "quantifier": "all iterators and limits", "why_tests_cant": "Arbitrary lengths.", "anchors": ["lazy_type_hint/data_type_tree/generic_type/iterator_data_type_tree.py"]}
{"id": "C42", "title": "None keys do not hide other entries", "statement": "Every entry of a dictionary contributes to the value type in the hint, whatever the keys are.", "quantifier": "all dictionaries with arbitrary keys", "why_tests_cant": "Particular key/position combinations.", "anchors": ["lazy_type_hint/data_type_tree/generic_type/mapping_data_type_tree.py: __iter__, __next__"]}
{"id": "C43", "title": "to_file writes exactly the text or fails cleanly", "statement": "to_file raises ValueError exactly when the parent directory is missing and creation was not requested, in which case nothing is written; otherwise the file's content afterwards is exactly to_string().", "quantifier": "all file-system states and paths", "why_tests_cant": "All file-system states.", "anchors": ["lazy_type_hint/generators/lazy_type_hint.py: to_file"]}
{"id": "C44", "title": "Live registry lists exactly the generated classes", "statement": "After any history of live generation calls by up-to-date generators, the class registry lists exactly the classes generated since the last reset, each once, and each has its source file with the text of the last successful call for that class.", "quantifier": "all finite histories", "why_tests_cant": "Histories are unbounded.", "anchors": ["lazy_type_hint/generators/lazy_type_hint_live.py"]}
{"id": "C45", "title": "Live calls leave other classes alone", "statement": "Generating or validating one class never changes the generated source of another class.", "quantifier": "all states and calls", "why_tests_cant": "All states.", "anchors": ["lazy_type_hint/generators/lazy_type_hint_live.py"]}
{"id": "C46", "title": "Overwrite and validate modes", "statement": "In overwrite mode the class file ends up equal to the freshly generated text; in validate mode the call raises exactly when the stored and fresh texts differ once every line with a docstring delimiter is blanked, and then nothing on disk changes.", "quantifier": "all stored texts, fresh texts and states", "why_tests_cant": "All texts.", "anchors": ["lazy_type_hint/generators/lazy_type_hint_live.py: from_data"]}
{"id": "C47", "title": "Validation ignores documentation", "statement": "Validation compares hints modulo docstrings: adding, removing or editing documentation never makes validation fail.", "quantifier": "all pairs of texts that differ in docstrings only", "why_tests_cant": "All docstring layouts.", "anchors": ["lazy_type_hint/generators/lazy_type_hint_live.py: _remove_docstrings"]}
{"id": "C48", "title": "Crash safety of the registry", "statement": "If the process stops after any prefix of the writes of a live call, every class in the registry still has its source file.", "quantifier": "all histories and all crash points", "why_tests_cant": "Crash points are not reachable in tests.", "anchors": ["lazy_type_hint/generators/lazy_type_hint_live.py"]}
{"id": "C49", "title": "Crash recovery", "statement": "If a live call stops half-way and is repeated later, the stub ends up complete: registry, import and overloads for that class all present.", "quantifier": "all crash points", "why_tests_cant": "Crash points are not reachable in tests.", "anchors": ["lazy_type_hint/generators/lazy_type_hint_live.py"]}
{"id": "C50", "title": "No lost updates between generators", "statement": "Two live generators working on the same stub directory do not lose each other's classes.", "quantifier": "all interleavings of calls of two generators", "why_tests_cant": "Schedules.", "anchors": ["lazy_type_hint/generators/lazy_type_hint_live.py", "lazy_type_hint/file_modifiers/py_file_modifier.py"]}
{"id": "C51", "title": "Live calls return the caller's data", "statement": "from_data returns the same value it was given; from_yaml_file returns what the loader returns for the file.", "quantifier": "all data, all files and loaders", "why_tests_cant": "All files.", "anchors": ["lazy_type_hint/generators/lazy_type_hint_live.py: from_data, from_yaml_file"]}
{"id": "C52", "title": "Stub text edits: assignment read-back", "statement": "Replacing the right-hand side of an assignment in the stub and then searching for it returns the new right-hand side, and all other lines are unchanged.", "quantifier": "all stub texts", "why_tests_cant": "All texts.", "anchors": ["lazy_type_hint/file_modifiers/py_file_modifier.py: replace_assignement, search_assignment"]}
{"id": "C53", "title": "Registry string round trip", "statement": "Reading the class names back from the registry line that was written for a list of classes returns that list.", "quantifier": "all lists of class names", "why_tests_cant": "All lists.", "anchors": ["lazy_type_hint/generators/lazy_type_hint_live.py: _get_classes_added, _add_class_created_to_this_file_pyi"]}
{"id": "C54", "title": "Quote-aware search", "statement": "The YAML scanner's search returns the first position of the wanted character that has an even number of quote characters before it, and nothing when there is none.", "quantifier": "all lines and characters", "why_tests_cant": "All strings.", "anchors": ["lazy_type_hint/file_modifiers/yaml_file_modifier.py: _find_first_occurrence_that_is_not_between"]}
{"id": "C55", "title": "Comment injection keeps the document", "statement": "Injecting comments as hidden keys keeps every line of the YAML document: removing the inserted lines gives back the document (up to the dash moved to the hidden key of a list item).", "quantifier": "all documents and comment positions", "why_tests_cant": "All documents.", "anchors": ["lazy_type_hint/file_modifiers/yaml_file_modifier.py: create_temporary_file_with_comments_as_keys"]}
{"id": "C56", "title": "Comments are attached to their own key", "statement": "With comments_are='above', the comment attached to a key is taken only from lines directly above it.", "quantifier": "all documents", "why_tests_cant": "All documents, in particular the first line.", "anchors": ["lazy_type_hint/file_modifiers/yaml_file_modifier.py: _extract_single_block_comment"]}
{"id": "C57", "title": "Comment extraction never fails", "statement": "Comment extraction on a well-formed YAML document never raises.", "quantifier": "all documents", "why_tests_cant": "All documents.", "anchors": ["lazy_type_hint/file_modifiers/yaml_file_modifier.py"]}
{"id": "C58", "title": "Joined comments are full sentences", "statement": "A joined multi-line comment is empty or ends in a full stop, and contains the words of all its lines in order (up to capitalisation of the first letter).", "quantifier": "all lists of comment lines", "why_tests_cant": "All lists.", "anchors": ["lazy_type_hint/file_modifiers/yaml_file_modifier.py: _join_multi_line_comments"]}
{"id": "C59", "title": "YAML loading falls back to the plain data", "statement": "If comment extraction fails in any way, from_yaml_file generates from the plain data instead of failing.", "quantifier": "all failures after the file was opened", "why_tests_cant": "All failure points.", "anchors": ["lazy_type_hint/generators/lazy_type_hint_abc.py: LazyTypeHintABC.from_yaml_file"]}
{"id": "C60", "title": "Concurrent YAML calls do not mix their files", "statement": "A from_yaml_file call generates from its own file, whatever other from_yaml_file calls run at the same time.", "quantifier": "all numbers of concurrent calls, all interleavings of writing and loading the temporary file", "why_tests_cant": "Depends on the schedule.", "anchors": ["lazy_type_hint/file_modifiers/yaml_file_modifier.py: create_temporary_file_with_comments_as_keys", "lazy_type_hint/generators/lazy_type_hint_abc.py: LazyTypeHintABC.from_yaml_file"]}
{"id": "C61", "title": "Tree comparison ignores positions only", "statement": "compare_ast(a, b) returns for every two parsed trees, and returns True exactly if they agree in everything except positions and expression contexts (and, if asked for, argument lists and the import statements of bodies; None at the end of a list counts as absent). Hence it is reflexive, symmetric and transitive.", "quantifier": "all pairs and triples of parsed syntax trees, all option combinations", "why_tests_cant": "All trees of any depth.", "anchors": ["lazy_type_hint/utils/utils.py: compare_ast"]}
{"id": "C62", "title": "Comparing trees does not change them", "statement": "compare_ast leaves both trees as they were.", "quantifier": "all pairs of parsed syntax trees, all option combinations", "why_tests_cant": "All trees; unit tests look at the returned value only.", "anchors": ["lazy_type_hint/utils/utils.py: compare_ast"]}
{"id": "C63", "title": "Type-check results report every error that is not ignored", "statement": "Mypy.scan_string and Mypy.scan_file report exactly the errors in the output of the checker that contain none of the ignored keywords (for a file: those that name the file).", "quantifier": "all outputs of the checker, all lists of keywords", "why_tests_cant": "All outputs.", "anchors": ["lazy_type_hint/utils/mypy.py: Mypy.scan_string, Mypy.scan_file"]}
{"id": "C64", "title": "The quality script succeeds only if every tool passes", "statement": "check_code exits with status 0 exactly if each selected tool passed, that is it returned 0 without printing ERROR or printed one of its accepted texts, whatever the order in which parallel tools finish.", "quantifier": "all numbers of tools, all results, all completion orders", "why_tests_cant": "Depends on the schedule.", "anchors": ["check_code.py: run_tool, main"]}
{"id": "C65", "title": "The quality script runs exactly the named tools", "statement": "If tools are named, exactly the configured tools of these names are run, in order of configuration; naming none of the configured tools is an error; naming nothing runs all of them.", "quantifier": "all configurations, all selections by list or by a single name", "why_tests_cant": "All names, in particular names that are part of each other.", "anchors": ["check_code.py: filter_tools_to_be_used"]}
{"id": "C66", "title": "Ignored lines of tools are not printed", "statement": "No line that contains one of a tool's ignored texts is printed when it fails, and no other line is lost unless only_include was given.", "quantifier": "all outputs of tools, all settings of ignore and only_include", "why_tests_cant": "All outputs and settings.", "anchors": ["check_code.py: run_tool"]}
{"id": "C67", "title": "Function hints accept the calls of the function", "statement": "The hint of a function (defined or lambda) accepts exactly the calls that the function accepts.", "quantifier": "all parameter lists (positional-only, ordinary, keyword-only, variadic, defaults), all calls", "why_tests_cant": "All combinations of parameters and calls.", "anchors": ["lazy_type_hint/data_type_tree/simple_data_type_tree/function_data_type_tree.py: FunctionDataTypeTree._get_str_top_node"]}
{"id": "C68", "title": "Function hints give the right return type", "statement": "The hint of a function says that it returns None only if every call of it gives None, and keeps the return annotation if there is one.", "quantifier": "all functions: all bodies, all signatures, alone or beside other functions", "why_tests_cant": "All function bodies.", "anchors": ["lazy_type_hint/data_type_tree/simple_data_type_tree/function_data_type_tree.py: FunctionDataTypeTree._get_str_top_node, FunctionDataTypeTree._has_return"]}
{"id": "C69", "title": "Frame hints describe each column", "statement": "Indexing a data frame with a label is hinted as the type of that column, one overload per column; with the strategy Full type hint no other label is accepted.", "quantifier": "all frames with literal labels, all column types", "why_tests_cant": "All labels; unit tests use labels whose names differ.", "anchors": ["lazy_type_hint/data_type_tree/generic_type/pandas_data_frame_data_type_tree.py: PandasDataFrameDataTypeTree._get_str_top_node"]}
{"id": "C70", "title": "The pandas strategy is followed", "statement": "With the strategy Do not type hint columns a data frame is hinted as pd.DataFrame and no column is mentioned.", "quantifier": "all frames", "why_tests_cant": "All frames.", "anchors": ["lazy_type_hint/data_type_tree/generic_type/pandas_data_frame_data_type_tree.py: PandasDataFrameDataTypeTree._get_str_top_node", "lazy_type_hint/strategies.py: ParsingStrategies.pandas_strategies"]}
{"id": "C71", "title": "Class names in the hint resolve", "statement": "Every class name written in quotes in the generated text is declared or imported there.", "quantifier": "all data, all classes", "why_tests_cant": "All classes and nestings.", "anchors": ["lazy_type_hint/data_type_tree/simple_data_type_tree/instance_data_type_tree.py: InstanceDataTypeTree._get_str_top_node", "lazy_type_hint/data_type_tree/simple_data_type_tree/type_data_type_tree.py"]}
{"id": "C72", "title": "No unused imports", "statement": "Every symbol imported by the generated text is used by one of its declarations.", "quantifier": "all data, all strategies", "why_tests_cant": "All data and strategies; unit tests only check that needed imports are present.", "anchors": ["lazy_type_hint/utils/import_manager.py: ImportManager.format, ImportManager.import_all_unkown_symbols_from_signature", "lazy_type_hint/data_type_tree/data_type_tree.py: DataTypeTree.get_strs_all_nodes_unformatted"]}
{"id": "C73", "title": "No superfluous declarations", "statement": "Every class and alias that the generated text declares, except the requested one, is referred to by another declaration of the text.", "quantifier": "all data, all strategies, all class names", "why_tests_cant": "All nestings of data, and all keys and class names from which names are made.", "anchors": ["lazy_type_hint/data_type_tree/data_type_tree.py: DataTypeTree.get_strs_all_nodes_unformatted, DataTypeTree.get_type_alias_children", "lazy_type_hint/data_type_tree/factory.py: data_type_tree_factory"]}
{"id": "C74", "title": "Removing private methods removes exactly them", "statement": "After removing the private methods of a file, all its other lines of code are still there in their order, and no line of a private method is.", "quantifier": "all files made of lines and of private methods with decorators, signatures over several lines and bodies", "why_tests_cant": "All files; unit tests only use private methods followed by a blank line.", "anchors": ["lazy_type_hint/file_modifiers/py_file_modifier.py: PyFileModifier.remove_all_private_methods"]}
{"id": "C75", "title": "Added imports take effect", "statement": "Imports added to a file appear together and in order, all other lines stay; inside a type-checking block they are part of that block; imports from __future__ stay first.", "quantifier": "all files, all lists of import statements", "why_tests_cant": "All files, with any lines above the block.", "anchors": ["lazy_type_hint/file_modifiers/py_file_modifier.py: PyFileModifier.add_imports", "lazy_type_hint/file_modifiers/py_file_modifier.py: PyFileModifier.add_line", "lazy_type_hint/file_modifiers/py_file_modifier.py: PyFileModifier.search_line"]}
{"id": "C76", "title": "A method is found by its name", "statement": "Searching for a method finds exactly the lines where a method with that name is defined.", "quantifier": "all files, all names", "why_tests_cant": "All names, also those that begin with another one.", "anchors": ["lazy_type_hint/file_modifiers/py_file_modifier.py: PyFileModifier.search_method"]}
{"id": "C77", "title": "The signature of a method is complete", "statement": "Asking for the signature of a method returns its decorators and all lines up to the end of the signature.", "quantifier": "all files with methods over any number of lines", "why_tests_cant": "All layouts of decorators and parameters.", "anchors": ["lazy_type_hint/file_modifiers/py_file_modifier.py: PyFileModifier.get_signature"]}
{"id": "C78", "title": "The requested class can inherit from the hint", "statement": "With the option to inherit from the original type, the hint of the value is declared under its name with an underscore, the requested class is declared as a subclass of it, and nothing else changes.", "quantifier": "all data, all class names", "why_tests_cant": "All forms of declarations.", "anchors": ["lazy_type_hint/data_type_tree/data_type_tree.py: DataTypeTree.get_strs_all_nodes_unformatted, DataTypeTree.rename_declaration"]}
{"id": "C79", "title": "Removing method bodies removes exactly them", "statement": "After removing the bodies of methods, the body of every function in the file is an ellipsis, and nothing but bodies of functions has changed.", "quantifier": "all syntax trees", "why_tests_cant": "All nestings of classes and functions.", "anchors": ["lazy_type_hint/file_modifiers/py_file_modifier.py: PyFileModifier.remove_all_method_bodies"]}
{"id": "C80", "title": "The generated text is valid Python", "statement": "Whatever data and class name are accepted, the text that is printed, with or without imports, follows the grammar of Python: it consists of import statements, annotated assignments, calls of TypedDict and classes with well-formed members.", "quantifier": "all data, all class names, all strategies, with and without imports", "why_tests_cant": "All combinations of nested data, keys, names, documentation and strategies; tests parse a few texts.", "anchors": ["lazy_type_hint/data_type_tree/data_type_tree.py: DataTypeTree.get_str_all_nodes", "lazy_type_hint/data_type_tree/generic_type/dict_data_type_tree.py: DictDataTypeTree", "lazy_type_hint/data_type_tree/generic_type/pandas_data_frame_data_type_tree.py", "lazy_type_hint/generators/lazy_type_hint.py: LazyTypeHint.to_string"]}
{"id": "C81", "title": "Every column of a frame is described", "statement": "Whatever its labels are, the hint of a data frame describes the columns whose label can be written as a literal; for labels with several levels the first level leads to a frame with the other levels.", "quantifier": "all data frames with any number of levels of labels", "why_tests_cant": "All combinations of labels; tests use frames in which all labels are of one kind.", "anchors": ["lazy_type_hint/data_type_tree/generic_type/pandas_data_frame_data_type_tree.py: PandasDataFrameDataTypeTree._instantiate_children, PandasDataFrameDataTypeTree._get_str_top_node"]}
{"id": "C82", "title": "Reading a data frame comes to an end", "statement": "Building the hint of a data frame finishes for every data frame, whatever its labels are.", "quantifier": "all data frames with any number of levels of labels, all limits of the recursion", "why_tests_cant": "Only an argument about all depths shows that the recursion ends or does not.", "anchors": ["lazy_type_hint/data_type_tree/generic_type/pandas_data_frame_data_type_tree.py: PandasDataFrameDataTypeTree._instantiate_children, PandasDataFrameDataTypeTree._create_child"]}
{"id": "C83", "title": "The recursion follows the nesting of the data", "statement": "With a recursion limit that allows n nested levels, from_data returns the same hint as without a limit if the data, as far as they are looked at, have fewer than n levels inside of each other, and raises RecursionError otherwise. In particular it raises RecursionError, and neither loops for ever nor returns a wrong hint, for a list or dictionary that contains itself, whatever the limit is, and for all other data some limit is enough.", "quantifier": "all data, all strategies, all recursion limits, all memories with any references between objects", "why_tests_cant": "Data can be nested to any depth and refer to each other in any way; dictionaries that are merged are built again, which could go deeper than the data.", "anchors": ["lazy_type_hint/data_type_tree/data_type_tree.py: DataTypeTree.__init__", "lazy_type_hint/generators/lazy_type_hint_abc.py: LazyTypeHintABC.from_data"]}
{"id": "C84", "title": "Loops over the children of a tree", "statement": "A loop over a tree visits each of its children once, in order, and comes to an end, whatever the body of the loop does with this tree and other trees, for example searching it or looping over it again.", "quantifier": "all trees with any number of children, all loop bodies that come to an end themselves, all numbers of rounds", "why_tests_cant": "Only an argument about all bodies and all numbers of rounds shows that nested loops do not disturb each other; tests loop once.", "anchors": ["lazy_type_hint/data_type_tree/generic_type/sequence_data_type_tree.py: SequenceDataTypeTree.__iter__, SequenceDataTypeTree.__next__", "lazy_type_hint/data_type_tree/generic_type/mapping_data_type_tree.py: MappingDataTypeTree.__iter__, MappingDataTypeTree.__next__", "lazy_type_hint/data_type_tree/generic_type/set_data_type_tree.py: SetDataTypeTree.__iter__"]}
{"id": "C85", "title": "Layout of docstrings", "statement": "A docstring that has no line break stays on the line of its quotes if it fits there, or its words fit, or it is one word. Otherwise the quotes get lines of their own, and each line of the text is filled: words are put on a line as long as they fit in the given width, and empty lines are kept.", "quantifier": "all texts, widths and indentations", "why_tests_cant": "The layout depends on the lengths of all words and lines at once.", "anchors": ["lazy_type_hint/utils/docstring_formatter.py: format_string_as_docstring, _split_string"]}
{"id": "C86", "title": "Decorators are found above their methods", "statement": "Searching for a decorator of a method gives the lines in which this decorator is applied to a method of this name, and no others.", "quantifier": "all files, names of decorators and names of methods", "why_tests_cant": "Names that begin alike, and any number of decorators, can be above a method.", "anchors": ["lazy_type_hint/file_modifiers/py_file_modifier.py: PyFileModifier.search_decorator"]}
{"id": "C87", "title": "Comments change nothing but documentation", "statement": "Comments of keys, which are passed along in the data, change only the docstrings of keys in the hint: whatever the data is, without the comments from_data fails in the same cases with the same error, and otherwise gives the same declarations in the same order with the same imports, apart from the docstrings of keys.", "quantifier": "all data with comments on any keys at any depth, all strategies", "why_tests_cant": "Comments travel through the data as additional entries of dictionaries, which are merged, compared, counted and named at every level.", "anchors": ["lazy_type_hint/data_type_tree/generic_type/dict_data_type_tree.py: DictDataTypeTree, DictMetadata", "lazy_type_hint/data_type_tree/generic_type/mapping_data_type_tree.py: MappingDataTypeTree", "lazy_type_hint/generators/lazy_type_hint.py: LazyTypeHint.from_yaml_file"]}
{"id": "C88", "title": "Comments of keys are shown", "statement": "The class of a dictionary lists its keys in order, and each key that has a comment is followed by exactly this comment as a docstring; keys without a comment are followed by none.", "quantifier": "all dictionaries with any keys, values and comments", "why_tests_cant": "Comments are found by the names of the keys, which can be anything.", "anchors": ["lazy_type_hint/data_type_tree/generic_type/dict_data_type_tree.py: DictDataTypeTree._build_typed_dict, DictMetadata.get_key_docstrings"]}
{"id": "C89", "title": "The limit applies at every level", "statement": "With a limit on the number of inspected elements, the hint of any data, and every failure, is that of the data in which every sequence, mapping proxy and dictionary that does not become a TypedDict is cut to its first n elements, at every level. Nothing beyond the limit has any influence.", "quantifier": "all data of any depth, all limits, all strategies", "why_tests_cant": "Elements are inspected, compared, merged and counted at every level; tests look at one list.", "anchors": ["lazy_type_hint/data_type_tree/generic_type/set_and_sequence_operations.py: SetAndSequenceOperations.instantiate_children", "lazy_type_hint/data_type_tree/generic_type/mapping_data_type_tree.py: MappingDataTypeTree", "lazy_type_hint/data_type_tree/generic_type/dict_data_type_tree.py: DictDataTypeTree.__pre_child_instantiation__"]}
{"id": "C90", "title": "Hints are no wider than the data", "statement": "What the hint of a value admits has the shape of this value, part by part: values that are no collections belong to the same type, tuples have the same length, sequences are of the same kind (for Sequence also tuples) and each of their elements has a counterpart of the same shape or is put together from the dictionaries of the sequence, dictionaries described by TypedDicts have the same keys, keys and values of mappings have counterparts, and data frames have the same columns.", "quantifier": "all data of any depth and every value that its hint admits", "why_tests_cant": "It speaks about all values that a hint admits, which are infinitely many, and hints of parts are shared, merged and renamed.", "anchors": ["lazy_type_hint/data_type_tree/generic_type/data_type_tree.py: DataTypeTree.get_type_alias_childs", "lazy_type_hint/data_type_tree/generic_type/set_and_sequence_operations.py: SetAndSequenceOperations", "lazy_type_hint/data_type_tree/generic_type/dict_data_type_tree.py: DictDataTypeTree._build_typed_dict", "lazy_type_hint/generators/lazy_type_hint.py: LazyTypeHint.from_data"]}
{"id": "C91", "title": "Repeated elements have no influence", "statement": "The hint of any data, and every failure, is that of the data in which, at every level, each list, set, iterator or series (and each tuple that is not described element by element) has lost the elements that equal one before them, where the contents of strings do not matter. In particular a sequence that grows by elements like those it has keeps its hint.", "quantifier": "all data of any depth, all strategies and limits", "why_tests_cant": "Elements are named, compared, merged and counted one after the other, and the names that are taken depend on all elements before.", "anchors": ["lazy_type_hint/data_type_tree/generic_type/set_and_sequence_operations.py: SetAndSequenceOperations.instantiate_children, SetAndSequenceOperations._update_existing_typed_dict_child_from_another_equal_child", "lazy_type_hint/data_type_tree/generic_type/dict_data_type_tree.py: DictMetadata.update", "lazy_type_hint/data_type_tree/generic_type/data_type_tree.py: DataTypeTree.__eq__, DataTypeTree.__hash__"]}
{"id": "C92", "title": "The class name decides on names only", "statement": "Under any two valid class names from_data and to_string fail for the same data with corresponding errors, the trees differ only in that names begin with the one or the other class name, and the hints admit the same values.", "quantifier": "all data of any depth, all pairs of valid class names, all strategies, all values", "why_tests_cant": "The class name is the beginning of all names that are generated, compared, counted and sorted at every level.", "anchors": ["lazy_type_hint/generators/lazy_type_hint_abc.py: LazyTypeHintABC.from_data", "lazy_type_hint/data_type_tree/data_type_tree.py: DataTypeTree.__init__, DataTypeTree.rename", "lazy_type_hint/data_type_tree/generic_type/set_and_sequence_operations.py: SetAndSequenceOperations.instantiate_children", "lazy_type_hint/data_type_tree/generic_type/generic_data_type_tree.py: GenericDataTypeTree._get_types"]}
{"id": "C93", "title": "The order of sets decides only on the order of declarations", "statement": "For the same data and strategies, whatever order Python iterates its sets in, to_string succeeds or fails alike, prints the same imports and the same declarations, perhaps in another order, and the hints describe the same values.", "quantifier": "all data of any depth and mixture, all pairs of iteration orders, all strategies, all values", "why_tests_cant": "Children are kept in sets whose order changes between runs of the interpreter; a test sees one order.", "anchors": ["lazy_type_hint/data_type_tree/generic_type/set_and_sequence_operations.py: SetAndSequenceOperations.instantiate_children, SetAndSequenceOperations._merge_similar_typed_dicts", "lazy_type_hint/data_type_tree/data_type_tree.py: DataTypeTree.get_strs_all_nodes_unformatted, DataTypeTree.__hash__", "lazy_type_hint/data_type_tree/generic_type/mapping_data_type_tree.py: MappingDataTypeTree._get_hash"]}
{"id": "C94", "title": "Iterators in the data are read once", "statement": "For data with one-shot iterators, the hint says what each iterator yields, as if the iterator were the list of its elements, and an iterator that is inspected loses at most one element more than the inspection limit; an iterator that is not inspected loses nothing.", "quantifier": "all data of any depth and mixture with any number of iterators, all limits, all strategies", "why_tests_cant": "How often a value is looked at depends on where it is in the data and on which of its siblings are merged; an iterator that was looked at before yields other elements.", "anchors": ["lazy_type_hint/data_type_tree/generic_type/set_and_sequence_operations.py: SetAndSequenceOperations.instantiate_children, SetAndSequenceOperations._merge_similar_typed_dicts", "lazy_type_hint/data_type_tree/generic_type/dict_data_type_tree.py: DictDataTypeTree.from_multiple_dict_data_type_trees", "lazy_type_hint/data_type_tree/generic_type/iterator_data_type_tree.py: IteratorDataTypeTree._instantiate_children"]}
{"id": "C95", "title": "Settings change what they are about", "statement": "The containers asked for lists and dictionaries (other than TypedDict), the height from which on names are declared, read-only fields, the key for documentation and the way in which columns are described do not decide which data is accepted. With Sequence instead of list and Mapping instead of dict a hint admits at least what it admitted before; the other of these settings do not change which values it admits.", "quantifier": "all class names, all data, all pairs of settings that agree on TypedDicts, tuples, whether columns are described, and the limits", "why_tests_cant": "The settings are read at many places, also by the comparison of sub-hints that decides on sharing and merging; an effect on one of them shows up only in data of a certain nesting.", "anchors": ["lazy_type_hint/strategies.py: ParsingStrategies", "lazy_type_hint/data_type_tree/data_type_tree.py: DataTypeTree", "lazy_type_hint/data_type_tree/generic_type/dict_data_type_tree.py: DictDataTypeTree", "lazy_type_hint/data_type_tree/generic_type/set_and_sequence_operations.py: SetAndSequenceOperations.instantiate_children"]}
{"id": "C96", "title": "Live calls at the same time do not disturb each other", "statement": "When several processes call the live generator at the same time, each call ends as if it were the only one: it returns its object or fails as it would alone, and the file of its class holds the complete text that it or another call for this class generates. The stub is in the end the one from before or the complete text of one of the processes. Files of classes that no call is about stay as they are.", "quantifier": "all numbers of processes, all their generators, class names and data, all disks, all orders in which the steps of the calls are taken", "why_tests_cant": "The outcome depends on the order of the steps of the processes, of which there are too many to try and which a test cannot choose.", "anchors": ["lazy_type_hint/generators/lazy_type_hint_live.py: LazyTypeHintLive.from_data", "lazy_type_hint/generators/lazy_type_hint_live.py: LazyTypeHintLive._create_custom_class_py", "lazy_type_hint/generators/lazy_type_hint_live.py: LazyTypeHintLive._update_this_file_pyi"]}
{"id": "C97", "title": "A hint describes the data as it was", "statement": "Changes made to the data after from_data returned have no influence on the hint: to_string and to_file give what they would have given if the data had stayed as it was.", "quantifier": "all class names, all data, all strategies, all changes of the objects in the data, all histories of calls with changes between them", "why_tests_cant": "The text is made long after the tree, from objects that the user still holds. Which of them are read again, and when, depends on the whole history of changes and calls.", "anchors": ["lazy_type_hint/generators/lazy_type_hint.py: Tree", "lazy_type_hint/data_type_tree/data_type_tree.py: DataTypeTree.get_str_all_nodes", "lazy_type_hint/data_type_tree/generic_type/dict_data_type_tree.py: DictDataTypeTree._insert_class_docstring", "lazy_type_hint/data_type_tree/generic_type/pandas_data_frame_data_type_tree.py: PandasDataFrameDataTypeTree.permission_to_be_created_as_type_alias"]}
{"id": "C98", "title": "More examples never narrow a hint", "statement": "A value that the hint of a sequence admits is also admitted by the hint of a longer sequence that begins with the same elements: adding examples can only make the hint more general.", "quantifier": "all sequences, sets and other collections of elements, all elements added to them, all values, all strategies", "why_tests_cant": "Elements are deduplicated and dictionaries merged depending on all the others, so an added element can change how the earlier ones are described. Tests compare hints of fixed data.", "anchors": ["lazy_type_hint/data_type_tree/generic_type/set_and_sequence_operations.py: SetAndSequenceOperations", "lazy_type_hint/data_type_tree/factory.py"]}
{"id": "C99", "title": "The live generator works in every locale", "statement": "Whatever the encoding and the line ends of the platform are, constructors and calls of live generators have the outcomes they would have if files were read back exactly as written, and the generated files can be read as UTF-8.", "quantifier": "all histories of new generators, calls and resets, all class names, all data, all strategies, all locales", "why_tests_cant": "Whether a file can be read again depends on every character of every hint and on the platform; a failure shows only in a later call, possibly in another process. Tests run in one locale.", "anchors": ["lazy_type_hint/generators/lazy_type_hint_live.py: LazyTypeHintLive.__init__, from_data, _create_custom_class_py, _update_this_file_pyi"]}
{"id": "C100", "title": "The hint of a table describes exactly its columns", "statement": "The hint of a list of flat dictionaries (rows) admits, if the rows share enough keys to be merged, exactly the lists of dictionaries that have only keys of the rows, all keys that every row has, and under each key a value of the class the rows have there; otherwise exactly the lists in which every element has the keys of one of the rows.", "quantifier": "all lists, sets and other sequences of dictionaries with string keys and plain values, of any length, all class names, all strategies, all values the hint is used for", "why_tests_cant": "Both directions quantify over all values: that nothing else is admitted, and that every mixture of optional keys is. Tests look at the text of a few tables.", "anchors": ["lazy_type_hint/data_type_tree/generic_type/set_and_sequence_operations.py", "lazy_type_hint/data_type_tree/generic_type/sequence_data_type_tree.py", "lazy_type_hint/data_type_tree/generic_type/set_data_type_tree.py", "lazy_type_hint/data_type_tree/generic_type/dict_data_type_tree.py"]}
{"id": "C101", "title": "The hint of a YAML file", "statement": "The hint that from_yaml_file gives for a file with comments is that of the data in the file, plus the comments: without the docstrings of keys it equals the hint given for the same file without looking at comments and admits the data of the file, and every key of the mapping in the file is followed by the comments of its line, if there are any, as a docstring.", "quantifier": "all files with nested block mappings and block sequences of integers, truth values, null, words and quoted strings, with comments and blank lines anywhere, any indentation, all combinations of positions for comments, all class names, all loaders that read YAML", "why_tests_cant": "The comments travel through a rewritten text of the file, which is loaded again, and from there through hidden keys of the data. Every line of every file has to stay where it was, at every depth.", "anchors": ["lazy_type_hint/file_modifiers/yaml_file_modifier.py: YamlFileModifier", "lazy_type_hint/generators/lazy_type_hint_abc.py: LazyTypeHintABC.from_yaml_file", "lazy_type_hint/data_type_tree/generic_type/dict_data_type_tree.py: DictDataTypeTree"]}
{"id": "C102", "title": "Automatic checks guard pushes", "statement": "After check_code was told to enable automatic checks, and until it is told to disable them, git pushes code only if every linter passes; when they are disabled, pushes are not checked. Hooks that were there before stay as they are.", "quantifier": "all sequences of calls of check_code, all configurations and results of the tools at any time, all platforms", "why_tests_cant": "What a push does depends on the whole history of calls before it, on what was in the repository and on the platform. The tests do not cover the script.", "anchors": ["check_code.py: main, Arguments, parser_args, _setup_auto_run, _disable_auto_run, PRE_PUSH_TEMPLATE"]}
{"id": "C103", "title": "Resets during a call", "statement": "While one process generates hints live, others may call reset: neither the call nor a reset fails because of the other, every file is missing, as it was or complete afterwards, and every class in the registry has its file.", "quantifier": "all histories, all data and class names, any number of resets, all interleavings of their steps with those of the call", "why_tests_cant": "Which step of a reset falls between which steps of a call depends on the scheduler; the tests call one after the other in one process.", "anchors": ["lazy_type_hint/generators/lazy_type_hint_live.py: LazyTypeHintLive.reset, from_data, _create_custom_class_py, _add_new_class_to_loader_pyi, _update_this_file_pyi"]}
{"id": "C104", "title": "The printed outline of a tree", "statement": "print_all_children prints one line per tree, with its class and its name and four blanks per level, below each line those of its children in order, so that the structure of the tree can be read off the lines; with recursive=False only the tree and its children are printed.", "quantifier": "all data of any depth and size, all strategies, all depths", "why_tests_cant": "The lines are determined by the whole tree, whose shape depends on merging, on equal entries and on the limits; nothing tests the method.", "anchors": ["lazy_type_hint/data_type_tree/data_type_tree.py: DataTypeTree.print_all_children, __repr__"]}
