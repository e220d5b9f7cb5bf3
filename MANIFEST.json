{
 "claims": [
  {
   "property": "C01",
   "status": "proved",
   "theorems": [
    "Verif.Props.orderedSet_first_occurrences",
    "Verif.Props.orderedSet_readd"
   ],
   "note": "All add sequences."
  },
  {
   "property": "C02",
   "status": "proved",
   "theorems": [
    "Verif.Props.nameOk_iff",
    "Verif.Props.nameOk_ascii_ident",
    "Verif.Props.ascii_ident_nameOk"
   ],
   "note": "For every Unicode table with the ASCII laws."
  },
  {
   "property": "C03",
   "status": "partial",
   "theorems": [
    "Verif.Props.accepted_names_declarable_fails",
    "Verif.Props.accepted_names_declarable_partial",
    "Verif.Props.all_keywords_accepted"
   ],
   "note": "False of the code: every reserved keyword is accepted (negation proved). Partial: holds for accepted ASCII names that are not keywords."
  },
  {
   "property": "C04",
   "status": "partial",
   "theorems": [
    "Verif.Props.tree_calls_fails",
    "Verif.Props.tree_calls_fails_file",
    "Verif.Props.tree_calls_partial",
    "Verif.Props.tree_calls_iff",
    "Verif.Props.cached_history",
    "Verif.Props.cached_failure_not_remembered",
    "Verif.Props.calls_honour_arguments_iff"
   ],
   "note": "False of the code for every hint: the first call that makes the text decides for all later calls, also for the file that to_file writes (negations proved). Proved for histories of to_string and to_file whose calls all ask for the same; tree_calls_iff says that no other history of to_string works."
  },
  {
   "property": "C05",
   "status": "proved",
   "theorems": [
    "Verif.Props.imports_order_independent"
   ],
   "note": "All duplicate-free lists of known keywords, all widths."
  },
  {
   "property": "C06",
   "status": "proved",
   "theorems": [
    "Verif.Props.imports_bind_requested",
    "Verif.Props.imports_bind_requested_small_width"
   ],
   "note": "For widths of at least 26 columns; the code only uses 90. Below 26 the alias imports are wrapped wrongly (witness)."
  },
  {
   "property": "C07",
   "status": "proved",
   "theorems": [
    "Verif.Props.imports_future_first"
   ],
   "note": "Widths of at least 34 columns; the code only uses 90."
  },
  {
   "property": "C08",
   "status": "proved",
   "theorems": [
    "Verif.Props.imports_width",
    "Verif.Props.imports_width_default"
   ],
   "note": "All widths. A line that does not fit is the opening line, one symbol or the closing bracket of a wrapped import (at most 32 columns); at the width the code uses every line fits."
  },
  {
   "property": "C09",
   "status": "proved",
   "theorems": [
    "Verif.Props.imports_rejected_iff",
    "Verif.Props.imports_error_names_culprit"
   ],
   "note": ""
  },
  {
   "property": "C10",
   "status": "proved",
   "theorems": [
    "Verif.Props.docText_spec",
    "Verif.Props.formatDoc_words",
    "Verif.Props.splitString_keeps_words"
   ],
   "note": ""
  },
  {
   "property": "C100",
   "status": "partial",
   "theorems": [
    "Verif.Props.table_hint_partial",
    "Verif.Props.table_hint_fails",
    "Verif.Props.table_hint_mixed_fails"
   ],
   "note": "False of the code for the thresholds 29, 57 and 58 (the share is rounded down) and for rows with values of different classes under one key, which are not merged whatever they share (negations proved). Proved as an equivalence for all well-behaved rows with values other than None and all other thresholds, both if the rows are merged and if they are not."
  },
  {
   "property": "C101",
   "status": "partial",
   "theorems": [
    "Verif.Props.temporary_document_partial",
    "Verif.Props.temporary_document_side",
    "Verif.Props.yaml_hint_partial",
    "Verif.Props.yaml_hint_sound_partial",
    "Verif.Props.yaml_docs_partial",
    "Verif.Props.yaml_docs_inner_partial",
    "Verif.Props.yaml_docs_rows_partial",
    "Verif.Props.yaml_docs_inner_rows_partial",
    "Verif.Props.yaml_row_docs_agreed",
    "Verif.Props.underscore_comments_fails",
    "Verif.Props.text_blocks_fails"
   ],
   "note": "Proved for all files with nested block mappings and sequences as described in Spec/YamlData (how they are written, and their data), if dictionaries become TypedDicts: the temporary file is the same document with the comments as text blocks under hidden keys right before their keys, at every depth; so from the text of the file to the text of the hint. With comments beside the keys there is no further condition; comments above or below must not wrap around or begin with blanks. The loader is any function that gives for these two files the data YAML defines. Docstrings are shown for the mapping at the top and for every mapping found by following keys, unless it or one on the way comes after a mapping with the same keys (C88). In a document that is a list of mappings, and for lists of mappings found by following keys (behind no other sequences than those of scalars), every inspected mapping is described by a class with its keys; the docstrings are made of the comments of the lines of that key in the mappings, and a key whose line has comments in this mapping has a docstring (unless it begins with an underscore and is not the first key: such comments are lost, negation proved); if the mappings do not contradict each other, the comments of a key are shown as they are. Text blocks in the file are changed by the extraction (negation proved). Missing: flow style, anchors, several documents, text blocks; docstrings for mappings inside the elements of lists."
  },
  {
   "property": "C102",
   "status": "partial",
   "theorems": [
    "Verif.Props.push_guarded_partial",
    "Verif.Props.run_status",
    "Verif.Props.both_choices_refused",
    "Verif.Props.push_guarded_fails",
    "Verif.Props.never_guarded",
    "Verif.Props.push_guarded_other_fails",
    "Verif.Props.switch_texts_fails"
   ],
   "note": "False of the code where files have permissions: the hook is not executable, so git ignores it after every sequence of calls (proved for all of them). False if there is another hook already: it is taken for the own one and deleted when checks are disabled (negations proved). Proved for platforms without permissions and repositories without hooks, for all sequences of calls and all results. argparse, git and the shell are modelled by what they do with these options and this script."
  },
  {
   "property": "C103",
   "status": "partial",
   "theorems": [
    "Verif.Props.nothing_torn",
    "Verif.Props.call_despite_resets_partial",
    "Verif.Props.registry_has_files_partial",
    "Verif.Props.single_reset_succeeds",
    "Verif.Props.call_despite_resets_fails",
    "Verif.Props.registry_has_files_fails",
    "Verif.Props.reset_blocks",
    "Verif.Props.two_resets_fail"
   ],
   "note": "That no file is torn and that a single reset never fails is proved for all schedules. The rest is false of the code: a reset before the class file is opened makes the call raise FileNotFoundError; a reset between the class file and the stub leaves a registered class without its file, which blocks all further generators; two resets race for the directory (negations proved). Proved for all schedules in which the directory is not removed during the call: the call has the outcome and class files it has alone, only the stub may be missing, and every registered class has its file. One process calls; a file removed while open is lost (POSIX)."
  },
  {
   "property": "C104",
   "status": "partial",
   "theorems": [
    "Verif.Props.shows_tree_partial",
    "Verif.Props.outline_read_partial",
    "Verif.Props.outline_unique_partial",
    "Verif.Props.outline_first",
    "Verif.Props.outline_entries",
    "Verif.Props.recursive_ignored",
    "Verif.Props.shows_children_iff",
    "Verif.Props.shows_tree_fails",
    "Verif.Props.shows_children_fails"
   ],
   "note": "False of the code for mappings with the key None, from which on nothing is printed, and for recursive=False, which has no influence (negations proved; the exact condition under which it does what it says is proved). Proved for all other data: the lines are those of the whole tree, and reading them by their indentation gives back the tree; below a mapping is one line per inspected entry with the class for its value. The output is the list of printed texts."
  },
  {
   "property": "C11",
   "status": "partial",
   "theorems": [
    "Verif.Props.splitString_width",
    "Verif.Props.docstring_width_partial",
    "Verif.Props.docstring_fits_fails",
    "Verif.Props.docstring_fits_fails_blanks"
   ],
   "note": "The splitter respects the width; the whole docstring does not, because quotes and indentation are not counted, and blanks between the words are neither (negations proved; there is no bound on the excess). Proved: without such blanks no line exceeds the width, the indentation and six quotes, and no line of a docstring of several lines exceeds the width and the indentation."
  },
  {
   "property": "C12",
   "status": "partial",
   "theorems": [
    "Verif.Props.docstring_literal_fails",
    "Verif.Props.docstring_literal_noquote_partial",
    "Verif.Props.docstring_literal_partial"
   ],
   "note": "False for texts with three quotes or ending in a quote or backslash (negation proved)."
  },
  {
   "property": "C13",
   "status": "proved",
   "theorems": [
    "Verif.Props.strategies_accept_iff",
    "Verif.Props.strategies_values",
    "Verif.Props.strategies_words"
   ],
   "note": ""
  },
  {
   "property": "C14",
   "status": "partial",
   "theorems": [
    "Verif.Props.names_always_valid_fails",
    "Verif.Props.names_always_valid_partial",
    "Verif.Props.fresh_name_unused"
   ],
   "note": "False for keys with letters whose upper case contains a combining mark (negation proved). Partial: all other data, in particular all ASCII data."
  },
  {
   "property": "C15",
   "status": "partial",
   "theorems": [
    "Verif.Props.camel_keeps_letters",
    "Verif.Props.camel_alnum",
    "Verif.Props.camel_idempotent_fails",
    "Verif.Props.camel_fixpoint",
    "Verif.Props.camel_idempotent_partial"
   ],
   "note": "The letters-and-digits part is proved in full; idempotence is false (key \"_1a\", negation proved) and proved for results that start with a capital letter."
  },
  {
   "property": "C16",
   "status": "partial",
   "theorems": [
    "Verif.Props.generation_total_fails",
    "Verif.Props.generation_total_fails_sourceless",
    "Verif.Props.generation_total_partial",
    "Verif.Props.construction_terminates",
    "Verif.Props.ordinary_ascii"
   ],
   "note": "False for functions without inspectable signature or source and for exotic letters (negations proved). Partial: all other finite data, all strategies, all set orders."
  },
  {
   "property": "C17",
   "status": "partial",
   "theorems": [
    "Verif.Props.check_never_fires",
    "Verif.Props.own_kind_partial",
    "Verif.Props.other_instances",
    "Verif.Props.own_kind_fails"
   ],
   "note": "Subclasses of supported types get the tree of the closest supported ancestor and the development-mode check never fires. False for open files: they satisfy the structural Iterator check and are handled, and consumed, as iterators."
  },
  {
   "property": "C18",
   "status": "partial",
   "theorems": [
    "Verif.Props.declared_before_use_partial",
    "Verif.Props.declared_before_use_fails"
   ],
   "note": "In general false: class names that are not in camel case are referenced in camel case, and keys of classes that are not builtin (and None keys) put undeclared, unimported class names in key types. Proved for all regular, neat data with builtin keys and camel-case class names: the text is the printed form of declarations each of which uses only library names, builtins and names declared before it."
  },
  {
   "property": "C19",
   "status": "partial",
   "theorems": [
    "Verif.Props.requested_name_last_partial",
    "Verif.Props.requested_name_last_fails"
   ],
   "note": "In general false: keys that contribute nothing to names (such as the empty string) can make the class coincide with an earlier declaration. Proved for data in which every class and key contributes to names."
  },
  {
   "property": "C20",
   "status": "partial",
   "theorems": [
    "Verif.Props.one_definition_partial",
    "Verif.Props.clearNames_sequences",
    "Verif.Props.one_definition_fails",
    "Verif.Props.one_definition_fails_shared"
   ],
   "note": "In general false: keys that only differ in separators give the same name, and equal values nested in equal values are renamed once per place. Proved for data of any depth with clear names: string keys that begin with a letter and contribute differently to names, no equal values inside equal values, tuples without equal collections; this includes frames, and all sequences, sets, iterators and series nested in any way."
  },
  {
   "property": "C21",
   "status": "partial",
   "theorems": [
    "Verif.Props.hint_sound_clear_partial",
    "Verif.Props.hint_sound_coherent_partial",
    "Verif.Props.hint_sound_partial",
    "Verif.Props.hint_sound_tame_partial",
    "Verif.Props.hint_sound_comments_partial",
    "Verif.Props.hint_sound_limited_partial",
    "Verif.Props.hint_sound_fails",
    "Verif.Props.classes_told_apart_fails",
    "Verif.Props.empties_told_apart_fails",
    "Verif.Props.frames_told_apart_fails"
   ],
   "note": "The generated text is read back by an independent reader and its declarations admit the value, and every value that it covers. Proved for data of any depth that mix plain instances, classes, modules, files, arrays, lambdas, functions without a signature, sequences of all kinds, dictionaries, mapping proxies and data frames with plain string labels, empty or not, with dictionaries that are merged at any level, if the data is coherent: values under shared keys of dictionaries in one sequence cover each other, and values that the generator cannot tell apart (sets and frozensets, merged and separate dictionaries) need no different hints. ASCII names; with clear names (see C20) nothing more is assumed, otherwise that no name is declared twice. Data with comments (hidden keys) admit the same up to docstrings (hint_sound_comments_partial). If there are more elements than are inspected, the hint admits the inspected part, and everything if the other elements are like inspected ones (hint_sound_limited_partial). Missing: None keys, functions defined by def (whose hint is not sound, see C67), frames with other labels. False in general (negations proved with dictionaries that are merged although a shared key holds lists of different element types, with two classes in one list, with arrays of different element types in one list, with lists that contain empty collections of different kinds, and with data frames in one list that have the same columns but other types of cells)."
  },
  {
   "property": "C22",
   "status": "proved",
   "theorems": [
    "Verif.Props.scalar_sequence_sound",
    "Verif.Props.scalar_tuple_sound",
    "Verif.Props.fixed_tuple_positions_partial",
    "Verif.Props.empty_tuple_sound",
    "Verif.Props.shadowing_name_unsound"
   ],
   "note": "All kinds, lengths within any limit, set orders and strategies for which generation succeeds; tuples under the fixed strategy by the third and fourth theorem. Class names of elements consist of letters, digits and underscores, as those of class statements do. That the class name must not be an identifier of the hint is necessary: witness with class name int."
  },
  {
   "property": "C23",
   "status": "proved",
   "theorems": [
    "Verif.Props.hint_of_first_elements",
    "Verif.Props.hint_ignores_rest"
   ],
   "note": "All limits, kinds, elements, strategies, set orders."
  },
  {
   "property": "C24",
   "status": "partial",
   "theorems": [
    "Verif.Props.fixed_tuple_positions_partial",
    "Verif.Props.fixed_tuple_positions_fails"
   ],
   "note": "All non-empty tuples; the empty tuple gives Tuple[Any, ...] (negation proved)."
  },
  {
   "property": "C25",
   "status": "partial",
   "theorems": [
    "Verif.Props.scalar_sequence_order_free_partial",
    "Verif.Props.scalar_sequence_order_free_fails"
   ],
   "note": "False of the code for lists longer than the element limit (witness: limit 1). For all others: all pairs of sequences with the same set of element types, all set orders, with or without imports; lists, sets, frozensets, iterators, series and any-size tuples."
  },
  {
   "property": "C26",
   "status": "partial",
   "theorems": [
    "Verif.Props.deterministic_fails",
    "Verif.Props.deterministic_fails_nested",
    "Verif.Props.deterministic_partial",
    "Verif.Props.deterministic_ordinary_partial",
    "Verif.Props.deterministic_scalars_partial"
   ],
   "note": "False: the declarations of several dictionaries, or of several nested lists, in one list follow the iteration order of a set (negations proved). Partial: data of any nesting in which those elements of a sequence that need a declaration are alike (same classes, keys and positions) have the same text, imports included, under every iteration order: if one order yields a text, every order yields this text. See C93 for other data."
  },
  {
   "property": "C27",
   "status": "proved",
   "theorems": [
    "Verif.Props.typed_dict_mirrors_keys",
    "Verif.Props.nested_typed_dict_mirrors_keys"
   ],
   "note": "All dictionaries with string keys, at the root and nested in a list."
  },
  {
   "property": "C28",
   "status": "partial",
   "theorems": [
    "Verif.Props.typed_dict_syntax_partial",
    "Verif.Props.class_syntax_is_legal",
    "Verif.Props.typed_dict_syntax_fails"
   ],
   "note": "False in the exact form: a key that is a single underscore and a hidden key without owner also force functional syntax (negation proved). Class syntax is only ever chosen when it is legal."
  },
  {
   "property": "C29",
   "status": "partial",
   "theorems": [
    "Verif.Props.functional_keys_faithful_partial",
    "Verif.Props.functional_keys_faithful_fails"
   ],
   "note": "False for keys with quotes, backslashes or line breaks, which are not escaped (negation proved)."
  },
  {
   "property": "C30",
   "status": "partial",
   "theorems": [
    "Verif.Props.merged_keys_and_required_partial",
    "Verif.Props.mixed_keys_and_required",
    "Verif.Props.mixed_anysize_tuple",
    "Verif.Props.mixed_fixed_tuple",
    "Verif.Props.merged_keys_and_required_fails"
   ],
   "note": "All lists, sets, iterators and series of dictionaries with string keys, any number and overlap, also longer than the element limit (the theorem speaks of the inspected elements). False of the code for dictionaries inside lists below a shared key: a key found in only one of them is required (negation proved). The mixed_ theorems cover sequences in which dictionaries stand next to any other values, tuples of both strategies included. Missing: data that is not regular (functions without source, frames with labels that are not literals, exotic letters)."
  },
  {
   "property": "C31",
   "status": "partial",
   "theorems": [
    "Verif.Props.merge_sound_coherent_partial",
    "Verif.Props.merge_sound_partial",
    "Verif.Props.merge_sound_fails"
   ],
   "note": "Proved for sequences of dictionaries whose shared keys hold values that cover each other (merged or not), with further merged dictionaries and collections of all kinds inside. False otherwise: values of the same class but different element types are overwritten (negation proved)."
  },
  {
   "property": "C32",
   "status": "partial",
   "theorems": [
    "Verif.Props.merge_threshold_partial",
    "Verif.Props.mixed_threshold_partial",
    "Verif.Props.mixed_anysize_tuple",
    "Verif.Props.mixed_fixed_tuple",
    "Verif.Props.merge_threshold_fails",
    "Verif.Props.exact_thresholds",
    "Verif.Props.percent_reaches"
   ],
   "note": "Proved for every threshold except 29, 57 and 58, for which a share of exactly the threshold is rounded down (negation proved: 29 of 50 keys with threshold 58). The claim is about dictionaries whose shared keys hold values of the same class, with fewer than 2^40 keys. Sequences of any length: the shares are those of the inspected elements. The mixed_ theorems say the same of sequences with other values among the dictionaries, and of tuples."
  },
  {
   "property": "C33",
   "status": "partial",
   "theorems": [
    "Verif.Props.equal_alike_partial",
    "Verif.Props.equal_sound_coherent_partial",
    "Verif.Props.equal_sound_partial",
    "Verif.Props.equal_sound_fails"
   ],
   "note": "Trees of coherent data that are considered equal belong to values of the same kind that are alike, and where alike values cover each other the hint of one admits the other. False in general: sets and frozensets are considered equal (negation proved)."
  },
  {
   "property": "C34",
   "status": "proved",
   "theorems": [
    "Verif.Props.rename_keeps_structure",
    "Verif.Props.rename_root",
    "Verif.Props.rename_keeps_hash",
    "Verif.Props.rename_keeps_height",
    "Verif.Props.rename_replaces_prefix_partial",
    "Verif.Props.rename_replaces_prefix_fails",
    "Verif.Props.garbled_alias_name"
   ],
   "note": "All trees and names. Also recorded: a node shared by several slots is renamed once per slot, which garbles its alias name (witness)."
  },
  {
   "property": "C35",
   "status": "partial",
   "theorems": [
    "Verif.Props.height_is_nesting_partial",
    "Verif.Props.levels_are_nesting_partial",
    "Verif.Props.height_is_nesting_fails",
    "Verif.Props.height_is_nesting_fails_none"
   ],
   "note": "False when merged dictionaries hold values of different depth under the same key (only the last value counts) and with None keys. Proved for all other data without frames. levels_are_nesting_partial says the same of the levels a reader counts in the generated text, for data as in C18 and C20."
  },
  {
   "property": "C36",
   "status": "partial",
   "theorems": [
    "Verif.Props.alias_levels_partial",
    "Verif.Props.alias_threshold_partial",
    "Verif.Props.perm_iff",
    "Verif.Props.alias_threshold_fails"
   ],
   "note": "False for frames with literal labels, which always get a class. Proved for the whole text (named collections have more than min_height levels, written-out ones at most that many) for data without frames as in C18 and C20; for a value nested in a one-entry dictionary (exact declarations); and, as perm_iff, for every nested node, for data as in C35."
  },
  {
   "property": "C37",
   "status": "partial",
   "theorems": [
    "Verif.Props.symbols_imported_partial",
    "Verif.Props.symbols_imported_fails",
    "Verif.Props.symbols_imported_named_partial"
   ],
   "note": "Every library symbol used in a declaration is bound by the import block of the same text. Proved unless a key class or a generated name is itself called like a library symbol. False otherwise: a class of the user called Sequence is printed unimported in key types (negation proved)."
  },
  {
   "property": "C38",
   "status": "proved",
   "theorems": [
    "Verif.Props.layout_keeps_strings",
    "Verif.Props.text_keeps_declarations"
   ],
   "note": "All lists of strings."
  },
  {
   "property": "C39",
   "status": "partial",
   "theorems": [
    "Verif.Props.rename_declaration_fails",
    "Verif.Props.rename_declaration_fails_class",
    "Verif.Props.rename_declaration_partial",
    "Verif.Props.rename_alias",
    "Verif.Props.rename_functional"
   ],
   "note": "False for aliases (annotation lost, wrong old name), functional TypedDicts (name literal kept), and records in which a class whose name ends in class stands at the end of a line (the next key is replaced; negation proved); the first two are characterised. Proved for all other declarations in class syntax without equals signs."
  },
  {
   "property": "C40",
   "status": "partial",
   "theorems": [
    "Verif.Props.param_imports_partial",
    "Verif.Props.return_imports_partial",
    "Verif.Props.signature_imports_fails",
    "Verif.Props.signature_imports_fails_type"
   ],
   "note": "False: only the text of an annotation before its first comma or white space is searched, and Type, np, pd, Scalar are never translated to the keywords that import them. Proved for every other symbol in annotations without commas, white space and colons, whatever the other parameters are."
  },
  {
   "property": "C41",
   "status": "partial",
   "theorems": [
    "Verif.Props.iterator_consumption_fails",
    "Verif.Props.iterator_consumption_partial",
    "Verif.Props.loop_inspects_limit"
   ],
   "note": "False by one: the loop takes one element more than the limit from the iterator (negation proved). Partial: exactly n+1 are consumed, exactly n inspected. See C94 for iterators that are read again."
  },
  {
   "property": "C42",
   "status": "partial",
   "theorems": [
    "Verif.Props.every_entry_counts_partial",
    "Verif.Props.map_text",
    "Verif.Props.every_entry_counts_fails",
    "Verif.Props.every_entry_admitted_partial",
    "Verif.Props.every_entry_admitted_clear_partial"
   ],
   "note": "False with None keys: the None entry and those after it do not contribute to the value type. Proved for flat dictionaries/proxies without None keys, limit not reached; map_text gives the exact text in general. every_entry_admitted_partial says it for nested values of all kinds that are coherent (C21), with any keys but None."
  },
  {
   "property": "C43",
   "status": "partial",
   "theorems": [
    "Verif.Props.to_file_value_error",
    "Verif.Props.to_file_writes_exactly",
    "Verif.Props.to_file_of_data",
    "Verif.Props.to_file_failure_keeps",
    "Verif.Props.to_file_succeeds_partial",
    "Verif.Props.to_file_exact_fails"
   ],
   "note": "The conditions of the ValueError and the exactness of the written text are proved for all file-system states, and that a failing call leaves everything that existed as it was. That the call succeeds in all other cases is false (path is a directory, ancestor is a file); proved when no such obstacle exists."
  },
  {
   "property": "C44",
   "status": "proved",
   "theorems": [
    "Verif.Props.live_registry",
    "Verif.Props.live_stub_lines",
    "Verif.Props.live_registry_one_at_a_time",
    "Verif.Props.live_call_outcome",
    "Verif.Props.live_edits_never_fail"
   ],
   "note": "Refinement of a small specification (a list of classes and their texts) by the generators, the stub file and the class files, over all finite histories in which the generators called are up to date. live_stub_lines gives the lines a type checker sees. live_edits_never_fail holds for every history."
  },
  {
   "property": "C45",
   "status": "proved",
   "theorems": [
    "Verif.Props.live_other_classes"
   ],
   "note": "For every generator, disk, class and value, in all states of the disk during the call."
  },
  {
   "property": "C46",
   "status": "proved",
   "theorems": [
    "Verif.Props.live_overwrite",
    "Verif.Props.live_success_text",
    "Verif.Props.live_validate",
    "Verif.Props.live_validate_documented",
    "Verif.Props.live_validate_undocumented",
    "Verif.Props.live_failure_keeps_disk",
    "Verif.Props.live_validation_sharp"
   ],
   "note": "Two of the theorems restate the condition line by line, for documented and undocumented hints. A call that raises changes nothing; a validating call that succeeds rewrites the file. Docstrings that are added or removed: see C47."
  },
  {
   "property": "C47",
   "status": "partial",
   "theorems": [
    "Verif.Props.live_docs_partial",
    "Verif.Props.live_docs_fails",
    "Verif.Props.live_docs_fails_multiline"
   ],
   "note": "False of the code: removing a docstring, or editing one of several lines, makes validation fail. Proved for texts with docstring delimiters in the same lines."
  },
  {
   "property": "C48",
   "status": "proved",
   "theorems": [
    "Verif.Props.live_crash_registry",
    "Verif.Props.reset_crash_fails"
   ],
   "note": "For calls, after every history, at every moment (also while a file is being written). reset_crash_fails records that reset, which is not a call, removes the class files before the stub."
  },
  {
   "property": "C49",
   "status": "partial",
   "theorems": [
    "Verif.Props.crash_recovery_partial",
    "Verif.Props.crash_recovery_fails",
    "Verif.Props.crash_recovery_fails_torn",
    "Verif.Props.crash_recovery_fails_validate"
   ],
   "note": "False of the code once the registry has been written, while the stub is being written, and for validating generators. Proved for calls stopped before the stub is written."
  },
  {
   "property": "C50",
   "status": "partial",
   "theorems": [
    "Verif.Props.lost_update_partial",
    "Verif.Props.lost_update_fails",
    "Verif.Props.live_last_writer"
   ],
   "note": "False of the code for generators that do not read the stub again. Proved when only up-to-date generators are called; live_last_writer says exactly what remains otherwise."
  },
  {
   "property": "C51",
   "status": "partial",
   "theorems": [
    "Verif.Props.live_returns_data",
    "Verif.Props.live_yaml_returns_partial",
    "Verif.Props.live_yaml_returns_fails"
   ],
   "note": "from_data returns its argument. For YAML files the claim is false: the live generator returns the data of the temporary file, with comments as additional entries (negation proved). Proved: without comments_are the loader's value is returned, otherwise that of the file or of the text with comments as keys."
  },
  {
   "property": "C52",
   "status": "partial",
   "theorems": [
    "Verif.Props.assignment_readback_partial",
    "Verif.Props.assignment_readback_quoted_partial",
    "Verif.Props.assignment_readback_fails",
    "Verif.Props.assignment_readback_fails_empty"
   ],
   "note": "A text in quotes is read back without them. False of the code for values with an equals sign, quotes at the ends, white space at the ends, and the empty value."
  },
  {
   "property": "C53",
   "status": "proved",
   "theorems": [
    "Verif.Props.registry_roundtrip"
   ],
   "note": "All lists of class names, in memory and read again from the file."
  },
  {
   "property": "C54",
   "status": "partial",
   "theorems": [
    "Verif.Props.quote_aware_search_partial",
    "Verif.Props.quote_aware_search_none_partial",
    "Verif.Props.quote_aware_search_quote",
    "Verif.Props.quote_aware_search_fails"
   ],
   "note": "All lines and all characters but quotation marks. For these the statement is false: they are never found (negation proved)."
  },
  {
   "property": "C55",
   "status": "proved",
   "theorems": [
    "Verif.Props.injection_keeps_document",
    "Verif.Props.injection_keeps_lines",
    "Verif.Props.becomes_kept"
   ],
   "note": "All documents and comment positions. injection_keeps_document gives the exact new lines."
  },
  {
   "property": "C56",
   "status": "partial",
   "theorems": [
    "Verif.Props.comments_attached_partial",
    "Verif.Props.comments_attached_fails"
   ],
   "note": "False of the code: from the first line the search goes on at the last line. Proved, for all three positions and any combination of them, for documents in which this cannot happen."
  },
  {
   "property": "C57",
   "status": "partial",
   "theorems": [
    "Verif.Props.extraction_succeeds_partial",
    "Verif.Props.extraction_succeeds_fails",
    "Verif.Props.extraction_succeeds_fails_dash",
    "Verif.Props.lone_dash_fails"
   ],
   "note": "False of the code: a line with a dash alone (lone_dash_fails, for every such document) and a dash in the first column not followed by a blank raise IndexError. Proved for all other documents."
  },
  {
   "property": "C58",
   "status": "proved",
   "theorems": [
    "Verif.Props.joined_comments"
   ],
   "note": "All lists of comment lines, for every Unicode table that satisfies the stated laws."
  },
  {
   "property": "C59",
   "status": "proved",
   "theorems": [
    "Verif.Props.yaml_opened_iff",
    "Verif.Props.yaml_falls_back",
    "Verif.Props.yaml_with_comments",
    "Verif.Props.yaml_fails_only",
    "Verif.Props.live_yaml_falls_back",
    "Verif.Props.live_yaml_is_call"
   ],
   "note": "All files, loaders and failures, for both generators. For live generators after every history."
  },
  {
   "property": "C60",
   "status": "partial",
   "theorems": [
    "Verif.Props.temp_files_partial",
    "Verif.Props.temp_files_fails"
   ],
   "note": "False of the code for files of the same name (in different directories): they share one temporary file. Proved, for all interleavings, for a call whose file name no other call uses."
  },
  {
   "property": "C61",
   "status": "proved",
   "theorems": [
    "Verif.Props.compare_exact",
    "Verif.Props.compare_equivalence"
   ],
   "note": "All trees whose nodes have the attributes of their class, all options. essence is the specification of what counts."
  },
  {
   "property": "C62",
   "status": "partial",
   "theorems": [
    "Verif.Props.compare_keeps_trees_partial",
    "Verif.Props.compare_keeps_trees_fails"
   ],
   "note": "False of the code: ignoring imports removes them from the second tree (negation proved). Proved: otherwise nothing changes, and never anything but such imports."
  },
  {
   "property": "C63",
   "status": "partial",
   "theorems": [
    "Verif.Props.scan_string_partial",
    "Verif.Props.scan_string_fails",
    "Verif.Props.scan_file_partial",
    "Verif.Props.scan_file_fails"
   ],
   "note": "False of the code: scan_string loses errors without a code, scan_file ignores only lines with all keywords (negations proved). Proved for outputs in which every error has a code, and for at most one keyword."
  },
  {
   "property": "C64",
   "status": "proved",
   "theorems": [
    "Verif.Props.gate_exact"
   ],
   "note": "All tools, results and completion orders. Running the tools is not modelled."
  },
  {
   "property": "C65",
   "status": "partial",
   "theorems": [
    "Verif.Props.selection_partial",
    "Verif.Props.selection_fails"
   ],
   "note": "False of the code for a single name, which is matched by substring (negation proved). Proved for lists of names other than the special name all linters."
  },
  {
   "property": "C66",
   "status": "partial",
   "theorems": [
    "Verif.Props.ignored_lines_partial",
    "Verif.Props.ignored_lines_fails"
   ],
   "note": "False of the code together with only_include (negation proved). Proved without it."
  },
  {
   "property": "C67",
   "status": "partial",
   "theorems": [
    "Verif.Props.function_calls_partial",
    "Verif.Props.lambda_calls_partial",
    "Verif.Props.function_calls_fails"
   ],
   "note": "False of the code for every function without *args: the hint method has no parameter for the object itself (negation proved for all of them). Proved for functions whose only positional parameter is *args, and for lambdas exactly when it holds."
  },
  {
   "property": "C68",
   "status": "partial",
   "theorems": [
    "Verif.Props.function_return_partial",
    "Verif.Props.function_return_annotated",
    "Verif.Props.function_return_fails",
    "Verif.Props.function_return_fails_shared"
   ],
   "note": "False of the code for generators, and for functions with equal signatures in one container, which share the hint of the first (negations proved). Proved for a function on its own whose body has no yield; annotations are kept for all functions."
  },
  {
   "property": "C69",
   "status": "partial",
   "theorems": [
    "Verif.Props.frame_columns_partial",
    "Verif.Props.frame_columns_clear_partial",
    "Verif.Props.frame_columns_fails"
   ],
   "note": "False of the code if two columns get the same declared name (negation proved). Proved for all frames with literal labels: one overload per column, with its label and its hint (an inline type or the name under which the hint of the column is declared); and if the names are clear (see C20) this is the only declaration of that name."
  },
  {
   "property": "C70",
   "status": "partial",
   "theorems": [
    "Verif.Props.frame_strategy_partial",
    "Verif.Props.frame_strategy_fails"
   ],
   "note": "False of the code: the strategy only affects which frames count as equal, not the text (negation proved for all frames with literal labels). Proved for frames without columns."
  },
  {
   "property": "C71",
   "status": "partial",
   "theorems": [
    "Verif.Props.class_names_resolve_partial",
    "Verif.Props.class_names_resolve_fails",
    "Verif.Props.quoted_names"
   ],
   "note": "False of the code for every class that is not builtin (negation proved for all of them). Proved: every quoted name is an array type or the name of such a class in the data, so nothing is unresolved without them."
  },
  {
   "property": "C72",
   "status": "partial",
   "theorems": [
    "Verif.Props.no_unused_imports_partial",
    "Verif.Props.no_unused_imports_fails",
    "Verif.Props.no_unused_imports_fails_function"
   ],
   "note": "False of the code: TypeAlias is imported for collections described in place, List for a function annotated with list (negations proved). Proved for all other symbols and signatures; TypeAlias only if the value is described by an alias."
  },
  {
   "property": "C73",
   "status": "partial",
   "theorems": [
    "Verif.Props.declarations_referenced_partial",
    "Verif.Props.declarations_referenced_fails",
    "Verif.Props.declarations_referenced_fails_frame"
   ],
   "note": "False of the code for class names not in camel case (declared as given, referred to in camel case) and for frames in which some but not all labels are tuples (negations proved). Proved for all other data with ASCII keys and classes, all strategies and camel case class names."
  },
  {
   "property": "C74",
   "status": "partial",
   "theorems": [
    "Verif.Props.private_removed_partial",
    "Verif.Props.private_removed_fails",
    "Verif.Props.private_removed_fails_blank",
    "Verif.Props.private_removed_fails_twice"
   ],
   "note": "False of the code: the line below a private method is removed whatever it is, and a body only up to its first blank line (negations proved). Proved for all files in which private methods contain no blank lines and are followed by one or by the end of the file."
  },
  {
   "property": "C75",
   "status": "partial",
   "theorems": [
    "Verif.Props.imports_on_top",
    "Verif.Props.imports_below",
    "Verif.Props.imports_in_block_partial",
    "Verif.Props.imports_in_block_fails",
    "Verif.Props.future_first_partial",
    "Verif.Props.future_first_fails"
   ],
   "note": "False of the code: any line that contains the words is taken for the block, and imports are put above those from __future__ (negations proved). Proved: imports are kept together and in order and other lines stay, for all files; in the block if its line is the first with these words."
  },
  {
   "property": "C76",
   "status": "partial",
   "theorems": [
    "Verif.Props.isMethod_iff",
    "Verif.Props.methods_found_partial",
    "Verif.Props.methods_found_fails"
   ],
   "note": "False of the code: methods whose name begins with the given one are found too (negation proved). Proved for files without such names."
  },
  {
   "property": "C77",
   "status": "partial",
   "theorems": [
    "Verif.Props.signature_complete_partial",
    "Verif.Props.signature_complete_fails",
    "Verif.Props.signature_complete_fails_decorator"
   ],
   "note": "False of the code: the first line with a closing bracket or a colon ends the signature, also one of a decorator (negations proved). Proved for signatures with these in the last line only."
  },
  {
   "property": "C78",
   "status": "partial",
   "theorems": [
    "Verif.Props.inherit_partial",
    "Verif.Props.inherit_fails",
    "Verif.Props.inherit_alias",
    "Verif.Props.inherit_functional"
   ],
   "note": "False of the code for aliases, for which the text is no Python (negation proved), and for functional TypedDicts, which keep their old name as an argument; the exact text is proved for both. Proved for declarations in class syntax as in C39."
  },
  {
   "property": "C79",
   "status": "partial",
   "theorems": [
    "Verif.Props.only_bodies_change",
    "Verif.Props.bodies_removed_partial",
    "Verif.Props.bodies_removed_fails"
   ],
   "note": "False of the code for async functions, which keep their bodies (negation proved). Proved for all trees: nothing else changes; and for trees without async functions: no body is left. Parsing and printing are not modelled."
  },
  {
   "property": "C80",
   "status": "partial",
   "theorems": [
    "Verif.Props.valid_python_partial",
    "Verif.Props.valid_python_fails",
    "Verif.Props.valid_reference_fails",
    "Verif.Props.valid_labels_fails"
   ],
   "note": "False of the code (negations proved): class names that are keywords, class names with an underscore and a digit in front, frames in which some but not all labels are tuples. Proved, with and without imports and for all strategies, for data in ASCII whose keys need no escaping between quotes and whose documentation has neither three quotes nor both quotes and backslashes, under a class name that starts with a letter and does not begin a keyword. What is copied from functions and labels is a parameter of the grammar."
  },
  {
   "property": "C81",
   "status": "partial",
   "theorems": [
    "Verif.Props.columns_described_partial",
    "Verif.Props.columns_described_fails",
    "Verif.Props.columns_mixed_fails"
   ],
   "note": "False of the code (negations proved): one label that is neither a string nor an integer nor a truth value hides all columns, and columns with tuples next to other labels are not described. Proved for all frames whose labels have the same number of levels and literal keys. What indexing returns is modelled after pandas."
  },
  {
   "property": "C82",
   "status": "partial",
   "theorems": [
    "Verif.Props.reading_terminates_partial",
    "Verif.Props.reading_terminates_fails"
   ],
   "note": "False of the code (negation proved for all frames with literal labels): if two columns have the same label the recursion never ends. Proved for all frames without repeated labels, with a bound on the recursion."
  },
  {
   "property": "C83",
   "status": "proved",
   "theorems": [
    "Verif.Props.recursion_exact",
    "Verif.Props.recursion_error",
    "Verif.Props.endless_raises",
    "Verif.Props.finite_succeeds"
   ],
   "note": "All data, strategies and limits; the result within the limit is the result without it, or there are too many levels and no hint is returned. That the failure is RecursionError is proved for ordinary data (C16); other data may fail earlier for another reason. Levels are nested constructions of trees, each of which takes a bounded number of Python frames. Objects that contain themselves are seen from ever farther away."
  },
  {
   "property": "C84",
   "status": "partial",
   "theorems": [
    "Verif.Props.loop_visits_partial",
    "Verif.Props.loop_leaves_others",
    "Verif.Props.nested_loops_visit",
    "Verif.Props.loop_visits_fails",
    "Verif.Props.loop_visits_fails_nested",
    "Verif.Props.loop_visits_fails_endless"
   ],
   "note": "False of the code (negations proved for every tree with two children): a tree is its own iterator, so a loop inside of a loop over the same sequence ends the outer one after its first child, and a search in the same tree makes it run for ever. Proved for all bodies that leave the position in this tree alone, with loops over other trees."
  },
  {
   "property": "C85",
   "status": "proved",
   "theorems": [
    "Verif.Props.docstring_layout",
    "Verif.Props.fill_unique"
   ],
   "note": "Says for every text which of the two layouts is used, and gives the lines of the second one; greedy filling determines the lines (fill_unique). Lines of blanks are dropped, unlike empty lines, which the specification reflects."
  },
  {
   "property": "C86",
   "status": "partial",
   "theorems": [
    "Verif.Props.decorators_found_partial",
    "Verif.Props.decorators_found_fails",
    "Verif.Props.decorators_found_fails_longer"
   ],
   "note": "False of the code if a method has several decorators (only the last is looked at), and for decorators whose name begins with the given one (negations proved). Proved for all other files. The method is not in the first line (there the code looks at the last line of the file)."
  },
  {
   "property": "C87",
   "status": "partial",
   "theorems": [
    "Verif.Props.comments_only_document_partial",
    "Verif.Props.comments_only_document_fails",
    "Verif.Props.comments_only_document_fails_unowned"
   ],
   "note": "False of the code in general (negations proved): comments use up the limit on the elements to inspect, and a comment that belongs to no key may change the syntax of the TypedDict. Proved for all data of any depth in which comments belong to keys and the limit does not matter, for all strategies. Declarations with equal texts are shown once; the correspondence is stated before those are dropped. The order of sets is assumed not to depend on comments, and the constant key documentation not to be a hidden key itself."
  },
  {
   "property": "C88",
   "status": "partial",
   "theorems": [
    "Verif.Props.comments_shown_partial",
    "Verif.Props.comments_shown_inner_partial",
    "Verif.Props.row_comments_shown_partial",
    "Verif.Props.agreed_row_comments",
    "Verif.Props.comments_shown_fails",
    "Verif.Props.comments_shown_after_equal_fails",
    "Verif.Props.row_comments_lost_fails"
   ],
   "note": "False of the code for dictionaries that need the functional syntax, which shows no comments (negation proved), and for dictionaries after an equal one, which share its declaration and lose their comments (negation proved). Proved for the outermost dictionary and for every dictionary found by following keys, at any depth, with ASCII keys that are identifiers and no keywords and with any values, if no dictionary before it or before those on the way has the same visible keys. For lists, sets, series and variable tuples of dictionaries, at the top or found by following keys at any depth (behind no other sequences than those of scalars): every inspected dictionary is described by a class with its keys; every docstring in it is a comment for that key in some inspected dictionary, and a key with a comment in this one has a docstring; if the dictionaries agree on the comment of a key, it is the one shown; otherwise comments are lost (negation proved). Missing: dictionaries inside the elements of lists."
  },
  {
   "property": "C89",
   "status": "proved",
   "theorems": [
    "Verif.Props.hint_of_inspected_part",
    "Verif.Props.same_inspected_part",
    "Verif.Props.inspected_small"
   ],
   "note": "All data, limits and strategies; inspected_small says that the cut data have no more elements than the limit anywhere. The order of sets is assumed not to depend on what is not inspected (it does not enter the hash of a tree)."
  },
  {
   "property": "C90",
   "status": "partial",
   "theorems": [
    "Verif.Props.hint_precise_clear_partial",
    "Verif.Props.hint_precise_partial",
    "Verif.Props.well_behaved_precise_partial",
    "Verif.Props.only_like_sequences_partial",
    "Verif.Props.only_like_elements_partial",
    "Verif.Props.only_like_rows_partial",
    "Verif.Props.only_like_records_partial",
    "Verif.Props.only_like_mappings_partial",
    "Verif.Props.only_like_frames_partial",
    "Verif.Props.only_like_leaves_partial",
    "Verif.Props.hint_precise_fails"
   ],
   "note": "Proved for the data for which C21 is proved (coherent data of any depth): everything the text admits, read by the independent reader, matches the value in the sense of Spec/Matches; the only_like theorems spell out what this excludes at the top. False in general: a set and a frozen set in one dictionary are described alike, and the hint admits a set in the place of the frozen set. Assumes that Any is no builtin. Missing: data that is not coherent."
  },
  {
   "property": "C91",
   "status": "proved",
   "theorems": [
    "Verif.Props.hint_of_distinct_part",
    "Verif.Props.same_distinct_part",
    "Verif.Props.hint_of_grown",
    "Verif.Props.distinct_fresh"
   ],
   "note": "All data, limits and strategies; distinct_fresh says that the reduced data have no repeated elements at any level. The order of sets is assumed to depend only on the hashes and classes of their members and on the order in which they were added."
  },
  {
   "property": "C92",
   "status": "partial",
   "theorems": [
    "Verif.Props.same_trees",
    "Verif.Props.same_failures",
    "Verif.Props.same_success",
    "Verif.Props.same_values_partial",
    "Verif.Props.hint_means",
    "Verif.Props.same_values_fails"
   ],
   "note": "same_trees, same_failures and same_success hold for all data and all valid class names (the order of sets is assumed to depend on hashes, classes and order of insertion only). same_values_partial: the hints, read by the independent reader, admit the same values for data that is well-behaved under both names (the data of C21). False in general: a class name that hints are written with, such as Optional, changes what hints mean. Missing: the values admitted by the hints of other data."
  },
  {
   "property": "C93",
   "status": "partial",
   "theorems": [
    "Verif.Props.order_decides_fails",
    "Verif.Props.same_declarations_partial",
    "Verif.Props.same_header_partial",
    "Verif.Props.order_same_values_partial"
   ],
   "note": "False of dictionaries that are merged: in [{\"a\": 1, \"b\": [1]}, {\"a\": 1, \"b\": [\"x\"]}] the order of a set decides which list describes the field b, thus whether the hint admits the first or the second dictionary (negation proved). Partial: for data of any nesting in which any two dictionaries of a sequence are alike or share too few fields to be merged, all orders yield the same imports and the same declarations up to their order, and hints that can be read describe the same values. Missing: dictionaries that are merged and differ."
  },
  {
   "property": "C94",
   "status": "partial",
   "theorems": [
    "Verif.Props.iterators_read_once_fails",
    "Verif.Props.iterators_read_once_partial",
    "Verif.Props.without_iterators",
    "Verif.Props.listed_iterator_empty",
    "Verif.Props.listed_iterator_later",
    "Verif.Props.shared_iterator"
   ],
   "note": "False of iterators in dictionaries in sequences: [{\"a\": iter([1])}] is read twice and gets Iterator[Any]; with a limit the hint describes later elements (negation proved). Also false of one iterator at two places. Partial: for data of any nesting in which every iterator occurs at one place and none in a dictionary that is an element of a sequence and becomes a TypedDict, the text or the failure is the one of the data with the elements in place of the iterators; visited iterators lose one element more than the limit or all they have, the others nothing. Missing: what is printed for iterators that are read twice, beyond the witnesses."
  },
  {
   "property": "C95",
   "status": "partial",
   "theorems": [
    "Verif.Props.settings_same_trees",
    "Verif.Props.settings_general_partial",
    "Verif.Props.settings_equal_partial",
    "Verif.Props.tuples_general_partial",
    "Verif.Props.settings_mean_fails",
    "Verif.Props.typed_dict_general_fails"
   ],
   "note": "That the same data is accepted, and the same tree built, is proved for all data and all class names. Which values are admitted: false of data whose parts get the same name, where the height from which on names are declared decides whether the hint admits the data itself (negation proved). Partial: for the data for which C21 is proved (coherent data of any depth) hints with more general containers admit at least as much, and hints under settings that agree on the containers admit the same values; the hint of a tuple of values that are no collections admits at least as much if tuples are not described place by place. Dict is not more general than TypedDict (witness: merged TypedDicts). Missing: other data; the settings for tuples of collections, and for tuples inside other data."
  },
  {
   "property": "C96",
   "status": "partial",
   "theorems": [
    "Verif.Props.steps_make_call",
    "Verif.Props.undisturbed_partial",
    "Verif.Props.other_files_untouched",
    "Verif.Props.whole_class_partial",
    "Verif.Props.whole_class_distinct",
    "Verif.Props.whole_class_agree",
    "Verif.Props.whole_stub_partial",
    "Verif.Props.undisturbed_first_fails",
    "Verif.Props.whole_class_fails",
    "Verif.Props.whole_stub_fails",
    "Verif.Props.registration_lost",
    "Verif.Props.whole_pieces_partial",
    "Verif.Props.whole_pieces_agree",
    "Verif.Props.whole_pieces_one",
    "Verif.Props.interrupted_prefix",
    "Verif.Props.whole_pieces_fails"
   ],
   "note": "False in three ways, each with a proved negation: two first calls race for the directory and one fails with FileExistsError; the file of a class may be a mixture of the texts of two calls for it; the stub may be a mixture of the texts of two calls, even for different classes. Also a registration may be lost. Partial: for all schedules, calls for different classes are undisturbed if the directory exists and no registered class has lost its file; files of classes are whole if no two processes have the same one open, in particular for different classes, and if calls for the same class generate the same text; the stub is whole if no two processes have it open. Files of other classes are untouched without a hypothesis, and the steps of an uninterrupted call are proved to be the call of the sequential model. Calls of reset at the same time are in C103. For texts written in several pieces (a second model, of one file with offsets): whatever the pieces and the order of steps, the file is whole if calls with different texts do not have it open at the same time, in particular for equal texts; otherwise it may be a mixture (negation proved); an interrupted call alone leaves the file as before or the beginning of the text."
  },
  {
   "property": "C97",
   "status": "partial",
   "theorems": [
    "Verif.Props.snapshot_partial",
    "Verif.Props.snapshot_once_printed",
    "Verif.Props.snapshot_doc_fails",
    "Verif.Props.snapshot_frame_fails",
    "Verif.Props.snapshot_array_fails"
   ],
   "note": "False of the code for what is read when the text is made: the documentation under the configured key, the labels of nested frames, and element types of arrays changed in place (negations proved; functions and classes are read late as well). Proved for all data, all strategies and all histories: changes of containers that leave the documentation and the kind of labels alone have no influence, in particular no change of lists, sets and dictionaries if no key for documentation is configured; and once a text was returned no change whatsoever has one. Which attributes are read late is taken from the code and stated in Model/Later."
  },
  {
   "property": "C98",
   "status": "partial",
   "theorems": [
    "Verif.Props.more_examples_partial",
    "Verif.Props.more_rows_partial",
    "Verif.Props.more_examples_fails",
    "Verif.Props.more_examples_empty_fails"
   ],
   "note": "False of the code for dictionaries, which may be merged before an element is added and not any more afterwards, and for a collection without elements, whose hint admits everything (negations proved). Proved for all well-behaved data whose elements get no TypedDicts, of any number and depth, where the added elements may well get TypedDicts, and for all strategies but tuples of a fixed size, and for well-behaved rows (flat dictionaries, C100) that are merged in the longer sequence. Missing: other sequences in which there are TypedDicts before elements are added."
  },
  {
   "property": "C99",
   "status": "partial",
   "theorems": [
    "Verif.Props.locale_free_partial",
    "Verif.Props.utf8_free_partial",
    "Verif.Props.ascii_free_partial",
    "Verif.Props.locale_free_fails",
    "Verif.Props.carriage_return_fails",
    "Verif.Props.class_name_blocks",
    "Verif.Props.unencodable_erases"
   ],
   "note": "False of the code: files are written in the encoding of the locale but read as UTF-8, and line ends are translated (negations proved: hints with accents, class names with accents, carriage returns, characters that the locale lacks). Proved for all histories of any length in which the locale writes the characters of class names and hints as UTF-8 does and no carriage return occurs: in particular every ASCII-based locale if they are ASCII, and UTF-8 with any line ends."
  }
 ]
}