import Verif.Lemmas.Split
import Verif.Spec.Tools
import Verif.Model.CheckCode
/-
The type-checker wrapper (C63) and the script that runs the quality tools (C64 to C66).
-/
namespace Verif.Props
open Verif Verif.Spec

/-! ### C63 -/

theorem marker_unbordered : Unbordered py!"error: " := by
  intro k h0 hk
  have : k < 7 := hk
  match k, h0, this with
  | 1, _, _ | 2, _, _ | 3, _, _ | 4, _, _ | 5, _, _ | 6, _, _ => decide

theorem split_findings {p : Str} (hp : contains py!"error: " p = false) : ∀ {fs : List Finding}, (∀ f ∈ fs, f.Clean) →
    splitStr py!"error: " (p ++ (fs.map Finding.print).flatten) = p :: fs.map (fun f => f.message ++ f.rest)
  | [], _ => by simp [splitStr_none hp]
  | f :: fs, h => by
    rw [List.map_cons, List.flatten_cons, Finding.print, List.append_assoc, splitStr_at (by decide) marker_unbordered hp,
      split_findings (h f (by simp)).1 (fun g hg => h g (by simp [hg]))]
    rfl

theorem upToBracket_message {f : Finding} (h : f.Clean) : upToBracket (f.message ++ f.rest) = f.message := by
  have e : f.message ++ f.rest = (f.text ++ py!"  [" ++ f.code) ++ ']' :: f.rest := by simp [Finding.message]
  unfold upToBracket
  rw [e, rfindChar_final h.2]
  dsimp only
  rw [show (f.text ++ py!"  [" ++ f.code) ++ ']' :: f.rest = f.message ++ f.rest from e.symm,
    List.take_append_of_le_length (by simp [Finding.message]; omega)]
  rw [List.take_of_length_le (by simp [Finding.message]; omega)]

theorem keptError_iff {ignore : List Str} {f : Finding} : keptError ignore f.message = true ↔ ¬ Ignored ignore f.message := by
  have hne : f.message.isEmpty = false := by simp [Finding.message]
  unfold keptError Ignored
  rw [hne]
  cases ignore with
  | nil => simp
  | cons k ks => simp

/-- **C63, partial,** for texts: if every error has a code (and the output has no closing brackets elsewhere), scanning a text reports exactly
the errors that are not ignored. Missing: errors without a code (`scan_string_fails`). -/
theorem scan_string_partial (p : Str) (fs : List Finding) (ignore : List Str) (hp : contains py!"error: " p = false) (hb : ']' ∉ p)
    (hf : ∀ f ∈ fs, f.Clean) :
    scanString (p ++ (fs.map Finding.print).flatten) [] ignore = (fs.map Finding.message).filter (fun e => decide (¬ Ignored ignore e)) := by
  unfold scanString
  rw [if_neg (by simp), split_findings hp hf, List.map_cons, List.map_map]
  have h0 : upToBracket p = [] := by unfold upToBracket; rw [rfindChar_absent hb]
  rw [h0, List.filter_cons]
  have : keptError ignore [] = false := by simp [keptError]
  rw [this]
  simp only [Bool.false_eq_true, if_false]
  have hm : fs.map (upToBracket ∘ fun f => f.message ++ f.rest) = fs.map Finding.message :=
    List.map_congr_left (fun f h => upToBracket_message (hf f h))
  rw [hm]
  apply List.filter_congr
  intro e he
  obtain ⟨f, _, rfl⟩ := List.mem_map.mp he
  rw [Bool.eq_iff_iff, keptError_iff, decide_eq_true_iff]

/-- Two errors with codes, the second one ignored. -/
example : scanString (py!"b'<string>:1: " ++ ([⟨py!"Incompatible types", py!"assignment", py!"\\n<string>:2: "⟩,
    ⟨py!"Missing library stubs", py!"import", py!"\\nFound 2 errors\\n'"⟩].map Finding.print).flatten) [] [py!"stubs"] =
    [py!"Incompatible types  [assignment]"] := by decide +kernel

/-- **C63 fails** for texts: an error without a code is not reported. -/
theorem scan_string_fails : scanString py!"b'<string>:1: error: Invalid syntax\\nFound 1 error in 1 file\\n'" [] [] = [] := by decide +kernel

/-- **C63, partial,** for files: with at most one keyword, scanning a file reports exactly the lines with errors that name the file and are not
ignored. Missing: with several keywords a line is ignored only if it contains all of them (`scan_file_fails`). -/
theorem scan_file_partial (stdout name : Str) (ignore : List Str) (h : ignore.length ≤ 1) :
    scanFile stdout [] name ignore = some ((splitlines stdout).filter (fun e =>
      contains py!"error: " e && contains name e && decide (¬ Ignored ignore e))) := by
  unfold scanFile
  rw [if_neg (by simp)]
  match ignore, h with
  | [], _ =>
    simp only [List.isEmpty_nil, if_true, List.filter_filter, Option.some.injEq]
    apply List.filter_congr
    intro e _
    simp [Ignored, Bool.and_comm]
  | [k], _ =>
    simp only [List.isEmpty_cons, Bool.false_eq_true, if_false, List.filter_filter, Option.some.injEq]
    apply List.filter_congr
    intro e _
    rw [Bool.eq_iff_iff]
    simp [Ignored, and_assoc, and_comm, and_left_comm]
  | _ :: _ :: _, h => exact absurd h (by simp)

example : scanFile py!"a.py:1: error: Missing stubs  [import]\na.py:2: error: Bad  [x]\nb.py:2: error: Bad  [x]\nFound 3 errors" [] py!"a.py" [py!"stubs"] =
    some [py!"a.py:2: error: Bad  [x]"] := by decide +kernel

/-- **C63 fails** for files: an error that contains one of two keywords is reported, although scanning the text would not report it. -/
theorem scan_file_fails : ∃ stdout name ignore e, scanFile stdout [] name ignore = some [e] ∧ Ignored ignore e ∧ scanString stdout [] ignore = [] := by
  refine ⟨py!"a.py:1: error: Missing stubs  [import]", py!"a.py", [py!"stubs", py!"Incompatible"], py!"a.py:1: error: Missing stubs  [import]", ?_⟩
  decide +kernel

/-! ### C64 -/

/-- **C64.** Whatever the order in which the tools finish, the script exits with status 0 exactly if every selected tool passed: it returned 0
without printing ERROR, or its output has one of the texts with which it is to pass. -/
theorem gate_exact {α} (tools : List α) (run : α → ToolRun) (pass : α → List Str) (order : List α) (h : order.Perm tools) :
    exitStatus (order.map (fun t => toolStatus (run t) (pass t))) = 0 ↔
      ∀ t ∈ tools, ((run t).code = 0 ∧ contains py!"ERROR" (run t).out = false) ∨ ∃ s ∈ pass t, contains s (run t).out = true := by
  unfold exitStatus
  constructor
  · intro h0 t ht
    have : ¬ (order.map (fun t => toolStatus (run t) (pass t))).contains false = true := by
      intro hc; rw [if_pos hc] at h0; cases h0
    rw [List.contains_iff_mem, List.mem_map] at this
    have hs : toolStatus (run t) (pass t) = true := by
      cases hs : toolStatus (run t) (pass t) with
      | true => rfl
      | false => exact absurd ⟨t, h.mem_iff.mpr ht, hs⟩ this
    simpa [toolStatus] using hs
  · intro hall
    rw [if_neg]
    rw [List.contains_iff_mem, List.mem_map]
    rintro ⟨t, ht, hs⟩
    have := hall t (h.mem_iff.mp ht)
    have : toolStatus (run t) (pass t) = true := by simpa [toolStatus] using this
    rw [hs] at this; cases this

/-- Three tools, one of which fails but prints a text with which it passes. -/
example : exitStatus ([⟨0, py!"fine", []⟩, ⟨5, py!"no tests ran", []⟩, ⟨0, [], []⟩].map (fun r => toolStatus r [py!"no tests"])) = 0 ∧
    exitStatus ([⟨0, py!"ERROR", []⟩, ⟨0, [], []⟩].map (fun r => toolStatus r [])) = 1 := by decide +kernel

/-! ### C65 -/

/-- **C65, partial.** Naming tools in a list runs exactly the configured tools with these names, in order of configuration, and it is an
error if there are none; naming nothing runs all. Missing: a single name given as a text (`selection_fails`). -/
theorem selection_partial {α} (lower : Str → Str) (name : α → Str) (tools : List α) (l : List Str) (h : py!"all linters" ∉ l) :
    (l = [] → filterTools lower name tools (.several l) = some tools) ∧
    (l ≠ [] → filterTools lower name tools (.several l) =
      if ∀ t ∈ tools, name t ∉ l then none else some (tools.filter (fun t => l.contains (name t)))) := by
  constructor
  · rintro rfl; rfl
  · intro hne
    cases l with
    | nil => exact absurd rfl hne
    | cons a l =>
      have h' : (a :: l).contains py!"all linters" = false := by
        cases hc : (a :: l).contains py!"all linters" with
        | false => rfl
        | true => exact absurd (List.contains_iff_mem.mp hc) h
      simp only [filterTools, h', Bool.false_eq_true, if_false]
      by_cases ha : ∀ t ∈ tools, name t ∉ a :: l
      · rw [if_pos ha, if_pos]
        rw [List.isEmpty_iff, List.filter_eq_nil_iff]
        intro t ht hc
        exact ha t ht (List.contains_iff_mem.mp hc)
      · rw [if_neg ha, if_neg]
        rw [List.isEmpty_iff, List.filter_eq_nil_iff]
        intro hc
        exact ha (fun t ht hm => hc t ht (List.contains_iff_mem.mpr hm))

example : filterTools id id [py!"black", py!"mypy", py!"pytest", py!"pytest"] (.several [py!"pytest", py!"black"]) =
    some [py!"black", py!"pytest", py!"pytest"] := by decide +kernel

/-- **C65 fails** for a single name: asking for `dmypy` runs `mypy`. -/
theorem selection_fails : filterTools id id [py!"black", py!"mypy"] (.single py!"dmypy") = some [py!"mypy"] := by decide +kernel

/-! ### C66 -/

/-- **C66, partial.** Without `only_include`, no printed line contains an ignored text, and all other lines are printed in order. Missing:
with `only_include` the ignored lines come back (`ignored_lines_fails`). -/
theorem ignored_lines_partial (r : ToolRun) (pass ignore : List Str) :
    ∃ text, (text = r.err ∨ text = r.out) ∧
      shownLines r pass ignore none = (splitlines text).filter (fun l => decide (¬ ∃ i ∈ ignore, contains i l = true)) := by
  refine ⟨if !toolStatus r pass && !r.out.isEmpty && r.err.isEmpty then r.out else r.err, ?_, ?_⟩
  · split
    · exact .inr rfl
    · exact .inl rfl
  · unfold shownLines
    dsimp only
    apply List.filter_congr
    intro l _
    rw [Bool.eq_iff_iff]
    simp

/-- **C66 fails:** a line to be ignored is printed if it is also to be included. -/
theorem ignored_lines_fails : ∃ r ignore only l, l ∈ shownLines r [] ignore (some only) ∧ ∃ i ∈ ignore, contains i l = true :=
  ⟨⟨1, [], py!"Oh no: bad\nfine"⟩, [py!"Oh no"], [py!"bad"], py!"Oh no: bad", by decide +kernel, _, List.mem_cons_self, by decide +kernel⟩

end Verif.Props
