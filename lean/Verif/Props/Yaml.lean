import Verif.Lemmas.YamlText
import Verif.Model.YamlLoad
import Verif.Props.LiveCrash
/-
What becomes of the comments of YAML files.
-/
namespace Verif.Props
open Verif Verif.Spec

/-! ### C54 -/

/-- **C54.** For a character that is not a quotation mark, the search finds exactly the first occurrence with an even number of
quotation marks before it. -/
theorem quote_aware_search_partial (line : Str) (x : Char) (hx : x ≠ '\'' ∧ x ≠ '"') (i : Nat) :
    findOutside line x = some i ↔ line[i]? = some x ∧ Unquoted line i ∧ ∀ j < i, line[j]? = some x → ¬ Unquoted line j :=
  findOutside_some (by simp [isQuote, hx.1, hx.2]) line i

/-- **C54.** The search finds nothing exactly if there is no such occurrence. -/
theorem quote_aware_search_none_partial (line : Str) (x : Char) (hx : x ≠ '\'' ∧ x ≠ '"') :
    findOutside line x = none ↔ ∀ i, line[i]? = some x → ¬ Unquoted line i := by
  constructor
  · intro h i
    induction i using Nat.strongRecOn with
    | _ i ih =>
      intro h1 h2
      have := (quote_aware_search_partial line x hx i).mpr ⟨h1, h2, ih⟩
      rw [h] at this; cases this
  · intro h
    cases hf : findOutside line x with
    | none => rfl
    | some i =>
      have := (quote_aware_search_partial line x hx i).mp hf
      exact absurd this.2.1 (h i this.1)

/-- Quotation marks themselves are never found. -/
theorem quote_aware_search_quote (line : Str) (x : Char) (hx : x = '\'' ∨ x = '"') : findOutside line x = none :=
  findOutsideFrom_quote (by rcases hx with rfl | rfl <;> decide) line false 0

example : findOutside py!"'a:b': c" ':' = some 5 := by decide +kernel
example : findOutside py!"'a:b" ':' = none := by decide +kernel

/-- The search for a quotation mark contradicts the property as stated, which does not exclude them. -/
theorem quote_aware_search_fails : ∃ line x i, line[i]? = some x ∧ Unquoted line i ∧ findOutside line x = none :=
  ⟨py!"a'", '\'', 1, by unfold Unquoted; decide +kernel⟩

/-! ### C55, C56 -/

theorem hidden_out {U : Uni} {cs : List CommentsAre} {lines : List Str} {tabs : Bool} (hi : Indented tabs lines) {text : Str}
    (h : withHiddenKeys U cs lines = .ok text) : ∃ out, text = join py!"\n" out ∧
      Becomes U tabs (fun i line ts => ts = textsFor U lines i line cs) 0 lines out := by
  have := withHiddenKeys_eq (U := U) (cs := cs) (indentation_some.mpr hi)
  cases ho : outFrom U cs lines tabs 0 lines with
  | error e =>
    rw [ho] at this
    obtain ⟨e, he⟩ := this
    rw [he] at h; cases h
  | ok o =>
    rw [ho] at this
    dsimp only at this
    rw [this] at h
    injection h with h
    exact ⟨o, h.symm, outFrom_becomes hi (fun l hl => hl) ho⟩

/-- **C55.** Whatever the document and the comment positions, the new document is the old one line by line, where some lines of keys
are preceded by an entry with a hidden key; only the dash of a list item is moved to that entry. -/
theorem injection_keeps_document (U : Uni) (cs : List CommentsAre) (lines : List Str) (text : Str)
    (h : withHiddenKeys U cs lines = .ok text) :
    (∃ tabs, Indented tabs lines ∧ ∃ out texts, text = join py!"\n" out ∧ Becomes U tabs texts 0 lines out) ∨
    ((∀ tabs, ¬ Indented tabs lines) ∧ text = join py!"\n" lines) := by
  cases hi : indentation lines with
  | some tabs =>
    have hi' := indentation_some.mp hi
    obtain ⟨out, h1, h2⟩ := hidden_out hi' h
    exact .inl ⟨tabs, hi', out, _, h1, h2⟩
  | none =>
    refine .inr ⟨fun tabs ht => ?_, ?_⟩
    · rw [indentation_some.mpr ht] at hi; cases hi
    · rw [withHiddenKeys_none hi] at h
      injection h with h
      exact h.symm

theorem becomes_kept {U : Uni} {tabs : Bool} {texts : Nat → Str → List Str → Prop} {i : Nat} {lines out : List Str}
    (h : Becomes U tabs texts i lines out) : Kept lines out := by
  induction h with
  | nil => exact .nil
  | cons _ hb _ ih =>
    cases hb with
    | same _ => exact .line ih
    | key _ _ _ _ _ => exact .entry (.line ih)
    | item _ _ _ ha _ => exact .entry (.dash ha ih)

/-- **C55, in short.** Every line is kept, in order, but for dashes. -/
theorem injection_keeps_lines (U : Uni) (cs : List CommentsAre) (lines : List Str) (text : Str)
    (h : withHiddenKeys U cs lines = .ok text) : ∃ out, text = join py!"\n" out ∧ Kept lines out := by
  rcases injection_keeps_document U cs lines text h with ⟨_, _, out, _, h1, h2⟩ | ⟨_, h1⟩
  · exact ⟨out, h1, becomes_kept h2⟩
  · refine ⟨lines, h1, ?_⟩
    clear h1 h
    rename_i hno
    clear hno
    induction lines with
    | nil => exact .nil
    | cons l r ih => exact .line ih

/-- **C56, partial.** In an indented document every key gets exactly the comments at the wanted positions: the lines directly above it
or below it in its column, or the text beside it. Missing: documents that end in a comment in the column of a key with nothing but
comments above it (`comments_attached_fails`). -/
theorem comments_attached_partial (U : Uni) (cs : List CommentsAre) (lines : List Str) (tabs : Bool) (hi : Indented tabs lines)
    (hw : .above ∈ cs → NoWrap lines) (text : Str) (h : withHiddenKeys U cs lines = .ok text) :
    ∃ out, text = join py!"\n" out ∧ Becomes U tabs (fun i line ts => TextsOf U lines i line cs ts) 0 lines out := by
  obtain ⟨out, h1, h2⟩ := hidden_out hi h
  exact ⟨out, h1, becomes_texts hw ⟨[], rfl, rfl⟩ h2⟩

/-- A document with comments above, below and beside its keys. -/
def exDoc : List Str := [py!"# first", py!"a: 1 # beside", py!"b:", py!"  # about c", py!"  # more", py!"  - c: 'x # y'", py!"  # below"]

example : Indented false exDoc := by unfold Indented; decide
example : (withHiddenKeys asciiUni [.above] exDoc).toOption = some (join py!"\n"
    [py!"# first", py!"___docstring_hidden_key_a: |\n First.", py!"a: 1 # beside", py!"b:", py!"  # about c", py!"  # more",
     py!"  - c: 'x # y'", py!"  # below"]) := by decide +kernel
example : NoWrap exDoc := by
  intro i line last h1 h2 h3
  match i, h1 with
  | 0, h1 => simp [exDoc] at h1 h2; subst h1 h2; decide +kernel
  | 1, h1 => simp [exDoc] at h1 h2; subst h1 h2; decide +kernel
  | 2, h1 => simp [exDoc] at h1 h2; subst h1 h2; decide +kernel
  | 3, h1 => simp [exDoc] at h1; subst h1; exact absurd (h3 py!"# first" (by simp [exDoc])) (by decide +kernel)
  | 4, h1 => simp [exDoc] at h1; subst h1; exact absurd (h3 py!"# first" (by simp [exDoc])) (by decide +kernel)
  | 5, h1 => simp [exDoc] at h1; subst h1; exact absurd (h3 py!"# first" (by simp [exDoc])) (by decide +kernel)
  | 6, h1 => simp [exDoc] at h1; subst h1; exact absurd (h3 py!"# first" (by simp [exDoc])) (by decide +kernel)
  | n + 7, h1 => simp [exDoc] at h1

theorem lineBecomes_nil {U : Uni} {tabs : Bool} {line : Str} {new : List Str} (h : LineBecomes U tabs [] line new) : new = [line] := by
  cases h with
  | same _ => rfl
  | key _ hne _ _ _ => exact absurd rfl hne
  | item _ hne _ _ _ => exact absurd rfl hne

/-- The property is false of the code: the search goes on from the first line to the last one, so a comment at the end of the document
is attached to its first key. -/
theorem comments_attached_fails : ∃ (lines : List Str) (text : Str), Indented false lines ∧
    withHiddenKeys asciiUni [.above] lines = .ok text ∧
    ∀ out, text = join py!"\n" out → ¬ Becomes asciiUni false (fun i line ts => TextsOf asciiUni lines i line [.above] ts) 0 lines out := by
  refine ⟨[py!"a: 1", py!"# end"], py!"___docstring_hidden_key_a: |\n End.\na: 1\n# end", by unfold Indented; decide, by decide +kernel, ?_⟩
  intro out ho hb
  have hnone : ∀ i line ts, TextsOf asciiUni [py!"a: 1", py!"# end"] i line [.above] ts → i < 2 → line ∈ [py!"a: 1", py!"# end"] → ts = [] := by
    intro i line ts h hi hl
    have hz : blockText asciiUni (keyCol line) (runAbove [py!"a: 1", py!"# end"] i (keyCol line)) = [] := by
      simp at hl
      have : i = 0 ∨ i = 1 := by omega
      rcases this with rfl | rfl <;> rcases hl with rfl | rfl <;> decide +kernel
    cases h with
    | skip _ h => cases h; rfl
    | take h hne _ =>
      exact absurd (Eq.trans h hz) hne
  cases hb with
  | cons h1 hb1 hr =>
    have e1 := hnone _ _ _ h1 (by omega) (by simp)
    subst e1
    cases hr with
    | cons h2 hb2 hr =>
      have e2 := hnone _ _ _ h2 (by omega) (by simp)
      subst e2
      cases hr
      rw [lineBecomes_nil hb1, lineBecomes_nil hb2] at ho
      revert ho; decide

/-! ### C57 -/

/-- **C57, partial.** The extraction of comments does not raise if dashes only begin list items with something behind them. -/
theorem extraction_succeeds_partial (U : Uni) (cs : List CommentsAre) (lines : List Str) (hd : DashesBegin lines) :
    ∃ text, withHiddenKeys U cs lines = .ok text := by
  cases hi : indentation lines with
  | none => exact ⟨_, withHiddenKeys_none hi⟩
  | some tabs =>
    obtain ⟨out, ho⟩ := outFrom_ok (U := U) (cs := cs) (indentation_some.mp hi) hd 0 lines (fun l hl => hl)
    have := withHiddenKeys_eq (U := U) (cs := cs) hi
    rw [ho] at this
    exact ⟨_, this⟩

example : DashesBegin exDoc := by
  intro line hl r hr
  simp [exDoc] at hl
  rcases hl with rfl | rfl | rfl | rfl | rfl | rfl | rfl <;>
    first
      | (exact absurd (congrArg List.head? hr) (by simp only [List.head?_cons]; decide +kernel))
      | (clear hr; decide +kernel)

/-- A line with nothing but a dash, which YAML allows, makes the extraction raise in every document indented with spaces: all its
comments are lost. -/
theorem lone_dash_fails (U : Uni) (cs : List CommentsAre) (lines : List Str) (hi : Indented false lines)
    (hd : ∃ l ∈ lines, strip l = py!"-") : ∃ e, withHiddenKeys U cs lines = .error e := by
  obtain ⟨e, he⟩ := outFrom_lone (U := U) (cs := cs) (all := lines) 0 lines hi.1 hd
  have := withHiddenKeys_eq (U := U) (cs := cs) (indentation_some.mpr hi)
  rw [he] at this
  exact this

/-- The property is false of the code. -/
theorem extraction_succeeds_fails : ∃ lines e, withHiddenKeys asciiUni [.side] lines = .error e :=
  ⟨[py!"list:  # note", py!"  -", py!"    a: 1"], .index, by decide +kernel⟩

/-- The second way to raise: a dash that belongs to a key in the first column. -/
theorem extraction_succeeds_fails_dash : ∃ lines e, withHiddenKeys asciiUni [.side] lines = .error e :=
  ⟨[py!"-a: 1 # c"], .index, by decide +kernel⟩

/-! ### C58 -/

theorem words_strip (s : Str) : words (strip s) = words s := by
  have h1 : ∀ s, words (lstrip s) = words s := by
    intro s
    obtain ⟨t, e, ht⟩ : ∃ t, s = t ++ lstrip s ∧ ∀ c ∈ t, isSpace c = true :=
      ⟨s.takeWhile isSpace, (List.takeWhile_append_dropWhile).symm, fun c hc => mem_takeWhile_imp' hc⟩
    conv => rhs; rw [e]
    rw [words_allspace_append _ ht]
  have h2 : ∀ s, words (rstrip s) = words s := by
    intro s
    obtain ⟨t, e, ht⟩ := rstrip_append (s := s)
    conv => rhs; rw [e]
    by_cases hn : t = []
    · rw [hn, List.append_nil]
    · have := words_append_allspace (rstrip s) ht hn
      exact this.symm
  unfold strip
  rw [h2, h1]

/-- **C58.** Comment lines are joined to text that is empty or ends in a full stop, and has the words of the lines in order, up to
capital letters and full stops. -/
theorem joined_comments (U : Uni) (lines : List Str) :
    Sentence U (lines.flatMap words) (words (joinComments U (lines.map strip))) ∧
    (joinComments U (lines.map strip) = [] ∨ endsWith (joinComments U (lines.map strip)) py!"." = true) := by
  have h := joinComments_spec (U := U) (lines := lines.map strip) (by
    intro l hl
    obtain ⟨x, _, rfl⟩ := List.mem_map.mp hl
    exact stripped_strip x)
  have e : (lines.map strip).flatMap words = lines.flatMap words := by
    rw [List.flatMap_map]
    congr 1
    funext l
    exact words_strip l
  rw [e] at h
  exact h

example : joinComments asciiUni ([py!" one", py!"two ", [], py!"Three", py!"Four"].map strip) = py!"one two\n\nThree. Four." := by decide +kernel

end Verif.Props
