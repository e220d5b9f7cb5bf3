import Verif.Lemmas.InnerRows
import Verif.Props.InnerComments
import Verif.Props.Merge
/-
C88: comments of keys in the dictionaries of a list.
-/
namespace Verif.Props
open Verif Verif.Spec

/-- The dictionary has this comment for the key. -/
def RowComment (d : Dct) (k text : Str) : Prop := (hiddenPrefix ++ k, Val.inst .str (some text)) ∈ d

/-- Comments are texts, and belong to visible keys; these are ASCII identifiers with a letter or digit and no keywords. -/
def PlainRow (d : Dct) : Prop :=
  (∀ k ∈ shown d, (∀ c ∈ k, isAscii c = true) ∧ AsciiIdent k ∧ (∃ c ∈ k, c ≠ '_') ∧ k ∉ kwlist) ∧
  ∀ kv ∈ d, startsWith kv.1 hiddenPrefix = true → (∃ k ∈ shown d, kv.1 = hiddenPrefix ++ k) ∧ ∃ text, kv.2 = .inst .str (some text)

/-- What **C88** says of the dictionaries in a list that is found by following keys: every one of them is described by a class with its keys, in which every docstring
after a key is a comment of that key in some of the dictionaries, and the keys with a comment in this one have a docstring. -/
def RowCommentsShown (E : Env) (P : Dct → Prop) : Prop := ∀ name v k ds n strs, InnerRows v k ds → (k = .tuple → E.S.tuple ≠ .fixed) →
  (∀ d ∈ ds, IsDict d ∧ P d) → fromData E name v = .ok n → nodeStrings E n false = .ok strs →
  ∀ d ∈ inspected E.S ds, ∃ cls doc es, recordText cls false doc es ∈ strs ∧ (∀ s ∈ shown d, ∃ e ∈ es, e.key = s) ∧
    (∀ e ∈ es, ∀ x, e.doc = some x → ∃ d' ∈ inspected E.S ds, ∃ text, RowComment d' e.key text ∧ x = formatDoc text 90 py!"    ") ∧
    ∀ e ∈ es, ∀ text, RowComment d e.key text → e.doc ≠ none

/-- **C88** (partial) for dictionaries in lists below keys, with keys as in `comments_shown_partial`. -/
theorem row_comments_shown_partial (E : Env) (hE : E.Fair) (hS : E.S.dict = .typedDict) : RowCommentsShown E PlainRow := by
  intro name v k ds n strs hi htup hds hn hs
  have hds' : ∀ d ∈ inspected E.S ds, IsDict d ∧ PlainRow d := fun d hd => hds d (mem_inspected hd)
  unfold fromData at hn
  split at hn
  case isFalse => cases hn
  split at hn
  case h_2 => cases hn
  rename_i n' hb
  injection hn with hn
  subst hn
  obtain ⟨f0, nm0, slots, kids, hset, hvis⟩ := inner_rows_nodes hE hS hi htup hb
  obtain ⟨hsl, _, hcov⟩ := limited_rows_children hE hS (fun d hd => (hds d hd).1) hset
  intro d hd
  obtain ⟨c, hc, m, hrow, hkeys, hslots⟩ := hcov d hd
  have hit : c ∈ iterate slots kids := by
    rw [iterate_seq (by rw [hsl]; simp) (by rw [hsl]; intro s hs; obtain ⟨_, _, rfl⟩ := List.mem_map.mp hs; simp [Slot.seq])]
    exact hc
  obtain ⟨c', hsame, hbel⟩ := hvis c hit
  have hslots : ∀ s ∈ shown d, Key.str s ∈ c'.hdr.slots.map (·.key) := by rw [hsame.2.1]; exact hslots
  have hrow : RowNode (inspected E.S ds) c' m := rowNode_sameTexts hrow hsame
  obtain ⟨hp, doc, es, h1, h2, h3⟩ := row_text (im := sigImports E.U) hS hrow
  have good : ∀ kv ∈ m.data, ∃ s, kv.1 = .str s ∧ s ∉ kwlist ∧ nameOk E.U s = true := by
    intro kv hkv
    obtain ⟨e, he, s, hs', hm⟩ := hrow.src kv hkv
    obtain ⟨hv, hh⟩ := (hds' e he).2
    have vis : ∀ s ∈ shown e, s ∉ kwlist ∧ nameOk E.U s = true := by
      intro s hs
      obtain ⟨a, b, c, d⟩ := hv s hs
      exact ⟨d, by rw [ascii_ident_nameOk E.U s a b]; exact c⟩
    refine ⟨s, hs', ?_⟩
    cases hx : startsWith s hiddenPrefix with
    | false => exact vis s (by
        simp only [shown, visible, List.mem_filter]
        exact ⟨List.mem_map_of_mem (f := (·.1)) hm, by simp [hx]⟩)
    | true =>
      obtain ⟨⟨k', hk', e'⟩, _⟩ := hh _ hm hx
      dsimp only at e'
      subst e'
      simpa using ident_hidden (vis k' hk').2
  have hstr : allStr m.data = true := by
    unfold allStr
    rw [List.all_eq_true]
    intro kv hkv
    obtain ⟨s, e, _⟩ := good kv hkv
    rw [e]; rfl
  have hf : isFunctional E.U m = false := by
    simp only [isFunctional, Bool.not_eq_false', Bool.and_eq_true, hstr, true_and, List.all_eq_true]
    intro kv hkv
    obtain ⟨s, e, h1, h2⟩ := good kv hkv
    rw [e]
    simp [h1, h2]
  rw [hf] at h1
  have hmem := emitted_strs (E := E) (visitedBelow_emitted hbel hp) hs
  refine ⟨_, doc, es, by rw [← h1]; exact hmem, ?_, ?_, ?_⟩
  · intro s hs
    have := hslots s hs
    rw [← h2] at this
    obtain ⟨e, he, e'⟩ := List.mem_map.mp this
    injection e' with e'
    exact ⟨e, he, e'⟩
  · intro e he x hx
    rw [h3 e he] at hx
    unfold entryDoc keyDoc at hx
    split at hx
    case isFalse => cases hx
    split at hx
    case h_2 => cases hx
    rename_i ty text hlk
    injection hx with hx
    obtain ⟨d', hd', s, e', hm⟩ := hrow.src _ (lookupKey_mem hlk)
    injection e' with e'
    obtain ⟨_, text', e''⟩ := (hds' d' hd').2.2 _ hm (by rw [← e']; simp [startsWith])
    dsimp only at e''
    injection e'' with e1 e2
    subst e1
    exact ⟨d', hd', text, by unfold RowComment; rw [e']; exact hm, hx.symm⟩
  · intro e he text ht
    rw [h3 e he]
    have hk := hkeys _ ht
    obtain ⟨v, hv⟩ := Option.isSome_iff_exists.mp (lookupKey_isSome.mpr hk)
    obtain ⟨d', hd', s, e', hm⟩ := hrow.src _ (lookupKey_mem hv)
    injection e' with e'
    obtain ⟨_, text', e''⟩ := (hds' d' hd').2.2 _ hm (by rw [← e']; simp [startsWith])
    dsimp only at e'' hv
    subst e''
    have hvis : startsWith e.key hiddenPrefix = false := by
      obtain ⟨⟨k', hk', e3⟩, _⟩ := (hds' d hd).2.2 _ ht (by simp [startsWith])
      have : e.key = k' := List.append_cancel_left e3
      rw [this]
      simpa [shown, visible, List.mem_filter] using (List.mem_filter.mp hk').2
    unfold entryDoc keyDoc
    simp [hstr, hvis, hv]

/-- If the dictionaries do not contradict each other, a comment is shown as it is. -/
theorem agreed_row_comments (E : Env) (hE : E.Fair) (hS : E.S.dict = .typedDict) {name : Str} {v : Val} {k : SeqKind} {ds : List Dct} {n : Node}
    {strs : List Str} (hi : InnerRows v k ds) (hk : k = .tuple → E.S.tuple ≠ .fixed) (hd : ∀ d ∈ ds, IsDict d ∧ PlainRow d)
    (hn : fromData E name v = .ok n) (hs : nodeStrings E n false = .ok strs)
    {d : Dct} (hdm : d ∈ inspected E.S ds) {key text : Str} (hkey : key ∈ shown d) (hc : RowComment d key text)
    (hag : ∀ d' ∈ inspected E.S ds, ∀ text', RowComment d' key text' → text' = text) :
    ∃ cls doc es, recordText cls false doc es ∈ strs ∧ (∀ s ∈ shown d, ∃ e ∈ es, e.key = s) ∧
      ∃ e ∈ es, e.key = key ∧ e.doc = some (formatDoc text 90 py!"    ") := by
  obtain ⟨cls, doc, es, h1, h2, h3, h4⟩ := row_comments_shown_partial E hE hS name v k ds n strs hi hk hd hn hs d hdm
  refine ⟨cls, doc, es, h1, h2, ?_⟩
  obtain ⟨e, he, rfl⟩ := h2 key hkey
  refine ⟨e, he, rfl, ?_⟩
  cases hx : e.doc with
  | none => exact absurd hx (h4 e he text hc)
  | some x =>
    obtain ⟨d', hd', text', hc', rfl⟩ := h3 e he x hx
    rw [hag d' hd' text' hc']

/-- Three rows: the second adds a comment, the third another key with one. -/
def commentedRows : List Dct :=
  [[(py!"a", .inst .int none)],
   [(py!"a", .inst .int none), (py!"___docstring_hidden_key_a", .inst .str (some py!"The first"))],
   [(py!"a", .inst .int none), (py!"b", .inst .int none), (py!"___docstring_hidden_key_b", .inst .str (some py!"The second"))]]

example : hintTexts (exEnv { merge := 50 }) py!"A" (.seq .list .list (commentedRows.map dictOf)) = some [
    py!"class ADict(TypedDict):\n    a: int\n    \"\"\"The first.\"\"\"\n    b: NotRequired[int]\n    \"\"\"The second.\"\"\"",
    py!"A: TypeAlias = List[ADict]"] := by decide +kernel

/-- A dictionary with a list of numbers and such a list below a key. -/
def innerRowsExample : Val := .map .dict .dict [.str py!"p"] [.map .dict .dict [.str py!"n", .str py!"rows"]
  [.seq .list .list [.inst .int none], .seq .list .list (commentedRows.map dictOf)]]

example : InnerRows innerRowsExample .list commentedRows := by
  refine .step (before := []) (after := []) (key := .str py!"p") (ks' := [py!"n", py!"rows"]) rfl (by decide) (by decide) rfl (by decide) rfl
    (by intro k2 t2 keys2 vals2 h; cases h) ?_
  refine .last (before := [(.str py!"n", .seq .list .list [.inst .int none])]) (after := []) (key := .str py!"rows") (t' := .list)
    rfl (by decide) (by decide) rfl (by decide) (by simp [commentedRows]) ?_ ?_
  · intro d hd
    simp only [commentedRows, List.mem_cons, List.not_mem_nil, or_false] at hd
    rcases hd with rfl | rfl | rfl <;> decide
  · intro k2 kd t2 es h _ e he
    simp only [List.mem_singleton, Prod.mk.injEq, Val.seq.injEq] at h
    obtain ⟨_, _, _, rfl⟩ := h
    simp only [List.mem_singleton] at he
    exact ⟨_, _, he⟩

example : hintTexts (exEnv { merge := 50 }) py!"A" innerRowsExample = some [
    py!"class APRowsDict(TypedDict):\n    a: int\n    \"\"\"The first.\"\"\"\n    b: NotRequired[int]\n    \"\"\"The second.\"\"\"",
    py!"APRows: TypeAlias = List[APRowsDict]", py!"class AP(TypedDict):\n    n: List[int]\n    rows: APRows", py!"class A(TypedDict):\n    p: AP"] := by decide +kernel

/-- Two rows with different comments for the same key. -/
def contradictingRows : List Dct :=
  [[(py!"a", .inst .int none), (py!"___docstring_hidden_key_a", .inst .str (some py!"One"))],
   [(py!"a", .inst .int none), (py!"___docstring_hidden_key_a", .inst .str (some py!"Two"))]]

theorem plain_a (text : Str) : PlainRow [(py!"a", .inst .int none), (py!"___docstring_hidden_key_a", .inst .str (some text))] := by
  have hs : shown [(py!"a", .inst .int none), (py!"___docstring_hidden_key_a", .inst .str (some text))] = [py!"a"] := by
    show visible [py!"a", py!"___docstring_hidden_key_a"] = _
    decide +kernel
  constructor
  · rw [hs]
    intro k hk
    simp only [List.mem_singleton] at hk
    subst hk
    exact ⟨by decide, ⟨'a', [], rfl, .inl (by decide), by decide⟩, ⟨'a', by decide, by decide⟩, by decide +kernel⟩
  · rw [hs]
    intro kv hkv hh
    simp only [List.mem_cons, List.not_mem_nil, or_false] at hkv
    rcases hkv with rfl | rfl
    · exact absurd hh (by decide)
    · exact ⟨⟨py!"a", by simp, by show py!"___docstring_hidden_key_a" = _; decide +kernel⟩, text, rfl⟩

example : ∀ d ∈ contradictingRows, IsDict d ∧ PlainRow d := by
  intro d hd
  simp only [contradictingRows, List.mem_cons, List.not_mem_nil, or_false] at hd
  rcases hd with rfl | rfl <;> exact ⟨by decide, plain_a _⟩

/-- Why the docstring need not be the comment of this dictionary: of two comments for the same key only the first is shown. -/
theorem row_comments_lost_fails : ∃ strs, hintTexts (exEnv {}) py!"A" (.seq .list .list (contradictingRows.map dictOf)) = some strs ∧
    (∀ d ∈ contradictingRows, IsDict d ∧ PlainRow d) ∧ RowComment (contradictingRows.getD 1 []) py!"a" py!"Two" ∧
    ∀ s ∈ strs, ¬ py!"Two" <:+: s := by
  refine ⟨[py!"class ADict(TypedDict):\n    a: int\n    \"\"\"One.\"\"\"", py!"A: TypeAlias = List[ADict]"], by decide +kernel, ?_, ?_, ?_⟩
  · intro d hd
    simp only [contradictingRows, List.mem_cons, List.not_mem_nil, or_false] at hd
    rcases hd with rfl | rfl <;> exact ⟨by decide, plain_a _⟩
  · simp [RowComment, contradictingRows, hiddenPrefix]
  · intro s hs h
    have hw : 'w' ∈ s := h.subset (by decide)
    simp only [List.mem_cons, List.not_mem_nil, or_false] at hs
    rcases hs with rfl | rfl <;> exact absurd hw (by decide)

end Verif.Props
