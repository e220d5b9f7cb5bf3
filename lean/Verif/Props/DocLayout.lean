import Verif.Props.Docstring
import Verif.Spec.Fill
import Verif.Lemmas.Abs
/- Property C85, and C11 for the whole docstring: how docstrings are laid out. -/
namespace Verif.Props
open Verif Verif.Spec

theorem join_snoc_le {a : List Str} {w : Str} {r : List Str} (ha : a ≠ []) :
    (join py!" " a).length + 1 + w.length ≤ (join py!" " (a ++ w :: r)).length := by
  induction a with
  | nil => exact absurd rfl ha
  | cons x a ih =>
    cases a with
    | nil =>
      cases r with
      | nil => simp [join]; omega
      | cons y r => simp only [List.cons_append, List.nil_append, join, List.length_append, List.length_cons, List.length_nil]; omega
    | cons y a =>
      have := ih (by simp)
      simp only [List.cons_append, join, List.length_append, List.length_cons, List.length_nil] at this ⊢
      omega

theorem fill_tail {n : Nat} {ws row : List Str} {rows : List (List Str)} (h : Fill n ws (row :: rows)) : Fill n rows.flatten rows where
  words := rfl
  fits r hr := h.fits r (by simp [hr])
  greedy before a w rest after e := h.greedy (row :: before) a w rest after (by rw [e]; rfl)

/-- The words of the current line, put before what has been filled so far. -/
theorem packWords_fill (n : Nat) : ∀ (ws cws : List Str), (∀ w ∈ ws, IsWord w) → (∀ w ∈ cws, IsWord w) →
    (cws.length ≤ 1 ∨ (join py!" " cws).length ≤ n) →
    ∃ rows, packWords n (join py!" " cws) ws = rows.map (join py!" ") ∧ Fill n (cws ++ ws) rows ∧
      (∀ w r, cws = w :: r → ∃ r' rest, rows = (w :: r') :: rest)
  | [], cws, _, hc, hlen => by
    by_cases hcw : cws = []
    · subst hcw
      exact ⟨[], by simp [packWords], ⟨rfl, by simp, fun b _ _ _ _ e => by cases b <;> cases e⟩, fun _ _ e => by cases e⟩
    · have hne := join_space_ne_nil hcw hc
      have : (join py!" " cws).isEmpty = false := by simpa using hne
      refine ⟨[cws], by simp [packWords, this], ⟨by simp, ?_, ?_⟩, fun w r e => ⟨r, [], by rw [e]⟩⟩
      · intro row hrow
        rw [List.mem_singleton] at hrow
        subst hrow
        refine ⟨hcw, hlen.imp (fun h => ?_) id⟩
        have := List.length_pos_iff.mpr hcw
        omega
      · intro b _ _ _ _ e
        have := congrArg List.length e
        simp at this
        omega
  | w :: ws, cws, h, hc, hlen => by
    have hw := h w (by simp)
    have hws : ∀ w ∈ ws, IsWord w := fun x hx => h x (by simp [hx])
    obtain ⟨srows, s1, s2, s3⟩ := packWords_fill n ws [w] hws (by simpa using hw) (.inl (by simp))
    simp only [packWords]
    by_cases hcw : cws = []
    · subst hcw
      have hemp : (join py!" " ([] : List Str)).isEmpty = true := rfl
      simp only [hemp, if_true, ite_self]
      exact ⟨srows, s1, s2, fun _ _ e => by cases e⟩
    · have hne := join_space_ne_nil hcw hc
      have hemp : (join py!" " cws).isEmpty = false := by simpa using hne
      simp only [hemp]
      split
      · rename_i hle
        have hs := join_space_snoc cws w hcw
        have := packWords_fill n ws (cws ++ [w]) hws
          (by intro x hx; rcases List.mem_append.mp hx with hx | hx; exact hc x hx; simp at hx; subst hx; exact hw)
          (.inr (by rw [hs]; simp; omega))
        rw [hs] at this
        obtain ⟨rows, h1, h2, h3⟩ := this
        refine ⟨rows, by simpa using h1, by simpa using h2, ?_⟩
        intro x r e
        exact h3 x (r ++ [w]) (by rw [e]; rfl)
      · rename_i hlt
        obtain ⟨r', rest, e⟩ := s3 w [] rfl
        subst e
        refine ⟨cws :: (w :: r') :: rest, ?_, ⟨?_, ?_, ?_⟩, fun x r e => ⟨r, _, by rw [e]⟩⟩
        · simp only [join] at s1
          simpa using s1
        · have := s2.words
          rw [List.flatten_cons, this]
          rfl
        · intro row hrow
          rcases List.mem_cons.mp hrow with rfl | hrow
          · refine ⟨hcw, hlen.imp (fun h => ?_) id⟩
            have := List.length_pos_iff.mpr hcw
            omega
          · exact s2.fits row hrow
        · intro before row x rest' after e
          cases before with
          | nil =>
            simp only [List.nil_append, List.cons.injEq] at e
            obtain ⟨rfl, ⟨rfl, rfl⟩, rfl⟩ := e
            omega
          | cons b before =>
            simp only [List.cons_append, List.cons.injEq] at e
            exact s2.greedy before row x rest' after e.2

/-- The greedy layout is unique: the width and the words determine the lines. -/
theorem fill_unique {n : Nat} : ∀ {ws : List Str} {a b : List (List Str)}, Fill n ws a → Fill n ws b → a = b := by
  have prefixCase : ∀ {a b : List Str} {x : List (List Str)} {y : List (List Str)} {ws : List Str}, Fill n ws (a :: x) → Fill n ws (b :: y) →
      a.length ≤ b.length → a = b := by
    intro a b x y ws ha hb hl
    have e : a ++ x.flatten = b ++ y.flatten := by
      have h1 := ha.words
      have h2 := hb.words
      rw [List.flatten_cons] at h1 h2
      rw [h1, h2]
    have hp : a <+: b := by
      have h1 : a <+: b ++ y.flatten := ⟨_, e⟩
      exact List.prefix_of_prefix_length_le h1 ⟨_, rfl⟩ hl
    obtain ⟨c, rfl⟩ := hp
    cases c with
    | nil => simp
    | cons w c =>
      exfalso
      rw [List.append_assoc, List.append_cancel_left_eq] at e
      cases x with
      | nil => cases e
      | cons z x =>
        cases z with
        | nil => exact (ha.fits [] (by simp)).1 rfl
        | cons w' z =>
          simp only [List.flatten_cons, List.cons_append, List.cons.injEq] at e
          obtain ⟨rfl, _⟩ := e
          have h1 := ha.greedy [] a w' z x rfl
          have hane := (ha.fits a (by simp)).1
          rcases (hb.fits (a ++ w' :: c) (by simp)).2 with h2 | h2
          · have := List.length_pos_iff.mpr hane
            simp at h2
            omega
          · have := join_snoc_le (w := w') (r := c) hane
            omega
  intro ws a
  induction a generalizing ws with
  | nil =>
    intro b ha hb
    cases b with
    | nil => rfl
    | cons r b =>
      have h1 := ha.words
      have h2 := hb.words
      have := (hb.fits r (by simp)).1
      rw [← h1] at h2
      simp only [List.flatten_cons, List.flatten_nil, List.append_eq_nil_iff] at h2
      exact absurd h2.1 this
  | cons r a ih =>
    intro b ha hb
    cases b with
    | nil =>
      have h1 := ha.words
      have h2 := hb.words
      have := (ha.fits r (by simp)).1
      rw [← h2] at h1
      simp only [List.flatten_cons, List.flatten_nil, List.append_eq_nil_iff] at h1
      exact absurd h1.1 this
    | cons q b =>
      have e : r = q := by
        rcases Nat.le_total r.length q.length with h | h
        · exact prefixCase ha hb h
        · exact (prefixCase hb ha h).symm
      subst e
      have hf : a.flatten = b.flatten := by
        have h1 := ha.words
        have h2 := hb.words
        rw [List.flatten_cons] at h1 h2
        rw [← h2] at h1
        exact List.append_cancel_left h1
      have hb' := fill_tail hb
      rw [← hf] at hb'
      rw [ih (fill_tail ha) hb']

/-- One line of the text. -/
theorem splitLine_filled (n : Nat) (line : Str) : LineFilled n line (splitLine n line) := by
  obtain ⟨rows, h1, h2, _⟩ := packWords_fill n (words line) [] (fun w hw => isWord_of_mem_words hw) (by simp) (.inl (by simp))
  unfold splitLine
  rw [show packWords n [] (words line) = rows.map (join py!" ") from h1]
  by_cases h : line = []
  · left
    subst h
    have : rows = [] := fill_unique h2 ⟨rfl, by simp, fun b _ _ _ _ e => by cases b <;> cases e⟩
    rw [this]
    exact ⟨rfl, rfl⟩
  · right
    refine ⟨h, rows, by simpa using h2, ?_⟩
    have : line.isEmpty = false := by simpa using h
    simp [this]

theorem splitString_filled (s : Str) (n : Nat) :
    ∃ blocks, All₂ (LineFilled n) (splitChar '\n' s) blocks ∧ splitString s n = blocks.flatten := by
  refine ⟨(splitChar '\n' s).map (splitLine n), ?_, rfl⟩
  generalize splitChar '\n' s = l
  induction l with
  | nil => exact .nil
  | cons a r ih => exact .cons (splitLine_filled n a) ih

theorem docText_words (s : Str) : words (docText s) ≠ [] := by
  intro h
  obtain ⟨t, n, _, hd⟩ := docText_spec s
  have hm : '.' ∈ docText s := by
    rcases hd with ⟨h1, h2⟩ | h1
    · rw [h1]
      rw [endsWith, List.isSuffixOf_iff_suffix] at h2
      obtain ⟨u, rfl⟩ := h2
      simp
    · rw [h1]; simp
  have : py!"." <:+: docText s := by
    obtain ⟨a, b, e⟩ := List.append_of_mem hm
    exact ⟨a, b, by rw [e]; simp⟩
  obtain ⟨w, hw, _⟩ := (infix_iff_words (by decide) (by decide) _).mp this
  rw [h] at hw
  cases hw

/-- A text without a line break is split into one part exactly if its words fit, or if it is one word. -/
theorem splitString_one {t : Str} (n : Nat) (hn : '\n' ∉ t) (hw : words t ≠ []) :
    (splitString t n).length = 1 ↔ ((join py!" " (words t)).length ≤ n ∨ (words t).length = 1) := by
  unfold splitString
  rw [splitChar_free hn]
  have ht : t ≠ [] := fun h => hw (by rw [h]; rfl)
  rcases splitLine_filled n t with ⟨h, _⟩ | ⟨_, rows, hf, e⟩
  · exact absurd h ht
  simp only [List.map_cons, List.map_nil, List.flatten_cons, List.flatten_nil, List.append_nil, e, List.length_map]
  constructor
  · intro h1
    match rows, h1, hf with
    | [r], _, hf =>
      have := hf.words
      simp only [List.flatten_cons, List.flatten_nil, List.append_nil] at this
      rw [← this]
      exact (hf.fits r (by simp)).2.symm
  · intro h
    match rows, hf with
    | [], hf => exact absurd hf.words.symm hw
    | [_], _ => rfl
    | a :: [] :: _, hf => exact absurd rfl (hf.fits [] (by simp)).1
    | a :: (w :: r) :: rest, hf =>
      exfalso
      have h1 := hf.greedy [] a w r rest rfl
      have ha := (hf.fits a (by simp)).1
      have e := hf.words
      simp only [List.flatten_cons, List.cons_append] at e
      rw [← e] at h
      have h2 := join_snoc_le (w := w) (r := r ++ rest.flatten) ha
      have h3 := List.length_pos_iff.mpr ha
      rcases h with h | h
      · omega
      · simp only [List.length_append, List.length_cons] at h
        omega

/-- **C85.** A docstring stays on the line of its quotes if its text has no line break and it fits with its quotes, or its
words alone fit, or it is one word. Otherwise the quotes get lines of their own, and between them every line of the text is
filled into lines of the given width (without counting the indentation), empty lines being kept. -/
theorem docstring_layout (s : Str) (n : Nat) (indent : Str) (hi : '\n' ∉ indent) :
    (FitsOneLine n (docText s) → formatDoc s n indent = indent ++ quotes3 ++ docText s ++ quotes3) ∧
    (¬ FitsOneLine n (docText s) → ∃ blocks, All₂ (LineFilled n) (splitChar '\n' (docText s)) blocks ∧
      splitChar '\n' (formatDoc s n indent) =
        (indent ++ quotes3) :: blocks.flatten.map (indent ++ ·) ++ [indent ++ quotes3]) := by
  have hq : '\n' ∈ quotes3 ++ docText s ++ quotes3 ↔ '\n' ∈ docText s := by simp [quotes3]
  have hl : (quotes3 ++ docText s ++ quotes3).length = (docText s).length + 6 := by simp [quotes3]
  unfold formatDoc
  simp only [hq, hl]
  constructor
  · rintro ⟨h1, h2⟩
    rcases h2 with h2 | h2
    · rw [if_pos ⟨h2, h1⟩]; simp
    · split
      · simp
      · rw [if_pos ⟨(splitString_one n h1 (docText_words s)).mpr h2, h1⟩]; simp
  · intro h
    rw [if_neg (fun ⟨h1, h2⟩ => h ⟨h2, .inl h1⟩),
      if_neg (fun ⟨h1, h2⟩ => h ⟨h2, .inr ((splitString_one n h2 (docText_words s)).mp h1)⟩)]
    obtain ⟨blocks, hb, e⟩ := splitString_filled (docText s) n
    refine ⟨blocks, hb, ?_⟩
    rw [e]
    have hfree : ∀ x ∈ blocks.flatten.map (indent ++ ·), '\n' ∉ x := by
      intro x hx hc
      obtain ⟨y, hy, rfl⟩ := List.mem_map.mp hx
      rcases List.mem_append.mp hc with hc | hc
      · exact hi hc
      · rw [← e] at hy
        unfold splitString at hy
        obtain ⟨l, hl, hyl⟩ := List.mem_flatten.mp hy
        obtain ⟨line, hline, rfl⟩ := List.mem_map.mp hl
        rcases mem_splitLine_char hyl hc with h | ⟨w, hw, h⟩
        · cases h
        · exact not_mem_of_mem_splitChar hline (mem_of_mem_words hw h)
    have hne : blocks.flatten ≠ [] := by
      intro h0
      have := splitString_words (docText s) n
      rw [e, h0] at this
      exact docText_words s this.symm
    have hq' : '\n' ∉ indent ++ quotes3 := by simp [hi, quotes3]
    rw [show indent ++ quotes3 ++ py!"\n" ++ join py!"\n" (blocks.flatten.map (indent ++ ·)) ++ py!"\n" ++ indent ++ quotes3 =
      (indent ++ quotes3) ++ '\n' :: (join ['\n'] (blocks.flatten.map (indent ++ ·)) ++ '\n' :: (indent ++ quotes3)) by simp,
      splitChar_append_sep hq', splitChar_append, splitChar_join (by simpa using hne) hfree, splitChar_free hq']
    rfl

/-- Words that fit. -/
theorem filled_width {n : Nat} {line : Str} {out : List Str} (h : LineFilled n line out) (hw : ∀ w ∈ words line, w.length ≤ n) :
    ∀ l ∈ out, l.length ≤ n := by
  intro l hl
  rcases h with ⟨_, rfl⟩ | ⟨_, rows, hf, rfl⟩
  · rw [List.mem_singleton] at hl; subst hl; simp
  · obtain ⟨row, hr, rfl⟩ := List.mem_map.mp hl
    rcases (hf.fits row hr).2 with h1 | h1
    · match row, h1, hr with
      | [w], _, hr =>
        apply hw
        rw [← hf.words]
        exact List.mem_flatten.mpr ⟨_, hr, by simp⟩
    · exact h1

/-- **C11, what is true of the whole docstring.** If every word fits, and the text is not a single line with further blanks
between its words, then no line of the docstring is longer than the width, the indentation and six quotes. Several lines
are not longer than the width and the indentation. -/
theorem docstring_width_partial (s : Str) (n : Nat) (indent : Str) (hi : '\n' ∉ indent) (h3 : 3 ≤ n)
    (hw : ∀ w ∈ words (docText s), w.length ≤ n)
    (ht : '\n' ∈ docText s ∨ docText s = join py!" " (words (docText s))) :
    (∀ l ∈ splitChar '\n' (formatDoc s n indent), l.length ≤ indent.length + n + 6) ∧
    (¬ FitsOneLine n (docText s) → ∀ l ∈ splitChar '\n' (formatDoc s n indent), l.length ≤ indent.length + n) := by
  obtain ⟨h1, h2⟩ := docstring_layout s n indent hi
  have several : ¬ FitsOneLine n (docText s) → ∀ l ∈ splitChar '\n' (formatDoc s n indent), l.length ≤ indent.length + n := by
    intro h l hl
    obtain ⟨blocks, hb, e⟩ := h2 h
    rw [e] at hl
    have hq : (indent ++ quotes3).length ≤ indent.length + n := by simp [quotes3]; omega
    rcases List.mem_append.mp hl with hl | hl
    · rcases List.mem_cons.mp hl with rfl | hl
      · exact hq
      · obtain ⟨x, hx, rfl⟩ := List.mem_map.mp hl
        obtain ⟨out, ho, hxo⟩ := List.mem_flatten.mp hx
        obtain ⟨line, hline, hf⟩ := hb.mem_right _ ho
        have := filled_width hf (fun w hw' => hw w (by
          rw [show docText s = join py!"\n" (splitChar '\n' (docText s)) from (join_splitChar _ _).symm, words_join_nl]
          exact List.mem_flatten.mpr ⟨_, List.mem_map.mpr ⟨line, hline, rfl⟩, hw'⟩)) x hxo
        simp only [List.length_append]
        omega
    · rw [List.mem_singleton] at hl
      subst hl
      exact hq
  refine ⟨fun l hl => ?_, several⟩
  by_cases h : FitsOneLine n (docText s)
  · have hn := h.1
    have ht' := ht.resolve_left hn
    rw [h1 h, splitChar_free (by simp [hi, hn, quotes3]), List.mem_singleton] at hl
    subst hl
    have : (docText s).length ≤ n := by
      rcases h.2 with h | h | h
      · omega
      · rw [ht']; exact h
      · match e : words (docText s), h with
        | [w], _ =>
          rw [ht', e]
          exact hw w (by rw [e]; simp)
    simp only [List.length_append, quotes3, List.length_cons, List.length_nil]
    omega
  · exact Nat.le_trans (several h l hl) (by omega)

theorem words_spaced (k : Nat) : words (py!"a" ++ List.replicate (k + 1) ' ' ++ py!"b.") = [py!"a", py!"b."] := by
  rw [List.append_assoc, List.replicate_succ, List.cons_append (as := List.replicate k ' '), words_append_space (by decide),
    words_allspace_append _ (fun c hc => by rw [(List.mem_replicate.mp hc).2]; decide)]
  rfl

/-- **C11 fails.** There is no bound on what exceeds the width: blanks between the words are not counted, but printed, so that
a docstring of two short words takes a line of any length. -/
theorem docstring_fits_fails_blanks (m : Nat) : ∃ s, (∀ w ∈ words (docText s), w.length ≤ 8) ∧
    ∃ l ∈ splitChar '\n' (formatDoc s 8 []), m < l.length := by
  refine ⟨py!"a" ++ List.replicate (m + 1) ' ' ++ py!"b.", ?_, ?_⟩
  all_goals
    have e : docText (py!"a" ++ List.replicate (m + 1) ' ' ++ py!"b.") = py!"a" ++ List.replicate (m + 1) ' ' ++ py!"b." := by
      have hr : rstripChar '\n' (py!"a" ++ List.replicate (m + 1) ' ' ++ py!"b.") = py!"a" ++ List.replicate (m + 1) ' ' ++ py!"b." := by
        simp [rstripChar]
      unfold docText
      rw [hr]
      have : endsWith (py!"a" ++ List.replicate (m + 1) ' ' ++ py!"b.") py!"." = true := by
        rw [endsWith, List.isSuffixOf_iff_suffix]
        exact ⟨py!"a" ++ List.replicate (m + 1) ' ' ++ py!"b", by simp⟩
      rw [if_pos this]
  · intro w hw
    rw [e, words_spaced] at hw
    simp at hw
    rcases hw with rfl | rfl <;> decide
  · have hn : '\n' ∉ py!"a" ++ List.replicate (m + 1) ' ' ++ py!"b." := by simp [List.mem_replicate]
    have h := (docstring_layout (py!"a" ++ List.replicate (m + 1) ' ' ++ py!"b.") 8 [] (by simp)).1 (by
      rw [e]
      exact ⟨hn, .inr (.inl (by rw [words_spaced]; decide))⟩)
    refine ⟨quotes3 ++ (py!"a" ++ List.replicate (m + 1) ' ' ++ py!"b.") ++ quotes3, ?_, ?_⟩
    · rw [h, e, splitChar_free (by simp [quotes3, List.mem_replicate])]
      simp
    · simp [quotes3]
      omega

/-- A docstring of one line, and one of several with an empty line. -/
example : FitsOneLine 20 (docText py!"A config file") ∧ ¬ FitsOneLine 20 (docText py!"Settings of the server\n\nSee the manual") := by
  unfold FitsOneLine
  decide +kernel

example : splitChar '\n' (formatDoc py!"Settings of the server\n\nSee the manual" 20 py!"  ") =
    [py!"  \"\"\"", py!"  Settings of the", py!"  server", py!"  ", py!"  See the manual.", py!"  \"\"\""] := by decide +kernel

/-- Lines of blanks are dropped, unlike empty lines. -/
example : splitString py!"a\n \nb" 20 = [py!"a", py!"b"] ∧ splitString py!"a\n\nb" 20 = [py!"a", [], py!"b"] := by decide +kernel

/-- Hypotheses of `docstring_width_partial`. -/
example : (∀ w ∈ words (docText py!"Settings of the server"), w.length ≤ 20) ∧
    docText py!"Settings of the server" = join py!" " (words (docText py!"Settings of the server")) := by decide +kernel

end Verif.Props
