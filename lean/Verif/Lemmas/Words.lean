import Verif.Lemmas.ListStr
import Verif.Model.Docstring
/- Lemmas about `words` (`str.split()`) and the docstring splitter. -/
namespace Verif

theorem wordsAux_append {c : Char} (hc : isSpace c = true) : ∀ (a cur b : Str),
    wordsAux cur (a ++ c :: b) = wordsAux cur a ++ wordsAux [] b
  | [], cur, b => by
    simp only [List.nil_append, wordsAux, hc, if_true]
    split <;> simp
  | d :: a, cur, b => by
    simp only [List.cons_append, wordsAux]
    split
    · split
      · exact wordsAux_append hc a [] b
      · simp [wordsAux_append hc a [] b]
    · exact wordsAux_append hc a (d :: cur) b

theorem words_append_space {c : Char} (hc : isSpace c = true) (a b : Str) :
    words (a ++ c :: b) = words a ++ words b := wordsAux_append hc a [] b

theorem words_cons_space {c : Char} (hc : isSpace c = true) (b : Str) : words (c :: b) = words b := by
  have := words_append_space hc [] b
  simpa [words, wordsAux] using this

theorem words_nil : words [] = [] := rfl

theorem wordsAux_nospace : ∀ (w cur : Str), (∀ c ∈ w, isSpace c = false) → cur.reverse ++ w ≠ [] →
    wordsAux cur w = [cur.reverse ++ w]
  | [], cur, _, h => by
    simp at h
    have : cur.isEmpty = false := by simpa using h
    simp [wordsAux, this]
  | c :: w, cur, h, _ => by
    have hc := h c (by simp)
    simp only [wordsAux, hc]
    have := wordsAux_nospace w (c :: cur) (fun d hd => h d (by simp [hd])) (by simp)
    simpa using this

theorem words_nospace {w : Str} (h : ∀ c ∈ w, isSpace c = false) (hw : w ≠ []) : words w = [w] := by
  have := wordsAux_nospace w [] h (by simpa using hw)
  simpa [words] using this

/-- A word: non-empty, without whitespace. -/
def IsWord (w : Str) : Prop := w ≠ [] ∧ ∀ c ∈ w, isSpace c = false

theorem isWord_of_mem_wordsAux : ∀ (s cur w : Str), (∀ c ∈ cur, isSpace c = false) → w ∈ wordsAux cur s → IsWord w
  | [], cur, w, hcur, h => by
    simp only [wordsAux] at h
    split at h
    · simp at h
    · rename_i hne
      simp at h; subst h
      exact ⟨by simpa using hne, by simpa using hcur⟩
  | c :: s, cur, w, hcur, h => by
    simp only [wordsAux] at h
    split at h
    · split at h
      · exact isWord_of_mem_wordsAux s [] w (by simp) h
      · rename_i hne
        rcases List.mem_cons.mp h with h | h
        · subst h; exact ⟨by simpa using hne, by simpa using hcur⟩
        · exact isWord_of_mem_wordsAux s [] w (by simp) h
    · rename_i hc
      exact isWord_of_mem_wordsAux s (c :: cur) w
        (by intro d hd; rcases List.mem_cons.mp hd with rfl | hd; simpa using hc; exact hcur d hd) h

theorem isWord_of_mem_words {s w : Str} (h : w ∈ words s) : IsWord w :=
  isWord_of_mem_wordsAux s [] w (by simp) h

theorem words_word {w : Str} (h : IsWord w) : words w = [w] := words_nospace h.2 h.1

theorem words_allspace_append : ∀ {ind : Str} (s : Str), (∀ c ∈ ind, isSpace c = true) → words (ind ++ s) = words s
  | [], _, _ => rfl
  | c :: ind, s, h => by
    rw [List.cons_append, words_cons_space (h c (by simp)), words_allspace_append s (fun d hd => h d (by simp [hd]))]

theorem words_append_allspace (s : Str) {ind : Str} (h : ∀ c ∈ ind, isSpace c = true) (hne : ind ≠ []) :
    words (s ++ ind) = words s := by
  cases ind with
  | nil => exact absurd rfl hne
  | cons c r =>
    rw [words_append_space (h c (by simp))]
    have : words r = [] := by
      have := words_allspace_append (ind := r) [] (fun d hd => h d (by simp [hd]))
      simpa [words_nil] using this
    simp [this]

theorem words_join_nl : ∀ l : List Str, words (join py!"\n" l) = (l.map words).flatten
  | [] => rfl
  | [x] => by simp
  | x :: y :: r => by
    rw [join_cons_cons, List.append_assoc, List.singleton_append, words_append_space (by decide),
      words_join_nl (y :: r)]
    simp

/-- `cur` is empty or a space-separated list of words. -/
def Line (cur : Str) (ws : List Str) : Prop := cur = join py!" " ws ∧ ∀ w ∈ ws, IsWord w

theorem join_space_snoc : ∀ (ws : List Str) (w : Str), ws ≠ [] → join py!" " (ws ++ [w]) = join py!" " ws ++ py!" " ++ w
  | [], _, h => absurd rfl h
  | [x], w, _ => rfl
  | x :: y :: r, w, _ => by
    have := join_space_snoc (y :: r) w (by simp)
    rw [List.cons_append, List.cons_append, join_cons_cons, join_cons_cons]
    simp only [List.cons_append] at this
    rw [this]; simp

theorem words_join_space : ∀ ws : List Str, (∀ w ∈ ws, IsWord w) → words (join py!" " ws) = ws
  | [], _ => rfl
  | [x], h => by simpa using words_word (h x (by simp))
  | x :: y :: r, h => by
    rw [join_cons_cons, List.append_assoc, List.singleton_append, words_append_space (by decide),
      words_word (h x (by simp)), words_join_space (y :: r) (fun w hw => h w (by simp [hw]))]
    rfl

theorem join_space_ne_nil {ws : List Str} (hne : ws ≠ []) (h : ∀ w ∈ ws, IsWord w) : join py!" " ws ≠ [] := by
  cases ws with
  | nil => exact absurd rfl hne
  | cons x r =>
    cases r with
    | nil => simpa using (h x (by simp)).1
    | cons y r => rw [join_cons_cons]; simp

/-- The packed lines contain the words in order, each line is a non-empty row of words, and every line of more
than one word fits. -/
theorem packWords_spec (n : Nat) : ∀ (ws cws : List Str), (∀ w ∈ ws, IsWord w) → (∀ w ∈ cws, IsWord w) →
    (cws.length ≤ 1 ∨ (join py!" " cws).length ≤ n) →
    ∃ rows : List (List Str), packWords n (join py!" " cws) ws = rows.map (join py!" ") ∧
      rows.flatten = cws ++ ws ∧ (∀ row ∈ rows, row ≠ [] ∧ (row.length ≤ 1 ∨ (join py!" " row).length ≤ n))
  | [], cws, _, hc, hlen => by
    by_cases hcw : cws = []
    · subst hcw; exact ⟨[], by simp [packWords]⟩
    · have hne := join_space_ne_nil hcw hc
      have : (join py!" " cws).isEmpty = false := by simpa using hne
      refine ⟨[cws], ?_, ?_, ?_⟩
      · simp [packWords, this]
      · simp
      · intro row hrow; simp at hrow; subst hrow; exact ⟨hcw, hlen⟩
  | w :: ws, cws, h, hc, hlen => by
    have hw := h w (by simp)
    have hws : ∀ w ∈ ws, IsWord w := fun x hx => h x (by simp [hx])
    have single := packWords_spec n ws [w] hws (by simpa using hw) (.inl (by simp))
    simp only [packWords]
    by_cases hcw : cws = []
    · subst hcw
      have hemp : (join py!" " ([] : List Str)).isEmpty = true := rfl
      simp only [hemp, if_true, ite_self]
      simpa using single
    · have hne := join_space_ne_nil hcw hc
      have hemp : (join py!" " cws).isEmpty = false := by simpa using hne
      simp only [hemp]
      split
      · rename_i hle
        have hs := join_space_snoc cws w hcw
        have := packWords_spec n ws (cws ++ [w]) hws
          (by intro x hx; rcases List.mem_append.mp hx with hx | hx; exact hc x hx; simp at hx; subst hx; exact hw)
          (.inr (by rw [hs]; simp; omega))
        rw [hs] at this
        obtain ⟨rows, h1, h2, h3⟩ := this
        exact ⟨rows, by simpa using h1, by simpa using h2, h3⟩
      · obtain ⟨rows, h1, h2, h3⟩ := single
        refine ⟨cws :: rows, ?_, ?_, ?_⟩
        · simp at h1 ⊢; exact h1
        · simp [h2]
        · intro row hrow
          rcases List.mem_cons.mp hrow with rfl | hrow
          · exact ⟨hcw, hlen⟩
          · exact h3 row hrow

theorem words_flatten_rows : ∀ rows : List (List Str), (∀ row ∈ rows, ∀ w ∈ row, IsWord w) →
    ((rows.map (join py!" ")).map words).flatten = rows.flatten
  | [], _ => rfl
  | r :: rows, h => by
    simp only [List.map_cons, List.flatten_cons]
    rw [words_join_space r (h r (by simp)), words_flatten_rows rows (fun x hx => h x (by simp [hx]))]

theorem splitLine_words (n : Nat) (line : Str) : ((splitLine n line).map words).flatten = words line := by
  obtain ⟨rows, h1, h2, _⟩ := packWords_spec n (words line) [] (fun w hw => isWord_of_mem_words hw) (by simp) (.inl (by simp))
  have hrows : ∀ row ∈ rows, ∀ w ∈ row, IsWord w := by
    intro row hr w hw
    apply isWord_of_mem_words (s := line)
    have : w ∈ rows.flatten := List.mem_flatten.mpr ⟨row, hr, hw⟩
    rw [h2] at this; simpa using this
  simp only [splitLine]
  rw [show packWords n [] (words line) = rows.map (join py!" ") from h1]
  rw [List.map_append, List.flatten_append, words_flatten_rows rows hrows, h2]
  split <;> simp [words_nil]

theorem splitString_words (s : Str) (n : Nat) : ((splitString s n).map words).flatten = words s := by
  have key : ∀ l : List Str, (((l.map (splitLine n)).flatten).map words).flatten = (l.map words).flatten := by
    intro l
    induction l with
    | nil => rfl
    | cons x r ih =>
      simp only [List.map_cons, List.flatten_cons, List.map_append, List.flatten_append, splitLine_words, ih]
  unfold splitString
  rw [key, ← words_join_nl, show py!"\n" = ['\n'] from rfl, join_splitChar]

theorem splitLine_width {n : Nat} {line x : Str} (hx : x ∈ splitLine n line) :
    x.length ≤ n ∨ (∃ w ∈ words line, x = w) := by
  obtain ⟨rows, h1, h2, h3⟩ := packWords_spec n (words line) [] (fun w hw => isWord_of_mem_words hw) (by simp) (.inl (by simp))
  simp only [splitLine] at hx
  rw [show packWords n [] (words line) = rows.map (join py!" ") from h1] at hx
  rcases List.mem_append.mp hx with hx | hx
  · split at hx <;> simp at hx
    subst hx; simp
  · obtain ⟨row, hrow, rfl⟩ := List.mem_map.mp hx
    obtain ⟨hne, hl⟩ := h3 row hrow
    rcases hl with hl | hl
    · right
      match row, hne, hl with
      | [w], _, _ =>
        refine ⟨w, ?_, rfl⟩
        have : w ∈ rows.flatten := List.mem_flatten.mpr ⟨[w], hrow, by simp⟩
        rw [h2] at this; simpa using this
    · exact .inl hl

/-- Characters of the split lines: characters of the text, or spaces. -/
theorem mem_splitLine_char {n : Nat} {line x : Str} {c : Char} (hx : x ∈ splitLine n line) (hc : c ∈ x) :
    c = ' ' ∨ ∃ w ∈ words line, c ∈ w := by
  obtain ⟨rows, h1, h2, h3⟩ := packWords_spec n (words line) [] (fun w hw => isWord_of_mem_words hw) (by simp) (.inl (by simp))
  simp only [splitLine] at hx
  rw [show packWords n [] (words line) = rows.map (join py!" ") from h1] at hx
  rcases List.mem_append.mp hx with hx | hx
  · split at hx <;> simp at hx
    subst hx; simp at hc
  · obtain ⟨row, hrow, rfl⟩ := List.mem_map.mp hx
    rcases mem_join hc with h | ⟨w, hw, hcw⟩
    · left; simpa using h
    · right
      refine ⟨w, ?_, hcw⟩
      have : w ∈ rows.flatten := List.mem_flatten.mpr ⟨row, hrow, hw⟩
      rw [h2] at this; simpa using this

theorem mem_of_mem_wordsAux {c : Char} : ∀ (s cur w : Str), w ∈ wordsAux cur s → c ∈ w → c ∈ cur ∨ c ∈ s
  | [], cur, w, h, hc => by
    simp only [wordsAux] at h
    split at h
    · simp at h
    · simp at h; subst h; left; simpa using hc
  | d :: s, cur, w, h, hc => by
    simp only [wordsAux] at h
    split at h
    · split at h
      · rcases mem_of_mem_wordsAux s [] w h hc with h | h
        · simp at h
        · right; simp [h]
      · rcases List.mem_cons.mp h with h | h
        · subst h; left; simpa using hc
        · rcases mem_of_mem_wordsAux s [] w h hc with h | h
          · simp at h
          · right; simp [h]
    · rcases mem_of_mem_wordsAux s (d :: cur) w h hc with h | h
      · rcases List.mem_cons.mp h with rfl | h
        · right; simp
        · left; exact h
      · right; simp [h]

theorem mem_of_mem_words {c : Char} {s w : Str} (h : w ∈ words s) (hc : c ∈ w) : c ∈ s := by
  rcases mem_of_mem_wordsAux s [] w h hc with h | h
  · simp at h
  · exact h

end Verif
