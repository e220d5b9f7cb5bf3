import Verif.Lemmas.YamlValue
import Verif.Lemmas.YamlText
/-
What becomes of the lines of documents.
-/
namespace Verif
open Spec

theorem Spec.Printed.noTab {c : Char} (h : Printed c) : c ≠ '\t' := by
  rintro rfl
  rcases h with h | h <;> revert h <;> decide

theorem Spec.Printed.noBreak {c : Char} (h : Printed c) : isLineBreak c = false := by
  unfold isLineBreak
  unfold Printed at h
  simp only [Bool.or_eq_false_iff, Bool.and_eq_false_iff, decide_eq_false_iff_not, beq_eq_false_iff_ne]
  omega

theorem yamlChar_ascii (c : Char) (h : yamlChar c = true) :
    Printed c ∧ isSpace c = false ∧ isQuote c = false ∧ c ≠ ':' ∧ c ≠ '-' ∧ c ≠ ' ' ∧ c ≠ '#' := by
  have ha : isAscii c = true := by
    unfold yamlChar at h; simp only [Bool.and_eq_true] at h; exact h.1
  have h3 : c.toNat < 128 := by simpa [isAscii] using ha
  have key : ∀ n : Fin 128, yamlChar (Char.ofNat n) = true → (0x20 ≤ n.val ∧ n.val ≤ 0x7e) ∧ isSpace (Char.ofNat n) = false ∧
      isQuote (Char.ofNat n) = false ∧ Char.ofNat n ≠ ':' ∧ Char.ofNat n ≠ '-' ∧ Char.ofNat n ≠ ' ' ∧ Char.ofNat n ≠ '#' := by decide +kernel
  have := key ⟨c.toNat, h3⟩ (by simpa [Char.ofNat_toNat] using h)
  simp only [Char.ofNat_toNat] at this
  exact ⟨.inl this.1, this.2⟩

theorem Spec.PlainWord.split {k : Str} (h : PlainWord k) : ∃ c r, k = c :: r ∧ yamlChar c = true := by
  obtain ⟨⟨c, r, rfl, _⟩, h, _⟩ := h
  exact ⟨c, r, rfl, h c (by simp)⟩

theorem Spec.PlainWord.char {k : Str} (h : PlainWord k) {c : Char} (hc : c ∈ k) : yamlChar c = true := h.2.1 c hc

theorem lstrip_blanks (w : Nat) {c : Char} {r : Str} (hc : isSpace c = false) : lstrip (blanks w ++ c :: r) = c :: r := by
  unfold blanks
  rw [lstrip_allspace (fun d hd => by rw [List.eq_of_mem_replicate hd]; decide)]
  simp [lstrip, hc]

theorem visible_blanks {w : Nat} {c : Char} {r : Str} (ht : '\t' ∉ blanks w ++ c :: r) (hc : isSpace c = false) : visibleText (blanks w ++ c :: r) = c :: r := by
  rw [visibleText_eq, removeSpacing_notab ht, lstrip_blanks w hc]

/-- The key is found before the first colon. -/
theorem key_found {k rest key : Str} (hk : PlainWord k) {i : Nat} (h1 : (k ++ ':' :: rest)[i]? = some ':') (h3 : ∀ j < i, (k ++ ':' :: rest)[j]? = some ':' → ¬ Unquoted (k ++ ':' :: rest) j)
    (h4 : key = unquote ((k ++ ':' :: rest).take i)) : key = k := by
  have hi : i = k.length := by
    rcases Nat.lt_trichotomy i k.length with h | h | h
    · rw [List.getElem?_append_left h] at h1
      have := (yamlChar_ascii _ (hk.char (List.mem_of_getElem? h1))).2.2.2.1
      exact absurd rfl this
    · exact h
    · refine absurd ?_ (h3 k.length h (by simp))
      unfold Unquoted quotesBefore
      rw [List.take_left']
      · have : k.countP (fun c => c == '\'' || c == '"') = 0 := by
          rw [List.countP_eq_zero]
          intro c hc
          have := (yamlChar_ascii _ (hk.char hc)).2.2.1
          simpa [isQuote] using this
        rw [this]
      · rfl
  subst hi
  rw [List.take_left' rfl] at h4
  rw [h4]
  obtain ⟨c, r, rfl, hc⟩ := hk.split
  have hq := (yamlChar_ascii c hc).2.2.1
  simp only [isQuote, Bool.or_eq_false_iff, beq_eq_false_iff_ne] at hq
  have e1 : startsWith (c :: r) py!"\"" = false := by
    simp only [startsWith, List.isPrefixOf, Bool.and_true]
    exact beq_eq_false_iff_ne.mpr (Ne.symm hq.2)
  have e2 : startsWith (c :: r) py!"'" = false := by
    simp only [startsWith, List.isPrefixOf, Bool.and_true]
    exact beq_eq_false_iff_ne.mpr (Ne.symm hq.1)
  simp [unquote, e1, e2]

theorem keyLine_key {U : Uni} {w : Nat} {k rest key : Str} (hk : PlainWord k) (ht : '\t' ∉ blanks w ++ (k ++ ':' :: rest))
    (h : KeyLine U false (blanks w ++ (k ++ ':' :: rest)) key) : key = k := by
  obtain ⟨_, _, _, i, h1, _, h3, h4⟩ := h
  have e : lineBody (blanks w ++ (k ++ ':' :: rest)) = k ++ ':' :: rest := by
    obtain ⟨c, r, rfl, hc⟩ := hk.split
    have hc := yamlChar_ascii c hc
    unfold lineBody
    rw [List.cons_append] at ht ⊢
    rw [visible_blanks ht hc.2.1]
    split
    · rename_i e; injection e with e _; exact absurd e hc.2.2.2.2.1
    · rfl
  rw [e] at h1 h3 h4
  exact key_found hk h1 h3 h4

theorem keyLine_item {U : Uni} {w : Nat} {k rest key : Str} (hk : PlainWord k) (ht : '\t' ∉ blanks w ++ '-' :: ' ' :: (k ++ ':' :: rest))
    (h : KeyLine U false (blanks w ++ '-' :: ' ' :: (k ++ ':' :: rest)) key) : key = k := by
  obtain ⟨_, _, _, i, h1, _, h3, h4⟩ := h
  have e : lineBody (blanks w ++ '-' :: ' ' :: (k ++ ':' :: rest)) = k ++ ':' :: rest := by
    obtain ⟨c, r, rfl, hc⟩ := hk.split
    have hc := yamlChar_ascii c hc
    unfold lineBody
    rw [visible_blanks ht (by decide)]
    exact lstrip_blanks 1 hc.2.1
  rw [e] at h1 h3 h4
  exact key_found hk h1 h3 h4

theorem indentOf_blanks {w : Nat} {s : Str} {c : Char} {r : Str} (hs : ∀ d ∈ s, d = ' ' ∨ d = '-') (hc : yamlChar c = true) :
    indentOf (blanks w ++ (s ++ c :: r)) = blanks w ++ s := by
  unfold indentOf
  have hc := yamlChar_ascii c hc
  rw [← List.append_assoc, List.takeWhile_append_of_pos]
  · rw [List.takeWhile_cons_of_neg]
    · simp
    · have := hc.1.noTab
      simp [hc.2.2.2.2.1, hc.2.2.2.2.2.1, this]
  · intro d hd
    rcases List.mem_append.mp hd with hd | hd
    · rw [List.eq_of_mem_replicate hd]; decide
    · rcases hs d hd with rfl | rfl <;> decide

/-- The line of a key stays, perhaps behind a hidden entry. -/
theorem key_becomes {U : Uni} {w : Nat} {k rest : Str} {ts new : List Str} (hk : PlainWord k) (ht : '\t' ∉ blanks w ++ (k ++ ':' :: rest))
    (h : LineBecomes U false ts (blanks w ++ (k ++ ':' :: rest)) new) : (new = [blanks w ++ (k ++ ':' :: rest)] ∧ (ts = [] ∨ ¬ KeyLine U false (blanks w ++ (k ++ ':' :: rest)) k)) ∨
      (ts ≠ [] ∧ KeyLine U false (blanks w ++ (k ++ ':' :: rest)) k ∧ new = [hiddenEntry (blanks w) k (blanks (w + 1)) (splitlines (join py!"\n\n" ts)), blanks w ++ (k ++ ':' :: rest)]) := by
  have hi : indentOf (blanks w ++ (k ++ ':' :: rest)) = blanks w := by
    obtain ⟨c, r, rfl, hc⟩ := hk.split
    have := indentOf_blanks (w := w) (s := []) (r := r ++ ':' :: rest) (by simp) hc
    simpa using this
  generalize hline : blanks w ++ (k ++ ':' :: rest) = line at h
  cases h with
  | same h => rw [← hline] at h ⊢; exact .inl ⟨rfl, h.imp_right fun h => h k⟩
  | key h1 h2 h3 h4 h5 =>
    rw [← hline] at h1 ⊢
    have hkey := keyLine_key hk ht h1
    subst hkey
    rw [hi]
    refine .inr ⟨h2, h1, ?_⟩
    rw [h3]
    have : blanks w ++ [' '] = blanks (w + 1) := by unfold blanks; rw [List.replicate_succ']
    simp [this]
  | item h1 h2 _ h4 h5 =>
    rename_i a b _ _ _
    exfalso
    have e := congrArg lstrip hline
    rw [lstrip_allspace h4] at e
    obtain ⟨c, r, rfl, hc⟩ := hk.split
    have hc := yamlChar_ascii c hc
    rw [List.cons_append, lstrip_blanks w hc.2.1] at e
    have : lstrip ('-' :: b) = '-' :: b := by simp [lstrip, List.dropWhile, (by decide : isSpace '-' = false)]
    rw [this] at e
    injection e with e _
    exact hc.2.2.2.2.1 e

theorem blanks_dash {w : Nat} {a b x : Str} (ha : ∀ c ∈ a, isSpace c = true) (h : blanks w ++ '-' :: x = a ++ '-' :: b) : a = blanks w ∧ b = x := by
  have hd : isSpace '-' = false := by decide
  induction w generalizing a with
  | zero =>
    cases a with
    | nil => injection h with _ h; exact ⟨rfl, h.symm⟩
    | cons c a =>
      injection h with h _
      have := ha c (by simp)
      rw [← h] at this; cases this
  | succ w ih =>
    cases a with
    | nil => injection h with h _; exact absurd h (by decide)
    | cons c a =>
      injection h with h1 h2
      obtain ⟨e1, e2⟩ := ih (fun d hd => ha d (by simp [hd])) h2
      rw [← h1, e1]
      exact ⟨rfl, e2⟩

/-- The first line of a list item likewise; the hidden entry takes over the dash. -/
theorem item_becomes {U : Uni} {w : Nat} {k rest : Str} {ts new : List Str} (hk : PlainWord k) (ht : '\t' ∉ blanks w ++ '-' :: ' ' :: (k ++ ':' :: rest))
    (h : LineBecomes U false ts (blanks w ++ '-' :: ' ' :: (k ++ ':' :: rest)) new) : (new = [blanks w ++ '-' :: ' ' :: (k ++ ':' :: rest)] ∧ (ts = [] ∨ ¬ KeyLine U false (blanks w ++ '-' :: ' ' :: (k ++ ':' :: rest)) k)) ∨
      (ts ≠ [] ∧ KeyLine U false (blanks w ++ '-' :: ' ' :: (k ++ ':' :: rest)) k ∧ new = [hiddenEntry (blanks w ++ py!"- ") k (blanks (w + 3)) (splitlines (join py!"\n\n" ts)), blanks (w + 2) ++ (k ++ ':' :: rest)]) := by
  have hi : indentOf (blanks w ++ '-' :: ' ' :: (k ++ ':' :: rest)) = blanks w ++ py!"- " := by
    obtain ⟨c, r, rfl, hc⟩ := hk.split
    have := indentOf_blanks (w := w) (s := py!"- ") (r := r ++ ':' :: rest) (by decide) hc
    simpa using this
  generalize hline : blanks w ++ '-' :: ' ' :: (k ++ ':' :: rest) = line at h
  cases h with
  | same h => rw [← hline] at h ⊢; exact .inl ⟨rfl, h.imp_right fun h => h k⟩
  | key h1 h2 h3 h4 h5 =>
    exfalso
    refine h5 (' ' :: (k ++ ':' :: rest)) ?_
    rw [← hline]
    exact visible_blanks ht (by decide)
  | item h1 h2 _ h4 h5 =>
    rename_i a b key n _
    obtain ⟨rfl, rfl⟩ := blanks_dash h4 hline
    rw [hi] at h5
    have hn : n = w := by simpa [blanks] using h5.symm
    subst hn
    have hkey := keyLine_item hk ht h1
    subst hkey
    refine .inr ⟨h2, h1, ?_⟩
    have : blanks n ++ ' ' :: ' ' :: (key ++ ':' :: rest) = blanks (n + 2) ++ (key ++ ':' :: rest) := by
      unfold blanks
      rw [List.replicate_succ', List.replicate_succ']; simp
    rw [this]
    rfl

theorem other_becomes {U : Uni} {line : Str} {ts new : List Str} (hk : ∀ key, ¬ KeyLine U false line key) (h : LineBecomes U false ts line new) : new = [line] := by
  cases h with
  | same _ => rfl
  | key h1 => exact absurd h1 (hk _)
  | item h1 => exact absurd h1 (hk _)

theorem note_becomes {U : Uni} {line : Str} {ts new : List Str} (hl : NoteLine line) (h : LineBecomes U false ts line new) : new = [line] := by
  refine other_becomes (fun key hk => ?_) h
  have ht : '\t' ∉ line := fun hc => (hl.1 _ hc).noTab rfl
  obtain ⟨_, ⟨c, r, h1, h2⟩, _⟩ := hk
  rcases hl.2 with hb | ⟨n, s, rfl⟩
  · have : visibleText line = [] := by
      rw [visibleText_eq, removeSpacing_notab ht]
      have := lstrip_allspace (a := line) (b := []) (fun c hc => by rw [hb c hc]; decide)
      simpa [lstrip] using this
    rw [this] at h1; cases h1
  · have := visible_blanks (w := n) (c := '#') (r := s) ht (by decide)
    rw [show blanks n = List.replicate n ' ' from rfl] at this
    rw [this] at h1
    injection h1 with h1 _
    subst h1
    rw [U.alpha_ascii '#' (by decide)] at h2
    revert h2; decide

theorem elem_becomes {U : Uni} {line : Str} {ts new : List Str} (hl : ':' ∉ line) (h : LineBecomes U false ts line new) : new = [line] := by
  refine other_becomes (fun key hk => ?_) h
  obtain ⟨i, hi⟩ := keyLine_colon hk
  exact hl (findOutside_mem (by decide) hi)

/-! ### Lines behind each other -/

/-- Lines as they follow each other in a file. -/
def glued (ls : List Str) : Str := ls.flatMap ('\n' :: ·)

theorem glued_append (a b : List Str) : glued (a ++ b) = glued a ++ glued b := by simp [glued]
theorem glued_two {a b a' b' : List Str} (h1 : glued a = glued a') (h2 : glued b = glued b') : glued (a ++ b) = glued (a' ++ b') := by
  rw [glued_append, h1, h2, glued_append]
theorem glued_cons (a : Str) (b : List Str) : glued (a :: b) = '\n' :: a ++ glued b := by simp [glued]

theorem glued_join {ls : List Str} (h : ls ≠ []) : glued ls = '\n' :: join py!"\n" ls := by
  cases ls with
  | nil => exact absurd rfl h
  | cons a r =>
    clear h
    induction r generalizing a with
    | nil => simp [glued, join]
    | cons b r ih => rw [glued_cons, ih b, join]; simp

theorem glued_hidden (st k ind line : Str) (text : List Str) :
    glued [hiddenEntry st k ind text, line] = glued ((st ++ (hiddenPrefix ++ k) ++ py!": |") :: text.map (ind ++ ·)) ++ glued [line] := by
  rw [glued_cons]
  generalize glued [line] = z
  rw [glued_cons]
  unfold hiddenEntry literalBlock
  have e : (text.flatMap fun l => '\n' :: (ind ++ l)) = glued (text.map (ind ++ ·)) := by
    simp [glued, List.flatMap_map]
  rw [e]
  simp [hiddenPrefix]

theorem becomes_append {U : Uni} {tabs : Bool} {texts : Nat → Str → List Str → Prop} : ∀ {i : Nat} {a b out : List Str},
    Becomes U tabs texts i (a ++ b) out → ∃ o1 o2, out = o1 ++ o2 ∧ Becomes U tabs texts i a o1 ∧ Becomes U tabs texts (i + a.length) b o2
  | i, [], b, out, h => ⟨[], out, rfl, .nil i, h⟩
  | i, l :: a, b, out, h => by
    cases h with
    | cons h1 h2 h3 =>
      obtain ⟨o1, o2, rfl, g1, g2⟩ := becomes_append h3
      refine ⟨_, o2, (List.append_assoc _ _ _).symm, .cons h1 h2 g1, ?_⟩
      rw [List.length_cons, Nat.add_comm a.length 1, ← Nat.add_assoc]
      exact g2

/-! ### Documents -/

theorem scalar_printed {s : YScalar} (h : s.OK) : PrintedLine s.text := by
  intro c hc
  have digit : ∀ c : Char, isAscii c = true → c.isDigit = true → Printed c := by
    intro c ha hd
    refine (yamlChar_ascii c ?_).1
    simp [yamlChar, ha, Char.isAlphanum, hd]
  cases s with
  | int d => exact digit c (h.2.1 c hc).1 (h.2.1 c hc).2
  | bool b =>
    refine (yamlChar_ascii c ?_).1
    cases b <;> revert c <;> decide
  | null =>
    refine (yamlChar_ascii c ?_).1
    revert c; decide
  | word s => exact (yamlChar_ascii c (h.char hc)).1
  | quoted s =>
    simp only [YScalar.text, List.cons_append, List.mem_cons, List.mem_append, List.not_mem_nil, or_false] at hc
    rcases hc with rfl | hc | rfl
    · exact .inl (by decide)
    · exact h.1 c hc
    · exact .inl (by decide)

theorem word_printed {k : Str} (h : PlainWord k) : PrintedLine k := fun _ hc => (yamlChar_ascii _ (h.char hc)).1
theorem blanks_printed (w : Nat) : PrintedLine (blanks w) := fun c hc => by rw [List.eq_of_mem_replicate hc]; exact .inl (by decide)
theorem printed_append {a b : Str} (ha : PrintedLine a) (hb : PrintedLine b) : PrintedLine (a ++ b) := fun c hc => (List.mem_append.mp hc).elim (ha c) (hb c)
theorem printed_noTab {s : Str} (h : PrintedLine s) : '\t' ∉ s := fun hc => (h _ hc).noTab rfl

theorem scalar_line (w : Nat) (k x t : Str) : blanks w ++ k ++ py!": " ++ x ++ t = blanks w ++ (k ++ ':' :: (' ' :: x ++ t)) := by simp
theorem nested_line (w : Nat) (k t : Str) : blanks w ++ k ++ py!":" ++ t = blanks w ++ (k ++ ':' :: t) := by simp

theorem dashed_line (w : Nat) (x : Str) (r : List Str) : dashed w ((blanks (w + 2) ++ x) :: r) = (blanks w ++ '-' :: ' ' :: x) :: r := by
  show (blanks w ++ py!"- " ++ (blanks (w + 2) ++ x).drop (w + 2)) :: r = _
  rw [List.drop_left' (by simp [blanks])]
  simp

theorem dashed_length (w : Nat) (l : List Str) : (dashed w l).length = l.length := by cases l <;> rfl

theorem prefix_word {k : Str} (hk : PlainWord k) (hl : k.length ≤ 1000) : PlainWord (hiddenPrefix ++ k) := by
  refine ⟨⟨'_', py!"__docstring_hidden_key_" ++ k, rfl, by decide⟩, ?_, ?_, ?_⟩
  · intro c hc
    rcases List.mem_append.mp hc with hc | hc
    · exact (by decide : ∀ c ∈ hiddenPrefix, yamlChar c = true) c hc
    · exact hk.char hc
  · intro h
    have hlen : ∀ x ∈ yamlWords, x.length ≤ 5 := by decide
    have := hlen _ h
    simp [hiddenPrefix] at this
  · simp [hiddenPrefix]; omega

/-- The entry with a text block before it. -/
def withText (k : Str) (ls : List Str) (m : YMap) : YMap := .text (hiddenPrefix ++ k) ls m

section
variable {U : Uni} {texts : Nat → Str → List Str → Prop}
  (hT : ∀ i line ts, texts i line ts → ts ≠ [] → TextBlock (splitlines (join py!"\n\n" ts)))
include hT

theorem entry_step {m : YMap} {w i : Nat} {k rest : Str} {ts new out : List Str} {others : List Str} (hk : PlainWord k) (hlen : k.length ≤ 1000)
    (hp : PrintedLine rest) (ht : texts i (blanks w ++ (k ++ ':' :: rest)) ts) (hb : LineBecomes U false ts (blanks w ++ (k ++ ':' :: rest)) new)
    (hl : m.lines w = (blanks w ++ (k ++ ':' :: rest)) :: others) (hg : glued out = glued others) (hd : m.Documented) (hok : m.OK)
    (hf : m.firstKey = some k) (hm : m.begins) (hs : ∀ p, BlockFor U texts i (blanks w ++ (k ++ ':' :: rest)) k p → m.Shows (BlockFor U texts) (blanks w) w i p) :
    ∃ m' : YMap, m'.bare = m.bare ∧ m'.Documented ∧ m'.OK ∧ m'.begins ∧ m'.Shows (BlockFor U texts) (blanks w) w i none ∧ glued (new ++ out) = glued (m'.lines w) := by
  have htab : '\t' ∉ blanks w ++ (k ++ ':' :: rest) := by
    refine printed_noTab (printed_append (blanks_printed w) (printed_append (word_printed hk) ?_))
    intro c hc
    rcases List.mem_cons.mp hc with rfl | hc
    · exact .inl (by decide)
    · exact hp c hc
  rcases key_becomes hk htab hb with ⟨rfl, hno⟩ | ⟨hne, hkl, rfl⟩
  · refine ⟨m, rfl, hd, hok, hm, hs none (.inl ⟨rfl, hno.imp_left fun h => by rw [← h]; exact ht⟩), ?_⟩
    rw [hl, glued_append, hg, ← glued_append]; rfl
  · refine ⟨withText k (splitlines (join py!"\n\n" ts)) m, ?_, ?_, ?_, trivial, ?_, ?_⟩
    · unfold withText; rw [YMap.bare, if_pos (hidden_prefix k)]
    · unfold withText; rw [YMap.Documented]; exact ⟨⟨k, rfl, hf⟩, hd⟩
    · unfold withText; rw [YMap.OK]; exact ⟨prefix_word hk hlen, hT i _ ts ht hne, hm, hok⟩
    · unfold withText; rw [YMap.Shows]; exact hs _ (.inr ⟨ts, hne, ht, hkl, rfl⟩)
    · unfold withText
      rw [YMap.lines, hl, glued_append, glued_hidden, hg, glued_append, List.append_assoc, ← glued_append [_]]; rfl

theorem item_step {m : YMap} {w i : Nat} {k rest : Str} {ts new out : List Str} {others : List Str} (hk : PlainWord k) (hlen : k.length ≤ 1000)
    (hp : PrintedLine rest) (ht : texts i (blanks w ++ '-' :: ' ' :: (k ++ ':' :: rest)) ts) (hb : LineBecomes U false ts (blanks w ++ '-' :: ' ' :: (k ++ ':' :: rest)) new)
    (hl : m.lines (w + 2) = (blanks (w + 2) ++ (k ++ ':' :: rest)) :: others) (hg : glued out = glued others) (hd : m.Documented) (hok : m.OK)
    (hf : m.firstKey = some k) (hm : m.begins)
    (hs : ∀ p, BlockFor U texts i (blanks w ++ py!"- " ++ (k ++ ':' :: rest)) k p → m.Shows (BlockFor U texts) (blanks w ++ py!"- ") (w + 2) i p) :
    ∃ m' : YMap, m'.bare = m.bare ∧ m'.Documented ∧ m'.OK ∧ m'.begins ∧ m'.Shows (BlockFor U texts) (blanks w ++ py!"- ") (w + 2) i none ∧ glued (new ++ out) = glued (dashed w (m'.lines (w + 2))) := by
  have htab : '\t' ∉ blanks w ++ '-' :: ' ' :: (k ++ ':' :: rest) := by
    refine printed_noTab (printed_append (blanks_printed w) ?_)
    intro c hc
    simp only [List.mem_cons, List.mem_append] at hc
    rcases hc with rfl | rfl | hc | rfl | hc
    · exact .inl (by decide)
    · exact .inl (by decide)
    · exact word_printed hk c hc
    · exact .inl (by decide)
    · exact hp c hc
  have eline : blanks w ++ py!"- " ++ (k ++ ':' :: rest) = blanks w ++ '-' :: ' ' :: (k ++ ':' :: rest) := by simp
  rw [eline] at hs
  rcases item_becomes hk htab hb with ⟨rfl, hno⟩ | ⟨hne, hkl, rfl⟩
  · refine ⟨m, rfl, hd, hok, hm, hs none (.inl ⟨rfl, hno.imp_left fun h => by rw [← h]; exact ht⟩), ?_⟩
    rw [hl, dashed_line, glued_append, hg, ← glued_append]; rfl
  · refine ⟨withText k (splitlines (join py!"\n\n" ts)) m, ?_, ?_, ?_, trivial, ?_, ?_⟩
    · unfold withText; rw [YMap.bare, if_pos (hidden_prefix k)]
    · unfold withText; rw [YMap.Documented]; exact ⟨⟨k, rfl, hf⟩, hd⟩
    · unfold withText; rw [YMap.OK]; exact ⟨prefix_word hk hlen, hT i _ ts ht hne, hm, hok⟩
    · unfold withText; rw [YMap.Shows]; exact hs _ (.inr ⟨ts, hne, ht, hkl, rfl⟩)
    · unfold withText
      rw [glued_append, glued_hidden, hg, YMap.lines, hl, List.append_assoc (blanks (w + 2)), List.cons_append, dashed_line]
      rw [← List.cons_append, glued_append, List.append_assoc, ← glued_append [_]]
      simp

theorem note_printed {l : Str} (h : CommentTail l) : PrintedLine l := h.1

mutual
/-- Whatever comments there are, the new text of a mapping is that of a mapping with text blocks. -/
theorem map_injected : ∀ (m : YMap), m.OK → m.Plain →
    (∀ w i out, Becomes U false texts i (m.lines w) out →
      ∃ m' : YMap, m'.bare = m ∧ m'.Documented ∧ m'.OK ∧ (m.begins → m'.begins) ∧ m'.Shows (BlockFor U texts) (blanks w) w i none ∧ glued out = glued (m'.lines w)) ∧
    (m.begins → ∀ w i out, Becomes U false texts i (dashed w (m.lines (w + 2))) out →
      ∃ m' : YMap, m'.bare = m ∧ m'.Documented ∧ m'.OK ∧ m'.begins ∧ m'.Shows (BlockFor U texts) (blanks w ++ py!"- ") (w + 2) i none ∧ glued out = glued (dashed w (m'.lines (w + 2))))
  | .nil, _, _ => by
    refine ⟨fun w i out h => ?_, fun h => absurd h id⟩
    rw [YMap.lines] at h
    cases h
    exact ⟨.nil, by rw [YMap.bare], by rw [YMap.Documented]; trivial, by rw [YMap.OK]; trivial, id, by rw [YMap.Shows]; trivial, by rw [YMap.lines]⟩
  | .note l r, ho, hp => by
    refine ⟨fun w i out h => ?_, fun h => absurd h id⟩
    rw [YMap.lines] at h
    rw [YMap.OK] at ho
    rw [YMap.Plain] at hp
    cases h with
    | cons h1 h2 h3 =>
      obtain ⟨r', e, hd, ok, _, sh, g⟩ := (map_injected r ho.2 hp).1 w _ _ h3
      rw [note_becomes ho.1 h2]
      refine ⟨.note l r', by rw [YMap.bare, e], by rw [YMap.Documented]; exact hd, by rw [YMap.OK]; exact ⟨ho.1, ok⟩, id, by rw [YMap.Shows]; exact sh, ?_⟩
      rw [YMap.lines, glued_append, g, ← glued_append]; rfl
  | .scalar k s t r, ho, hp => by
    rw [YMap.OK] at ho
    rw [YMap.Plain] at hp
    have hpr : PrintedLine (' ' :: s.text ++ t) := printed_append (a := ' ' :: s.text)
      (fun c hc => (List.mem_cons.mp hc).elim (fun e => by rw [e]; exact .inl (by decide)) (scalar_printed ho.2.1 c)) ho.2.2.1.1
    refine ⟨fun w i out h => ?_, fun _ w i out h => ?_⟩
    · rw [YMap.lines, scalar_line] at h
      cases h with
      | cons h1 h2 h3 =>
        obtain ⟨r', e, hd, ok, _, sh, g⟩ := (map_injected r ho.2.2.2 hp.2.2).1 w _ _ h3
        obtain ⟨m', e', hd', ok', hb', sh', g'⟩ := entry_step hT (m := .scalar k s t r') ho.1 hp.1 hpr h1 h2
          (by rw [YMap.lines, scalar_line]) g (by rw [YMap.Documented]; exact ⟨hp.2.1, hd⟩) (by rw [YMap.OK]; exact ⟨ho.1, ho.2.1, ho.2.2.1, ok⟩) rfl trivial
          (fun p hp => by rw [YMap.Shows]; exact ⟨hp, sh⟩)
        exact ⟨m', by rw [e', YMap.bare, e], hd', ok', fun _ => hb', sh', g'⟩
    · rw [YMap.lines, scalar_line, dashed_line] at h
      cases h with
      | cons h1 h2 h3 =>
        obtain ⟨r', e, hd, ok, _, sh, g⟩ := (map_injected r ho.2.2.2 hp.2.2).1 (w + 2) _ _ h3
        obtain ⟨m', e', hd', ok', hb', sh', g'⟩ := item_step hT (m := .scalar k s t r') ho.1 hp.1 hpr h1 h2
          (by rw [YMap.lines, scalar_line]) g (by rw [YMap.Documented]; exact ⟨hp.2.1, hd⟩) (by rw [YMap.OK]; exact ⟨ho.1, ho.2.1, ho.2.2.1, ok⟩) rfl trivial
          (fun p hp => by rw [YMap.Shows]; exact ⟨hp, sh⟩)
        exact ⟨m', by rw [e', YMap.bare, e], hd', ok', hb', sh', g'⟩
  | .map k t st v r, ho, hp => by
    rw [YMap.OK] at ho
    rw [YMap.Plain] at hp
    have sub : ∀ v' : YMap, v'.bare = v → v'.Documented → v'.items ≠ [] ∧ (v'.items.map (·.1)).Nodup := by
      intro v' e hd
      refine ⟨fun h => ?_, YMap.nodup_keys v' hd (by rw [e]; exact ho.2.2.2.2.1)⟩
      have := YMap.key_bare v' hd
      rw [e, h] at this
      cases hv : v.items with
      | nil => exact ho.2.2.2.1 hv
      | cons kv d =>
        have := (this kv.1).mp (by rw [hv]; simp)
        simp at this
    refine ⟨fun w i out h => ?_, fun _ w i out h => ?_⟩
    · rw [YMap.lines, nested_line] at h
      cases h with
      | cons h1 h2 h3 =>
        obtain ⟨o1, o2, rfl, h4, h5⟩ := becomes_append h3
        obtain ⟨v', ev, hdv, okv, _, sv, gv⟩ := (map_injected v ho.2.2.2.2.2.1 hp.2.2.1).1 _ _ _ h4
        obtain ⟨r', e, hd, ok, _, sh, g⟩ := (map_injected r ho.2.2.2.2.2.2 hp.2.2.2).1 w _ _ h5
        obtain ⟨s1, s2⟩ := sub v' ev hdv
        obtain ⟨m', e', hd', ok', hb', sh', g'⟩ := entry_step hT (m := .map k t st v' r') ho.1 hp.1 ho.2.1.1 h1 h2
          (by rw [YMap.lines, nested_line]; rfl) (glued_two gv g) (by rw [YMap.Documented]; exact ⟨hp.2.1, hdv, hd⟩)
          (by rw [YMap.OK]; exact ⟨ho.1, ho.2.1, ho.2.2.1, s1, s2, okv, ok⟩) rfl trivial
          (fun p hp => by rw [YMap.Shows, ev]; exact ⟨hp, sv, sh⟩)
        exact ⟨m', by rw [e', YMap.bare, e, ev], hd', ok', fun _ => hb', sh', g'⟩
    · rw [YMap.lines, nested_line, List.cons_append, dashed_line] at h
      cases h with
      | cons h1 h2 h3 =>
        obtain ⟨o1, o2, rfl, h4, h5⟩ := becomes_append h3
        obtain ⟨v', ev, hdv, okv, _, sv, gv⟩ := (map_injected v ho.2.2.2.2.2.1 hp.2.2.1).1 _ _ _ h4
        obtain ⟨r', e, hd, ok, _, sh, g⟩ := (map_injected r ho.2.2.2.2.2.2 hp.2.2.2).1 (w + 2) _ _ h5
        obtain ⟨s1, s2⟩ := sub v' ev hdv
        obtain ⟨m', e', hd', ok', hb', sh', g'⟩ := item_step hT (m := .map k t st v' r') ho.1 hp.1 ho.2.1.1 h1 h2
          (by rw [YMap.lines, nested_line]; rfl) (glued_two gv g) (by rw [YMap.Documented]; exact ⟨hp.2.1, hdv, hd⟩)
          (by rw [YMap.OK]; exact ⟨ho.1, ho.2.1, ho.2.2.1, s1, s2, okv, ok⟩) rfl trivial
          (fun p hp => by rw [YMap.Shows, ev]; exact ⟨hp, sv, sh⟩)
        exact ⟨m', by rw [e', YMap.bare, e, ev], hd', ok', hb', sh', g'⟩
  | .seq k t st v r, ho, hp => by
    rw [YMap.OK] at ho
    rw [YMap.Plain] at hp
    refine ⟨fun w i out h => ?_, fun _ w i out h => ?_⟩
    · rw [YMap.lines, nested_line] at h
      cases h with
      | cons h1 h2 h3 =>
        obtain ⟨o1, o2, rfl, h4, h5⟩ := becomes_append h3
        obtain ⟨v', ev, hdv, okv, nev, sv, gv⟩ := seq_injected v ho.2.2.2.1 hp.2.2.1 _ _ _ h4
        obtain ⟨r', e, hd, ok, _, sh, g⟩ := (map_injected r ho.2.2.2.2 hp.2.2.2).1 w _ _ h5
        obtain ⟨m', e', hd', ok', hb', sh', g'⟩ := entry_step hT (m := .seq k t st v' r') ho.1 hp.1 ho.2.1.1 h1 h2
          (by rw [YMap.lines, nested_line]; rfl) (glued_two gv g) (by rw [YMap.Documented]; exact ⟨hp.2.1, hdv, hd⟩)
          (by rw [YMap.OK]; exact ⟨ho.1, ho.2.1, nev ho.2.2.1, okv, ok⟩) rfl trivial
          (fun p hp => by rw [YMap.Shows, ev]; exact ⟨hp, sv, sh⟩)
        exact ⟨m', by rw [e', YMap.bare, e, ev], hd', ok', fun _ => hb', sh', g'⟩
    · rw [YMap.lines, nested_line, List.cons_append, dashed_line] at h
      cases h with
      | cons h1 h2 h3 =>
        obtain ⟨o1, o2, rfl, h4, h5⟩ := becomes_append h3
        obtain ⟨v', ev, hdv, okv, nev, sv, gv⟩ := seq_injected v ho.2.2.2.1 hp.2.2.1 _ _ _ h4
        obtain ⟨r', e, hd, ok, _, sh, g⟩ := (map_injected r ho.2.2.2.2 hp.2.2.2).1 (w + 2) _ _ h5
        obtain ⟨m', e', hd', ok', hb', sh', g'⟩ := item_step hT (m := .seq k t st v' r') ho.1 hp.1 ho.2.1.1 h1 h2
          (by rw [YMap.lines, nested_line]; rfl) (glued_two gv g) (by rw [YMap.Documented]; exact ⟨hp.2.1, hdv, hd⟩)
          (by rw [YMap.OK]; exact ⟨ho.1, ho.2.1, nev ho.2.2.1, okv, ok⟩) rfl trivial
          (fun p hp => by rw [YMap.Shows, ev]; exact ⟨hp, sv, sh⟩)
        exact ⟨m', by rw [e', YMap.bare, e, ev], hd', ok', hb', sh', g'⟩
  | .text k ls r, _, hp => by rw [YMap.Plain] at hp; exact hp.elim
/-- Likewise for sequences. -/
theorem seq_injected : ∀ (s : YSeq), s.OK → s.Plain → ∀ w i out, Becomes U false texts i (s.lines w) out →
    ∃ s' : YSeq, s'.bare = s ∧ s'.Documented ∧ s'.OK ∧ (s.elems ≠ [] → s'.elems ≠ []) ∧ s'.Shows (BlockFor U texts) w i ∧ glued out = glued (s'.lines w)
  | .nil, _, _, w, i, out, h => by
    rw [YSeq.lines] at h
    cases h
    exact ⟨.nil, by rw [YSeq.bare], by rw [YSeq.Documented]; trivial, by rw [YSeq.OK]; trivial, id, by rw [YSeq.Shows]; trivial, by rw [YSeq.lines]⟩
  | .note l r, ho, hp, w, i, out, h => by
    rw [YSeq.lines] at h
    rw [YSeq.OK] at ho
    rw [YSeq.Plain] at hp
    cases h with
    | cons h1 h2 h3 =>
      obtain ⟨r', e, hd, ok, ne, sh, g⟩ := seq_injected r ho.2 hp w _ _ h3
      rw [note_becomes ho.1 h2]
      refine ⟨.note l r', by rw [YSeq.bare, e], by rw [YSeq.Documented]; exact hd, by rw [YSeq.OK]; exact ⟨ho.1, ok⟩,
        by rw [YSeq.elems, YSeq.elems]; exact ne, by rw [YSeq.Shows]; exact sh, ?_⟩
      rw [YSeq.lines, glued_append, g, ← glued_append]; rfl
  | .scalar s t r, ho, hp, w, i, out, h => by
    rw [YSeq.lines] at h
    rw [YSeq.OK] at ho
    rw [YSeq.Plain] at hp
    cases h with
    | cons h1 h2 h3 =>
      obtain ⟨r', e, hd, ok, _, sh, g⟩ := seq_injected r ho.2.2 hp.2 w _ _ h3
      have hc : ':' ∉ blanks w ++ py!"- " ++ s.text ++ t := by
        rw [List.append_assoc]
        intro hc
        rcases List.mem_append.mp hc with hc | hc
        · rcases List.mem_append.mp hc with hc | hc
          · have := List.eq_of_mem_replicate hc; revert this; decide
          · revert hc; decide
        · exact hp.1 hc
      rw [elem_becomes hc h2]
      refine ⟨.scalar s t r', by rw [YSeq.bare, e], by rw [YSeq.Documented]; exact hd, by rw [YSeq.OK]; exact ⟨ho.1, ho.2.1, ok⟩,
        fun _ => by rw [YSeq.elems]; simp, by rw [YSeq.Shows]; exact sh, ?_⟩
      rw [YSeq.lines, glued_append, g, ← glued_append]; rfl
  | .map v r, ho, hp, w, i, out, h => by
    rw [YSeq.lines] at h
    rw [YSeq.OK] at ho
    rw [YSeq.Plain] at hp
    obtain ⟨o1, o2, rfl, h4, h5⟩ := becomes_append h
    obtain ⟨v', ev, hdv, okv, bv, sv, gv⟩ := (map_injected v ho.2.2.1 hp.1).2 ho.1 _ _ _ h4
    obtain ⟨r', e, hd, ok, _, sh, g⟩ := seq_injected r ho.2.2.2 hp.2 w _ _ h5
    refine ⟨.map v' r', by rw [YSeq.bare, e, ev], by rw [YSeq.Documented]; exact ⟨hdv, hd⟩,
      by rw [YSeq.OK]; exact ⟨bv, YMap.nodup_keys v' hdv (by rw [ev]; exact ho.2.1), okv, ok⟩, fun _ => by rw [YSeq.elems]; simp,
      by rw [YSeq.Shows, ev]; rw [dashed_length] at sh; exact ⟨sv, sh⟩, ?_⟩
    rw [YSeq.lines, glued_append, gv, g, ← glued_append]
end

end

end Verif
