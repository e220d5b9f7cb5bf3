import Verif.Model.Yaml
import Verif.Spec.Yaml
import Verif.Lemmas.Words
import Verif.Lemmas.ListStr
/-
Lemmas about the search for comments.
-/
namespace Verif
open Spec

/-! ### The search outside quotation marks -/

def Unq (b : Bool) (line : Str) (i : Nat) : Prop := (quotesBefore line i + if b then 1 else 0) % 2 = 0

theorem quotesBefore_cons (c : Char) (r : Str) (i : Nat) :
    quotesBefore (c :: r) (i + 1) = quotesBefore r i + if isQuote c then 1 else 0 := by
  unfold quotesBefore isQuote
  rw [List.take_succ_cons, List.countP_cons]

theorem unq_cons (b : Bool) (c : Char) (r : Str) (i : Nat) :
    Unq b (c :: r) (i + 1) ↔ Unq (if isQuote c then !b else b) r i := by
  unfold Unq
  rw [quotesBefore_cons]
  cases b <;> cases isQuote c <;> simp <;> omega

theorem findOutsideFrom_some {x : Char} (hx : isQuote x = false) : ∀ (line : Str) (b : Bool) (k i : Nat),
    findOutsideFrom x b k line = some i ↔
      ∃ m, i = k + m ∧ line[m]? = some x ∧ Unq b line m ∧ ∀ j < m, line[j]? = some x → ¬ Unq b line j
  | [], b, k, i => by simp [findOutsideFrom]
  | c :: r, b, k, i => by
    rw [findOutsideFrom]
    by_cases hq : isQuote c = true
    · rw [if_pos hq, findOutsideFrom_some hx r (!b) (k + 1) i]
      have hcx : c ≠ x := by intro h; rw [h, hx] at hq; cases hq
      constructor
      · rintro ⟨m, hm, h1, h2, h3⟩
        refine ⟨m + 1, by omega, by simpa using h1, by rw [unq_cons, if_pos hq]; exact h2, ?_⟩
        intro j hj hjx
        cases j with
        | zero => simp at hjx; exact absurd hjx hcx
        | succ j => rw [unq_cons, if_pos hq]; exact h3 j (by omega) (by simpa using hjx)
      · rintro ⟨m, hm, h1, h2, h3⟩
        cases m with
        | zero => simp at h1; exact absurd h1 hcx
        | succ m =>
          refine ⟨m, by omega, by simpa using h1, by rw [unq_cons, if_pos hq] at h2; exact h2, ?_⟩
          intro j hj hjx
          have := h3 (j + 1) (by omega) (by simpa using hjx)
          rw [unq_cons, if_pos hq] at this; exact this
    · rw [if_neg hq]
      split
      · rename_i hcb
        obtain ⟨rfl, rfl⟩ := hcb
        constructor
        · intro h
          exact ⟨0, by simpa using h.symm, by simp, by simp [Unq, quotesBefore], by omega⟩
        · rintro ⟨m, hm, h1, h2, h3⟩
          cases m with
          | zero => simp [hm]
          | succ m => exact absurd (by simp [Unq, quotesBefore]) (h3 0 (by omega) (by simp))
      · rename_i hcb
        rw [findOutsideFrom_some hx r b (k + 1) i]
        have h0 : c = x → ¬ Unq b (c :: r) 0 := by
          intro hc hu
          apply hcb
          refine ⟨hc, ?_⟩
          cases b
          · rfl
          · simp [Unq, quotesBefore] at hu
        constructor
        · rintro ⟨m, hm, h1, h2, h3⟩
          refine ⟨m + 1, by omega, by simpa using h1, by rw [unq_cons, if_neg hq]; exact h2, ?_⟩
          intro j hj hjx
          cases j with
          | zero => simp at hjx; exact h0 hjx
          | succ j => rw [unq_cons, if_neg hq]; exact h3 j (by omega) (by simpa using hjx)
        · rintro ⟨m, hm, h1, h2, h3⟩
          cases m with
          | zero => simp at h1; exact absurd h2 (h0 h1)
          | succ m =>
            refine ⟨m, by omega, by simpa using h1, by rw [unq_cons, if_neg hq] at h2; exact h2, ?_⟩
            intro j hj hjx
            have := h3 (j + 1) (by omega) (by simpa using hjx)
            rw [unq_cons, if_neg hq] at this; exact this

theorem findOutside_some {x : Char} (hx : isQuote x = false) (line : Str) (i : Nat) :
    findOutside line x = some i ↔ line[i]? = some x ∧ Unquoted line i ∧ ∀ j < i, line[j]? = some x → ¬ Unquoted line j := by
  unfold findOutside
  rw [findOutsideFrom_some hx]
  have hu : ∀ j, Unq false line j ↔ Unquoted line j := fun j => by unfold Unq Unquoted; simp
  simp only [hu]
  constructor
  · rintro ⟨m, hm, h⟩
    simp at hm; subst hm; exact h
  · intro h; exact ⟨i, by simp, h⟩

theorem findOutsideFrom_quote {x : Char} (hx : isQuote x = true) : ∀ (line : Str) (b : Bool) (k : Nat), findOutsideFrom x b k line = none
  | [], b, k => rfl
  | c :: r, b, k => by
    rw [findOutsideFrom]
    split
    · exact findOutsideFrom_quote hx r _ _
    · rename_i hq
      rw [if_neg (fun h : c = x ∧ b = false => hq (h.1 ▸ hx))]
      exact findOutsideFrom_quote hx r _ _

/-! ### Joining comment lines -/

theorem capFirst_eq (U : Uni) (s : Str) : capFirst U s = capital U s := by cases s <;> rfl

theorem sentence_append {U : Uni} {a a' b b' : List Str} (h : Sentence U a a') (h' : Sentence U b b') : Sentence U (a ++ b) (a' ++ b') := by
  induction h with
  | nil => exact h'
  | cons hw _ ih => exact .cons hw ih

theorem inSentence_refl (U : Uni) (w : Str) : InSentence U w w := ⟨w, .inl rfl, .inl rfl⟩

theorem sentence_refl (U : Uni) : ∀ l : List Str, Sentence U l l
  | [] => .nil
  | w :: r => .cons (inSentence_refl U w) (sentence_refl U r)

theorem endsWith_char {s : Str} {c : Char} : endsWith s [c] = true ↔ s.getLast? = some c := by
  unfold endsWith
  rw [List.isSuffixOf_iff_suffix]
  constructor
  · rintro ⟨a, rfl⟩; simp
  · intro h
    obtain ⟨a, ha⟩ := List.getLast?_eq_some_iff.mp h
    exact ⟨a, ha.symm⟩

/-- The last word of a text that does not end in whitespace goes to its end. -/
theorem words_snoc : ∀ (s : Str), s ≠ [] → (∀ c, s.getLast? = some c → isSpace c = false) → ∀ t : Str,
    (∀ c ∈ t, isSpace c = false) → ∃ ws w, words s = ws ++ [w] ∧ words (s ++ t) = ws ++ [w ++ t] ∧ w.getLast? = s.getLast? := by
  intro s hne hl t ht
  have key : ∀ (s cur : Str), cur.reverse ++ s ≠ [] → (∀ c, (cur.reverse ++ s).getLast? = some c → isSpace c = false) →
      ∃ ws w, wordsAux cur s = ws ++ [w] ∧ wordsAux cur (s ++ t) = ws ++ [w ++ t] ∧ w.getLast? = (cur.reverse ++ s).getLast? := by
    intro s
    induction s with
    | nil =>
      intro cur hne hl
      have hc : cur ≠ [] := by simpa using hne
      refine ⟨[], cur.reverse, ?_, ?_, by simp⟩
      · simp [wordsAux, hc]
      · have : ∀ (t cur : Str), cur ≠ [] → (∀ c ∈ t, isSpace c = false) → wordsAux cur t = [cur.reverse ++ t] := by
          intro t
          induction t with
          | nil => intro cur h _; simp [wordsAux, h]
          | cons c r ih =>
            intro cur h h'
            rw [wordsAux, if_neg (by simp [h' c]), ih (c :: cur) (by simp) (fun d hd => h' d (by simp [hd]))]
            simp
        simpa using this t cur hc ht
    | cons c r ih =>
      intro cur hne hl
      by_cases hcs : isSpace c = true
      · have hr : r ≠ [] := by
          rintro rfl
          have := hl c (by simp)
          rw [hcs] at this; cases this
        obtain ⟨ws, w, h1, h2, h3⟩ := ih [] (by simpa using hr) (fun d hd => hl d (by
          simp only [List.reverse_nil, List.nil_append] at hd
          rw [List.getLast?_append, List.getLast?_cons, hd]; simp))
        have h3' : w.getLast? = (cur.reverse ++ c :: r).getLast? := by
          rw [h3]
          simp only [List.reverse_nil, List.nil_append]
          rw [List.getLast?_append, List.getLast?_cons]
          cases hrl : r.getLast? with
          | none => simp at hrl; exact absurd hrl hr
          | some d => simp
        by_cases hcur : cur.isEmpty = true
        · refine ⟨ws, w, ?_, ?_, h3'⟩
          · rw [wordsAux, if_pos hcs, if_pos hcur, h1]
          · rw [List.cons_append, wordsAux, if_pos hcs, if_pos hcur, h2]
        · refine ⟨cur.reverse :: ws, w, ?_, ?_, h3'⟩
          · rw [wordsAux, if_pos hcs, if_neg hcur, h1]; rfl
          · rw [List.cons_append, wordsAux, if_pos hcs, if_neg hcur, h2]; rfl
      · obtain ⟨ws, w, h1, h2, h3⟩ := ih (c :: cur) (by simp) (fun d hd => hl d (by simpa using hd))
        refine ⟨ws, w, ?_, ?_, by simpa using h3⟩
        · rw [wordsAux, if_neg hcs, h1]
        · rw [List.cons_append, wordsAux, if_neg hcs, h2]
  obtain ⟨ws, w, h1, h2, h3⟩ := key s [] (by simpa using hne) (by simpa using hl)
  exact ⟨ws, w, h1, h2, by simpa using h3⟩

/-- A text with neither leading nor trailing whitespace. -/
def Stripped (s : Str) : Prop := strip s = s

theorem head_lstrip {s : Str} {c : Char} (h : (lstrip s).head? = some c) : isSpace c = false := by
  unfold lstrip at h
  have := List.head?_dropWhile_not isSpace s
  rw [h] at this
  simpa using this

theorem last_rstrip {s : Str} {c : Char} (h : (rstrip s).getLast? = some c) : isSpace c = false := by
  unfold rstrip at h
  rw [List.getLast?_reverse] at h
  have := List.head?_dropWhile_not isSpace s.reverse
  rw [h] at this
  simpa using this

theorem mem_takeWhile_imp' {p : Char → Bool} {c : Char} : ∀ {s : Str}, c ∈ s.takeWhile p → p c = true
  | d :: r, h => by
    rw [List.takeWhile_cons] at h
    split at h
    · rename_i hd
      rcases List.mem_cons.mp h with h | h
      · rw [h]; exact hd
      · exact mem_takeWhile_imp' h
    · cases h

theorem rstrip_append {s : Str} : ∃ t, s = rstrip s ++ t ∧ ∀ c ∈ t, isSpace c = true := by
  refine ⟨(s.reverse.takeWhile isSpace).reverse, ?_, ?_⟩
  · unfold rstrip
    rw [← List.reverse_append, List.takeWhile_append_dropWhile, List.reverse_reverse]
  · intro c hc
    rw [List.mem_reverse] at hc
    exact mem_takeWhile_imp' hc

theorem lstrip_append {s : Str} : ∃ t, s = t ++ lstrip s ∧ ∀ c ∈ t, isSpace c = true :=
  ⟨s.takeWhile isSpace, by unfold lstrip; rw [List.takeWhile_append_dropWhile], fun c hc => mem_takeWhile_imp' hc⟩

theorem head_strip {s : Str} {c : Char} (h : (strip s).head? = some c) : isSpace c = false := by
  unfold strip at h
  obtain ⟨t, ht, _⟩ := rstrip_append (s := lstrip s)
  apply head_lstrip (s := s)
  rw [ht]
  cases hr : rstrip (lstrip s) with
  | nil => rw [hr] at h; simp at h
  | cons d r => rw [hr] at h; simpa using h

theorem last_strip {s : Str} {c : Char} (h : (strip s).getLast? = some c) : isSpace c = false := last_rstrip h

theorem stripped_strip (s : Str) : Stripped (strip s) := strip_eq_self (fun _ h => head_strip h) (fun _ h => last_strip h)

theorem stripped_head {s : Str} (h : Stripped s) {c : Char} (hc : s.head? = some c) : isSpace c = false := by
  rw [← h] at hc; exact head_strip hc

theorem stripped_last {s : Str} (h : Stripped s) {c : Char} (hc : s.getLast? = some c) : isSpace c = false := by
  rw [← h] at hc; exact last_strip hc

/-- A capital first letter only changes the first word. -/
theorem words_capital {U : Uni} {c : Char} {r : Str} (hc : isSpace c = false) : Sentence U (words (c :: r)) (words (capital U (c :: r))) := by
  obtain ⟨hne, hsp⟩ := U.upper_word c hc
  have run : ∀ (t cur r : Str), (∀ d ∈ t, isSpace d = false) → wordsAux cur (t ++ r) = wordsAux (t.reverse ++ cur) r := by
    intro t
    induction t with
    | nil => intros; rfl
    | cons d t ih =>
      intro cur r h
      rw [List.cons_append, wordsAux, if_neg (by simp [h d]), ih (d :: cur) r (fun e he => h e (by simp [he]))]
      simp
  have key : ∀ (r : Str) (a b : Str), a ≠ [] → b ≠ [] → (∀ s, InSentence U (a.reverse ++ s) (b.reverse ++ s)) →
      Sentence U (wordsAux a r) (wordsAux b r) := by
    intro r
    induction r with
    | nil =>
      intro a b ha hb h
      simp only [wordsAux, List.isEmpty_iff, ha, hb, if_false]
      exact .cons (by simpa using h []) .nil
    | cons d r ih =>
      intro a b ha hb h
      rw [wordsAux, wordsAux]
      split
      · rw [if_neg (by simp [ha]), if_neg (by simp [hb])]
        exact .cons (by simpa using h []) (sentence_refl _ _)
      · apply ih (d :: a) (d :: b) (by simp) (by simp)
        intro s
        have := h (d :: s)
        simpa using this
  have h1 : words (c :: r) = wordsAux [c] r := by
    unfold words; rw [wordsAux, if_neg (by simp [hc])]
  have h2 : words (capital U (c :: r)) = wordsAux (U.upper c).reverse r := by
    unfold words capital; rw [run _ _ _ hsp]; simp
  rw [h1, h2]
  apply key _ _ _ (by simp) (by simpa using hne)
  intro s
  refine ⟨capital U (c :: s), ?_, .inl (by simp [capital])⟩
  exact .inr (by simp)

/-- A text that is empty, or ends in a visible character or in a line break. -/
structure Joined (U : Uni) (ws : List Str) (result : Str) : Prop where
  words : Sentence U ws (words result)
  last : ∀ c, result.getLast? = some c → isSpace c = false ∨ c = '\n'
  ne : result ≠ []

theorem sentence_stop {U : Uni} {ws a : List Str} {w : Str} (h : Sentence U ws (a ++ [w])) (hw : w.getLast? ≠ some '.') :
    Sentence U ws (a ++ [w ++ py!"."]) := by
  induction a generalizing ws with
  | nil =>
    cases h with
    | cons hw' h' =>
      cases h'
      obtain ⟨x, hx, hwx⟩ := hw'
      refine .cons ⟨x, hx, .inr ?_⟩ .nil
      rcases hwx with h | h
      · rw [h]
      · exact absurd (by rw [h]; simp) hw
  | cons b a ih =>
    cases h with
    | cons hw' h' => exact .cons hw' (ih h')

theorem last_capital {U : Uni} {s : Str} (h : Stripped s) {c : Char} (hc : (capital U s).getLast? = some c) : isSpace c = false := by
  cases s with
  | nil => simp [capital] at hc
  | cons d r =>
    rw [capital, List.getLast?_append] at hc
    cases hr : r.getLast? with
    | none =>
      rw [hr, Option.none_or] at hc
      exact (U.upper_word d (stripped_head h rfl)).2 c (List.mem_of_getLast? hc)
    | some e =>
      rw [hr, Option.some_or] at hc
      exact stripped_last h (by rw [List.getLast?_cons, hr]; simpa using hc)

theorem sentence_trans_words {U : Uni} {s : Str} (h : Stripped s) : Sentence U (words s) (words (capital U s)) := by
  cases s with
  | nil => exact .nil
  | cons c r => exact words_capital (stripped_head h rfl)

theorem capital_ne {U : Uni} {s : Str} (h : Stripped s) (hne : s ≠ []) : capital U s ≠ [] := by
  cases s with
  | nil => exact absurd rfl hne
  | cons c r =>
    intro he
    rw [capital, List.append_eq_nil_iff] at he
    exact (U.upper_word c (stripped_head h rfl)).1 he.1

/-- What one more line adds. -/
theorem joinStep_joined {U : Uni} {ws : List Str} {result line : Str} (h : Joined U ws result) (ht : Stripped line) :
    Joined U (ws ++ words line) (joinStep U false result line) := by
  have hlast2 : ∀ {a b : Str}, b ≠ [] → (∀ c, b.getLast? = some c → isSpace c = false) →
      ∀ c, (a ++ b).getLast? = some c → isSpace c = false ∨ c = '\n' := by
    intro a b hb h' c hc
    rw [List.getLast?_append] at hc
    cases hbl : b.getLast? with
    | none => simp at hbl; exact absurd hbl hb
    | some d => rw [hbl] at hc; simp at hc; subst hc; exact .inl (h' _ hbl)
  cases line with
  | nil =>
    unfold joinStep
    refine ⟨?_, ?_, by simp⟩
    · rw [words_append_allspace _ (by decide) (by decide)]
      simpa [words, wordsAux] using h.words
    · intro c hc; simp at hc; exact .inr hc.symm
  | cons d r =>
    have hs : strip (d :: r) = d :: r := ht
    have hlr : ∀ c, (d :: r).getLast? = some c → isSpace c = false := fun c hc => stripped_last ht hc
    have hcapw := sentence_trans_words (U := U) ht
    have hcapl : ∀ c, (capital U (d :: r)).getLast? = some c → isSpace c = false := fun c hc => last_capital ht hc
    have hcapn := capital_ne (U := U) ht (by simp)
    have hsp : ∀ (b : Str), words (result ++ py!" " ++ b) = words result ++ words b := by
      intro b
      rw [List.append_assoc]
      exact words_append_space (by decide) _ _
    have hnl : endsWith result py!"\n" = true → ∀ b, words (result ++ b) = words result ++ words b := by
      intro he b
      obtain ⟨a, ha⟩ := List.getLast?_eq_some_iff.mp (endsWith_char.mp he)
      have e1 : words result = words a := by
        rw [ha]; exact words_append_allspace a (by decide) (by decide)
      rw [e1, ha]
      rw [List.append_assoc]
      exact words_append_space (by decide) _ _
    have hcap : joinStep U false result (d :: r) =
        if U.isUpper d then
          if endsWith result py!"." then result ++ py!" " ++ (d :: r)
          else if endsWith result py!"\n" then result ++ capital U (d :: r)
          else result ++ py!". " ++ (d :: r)
        else
          if endsWith result py!"." then result ++ py!" " ++ capital U (d :: r)
          else if endsWith result py!"\n" then result ++ capital U (d :: r)
          else result ++ py!" " ++ (d :: r) := by
      unfold joinStep
      simp only [hs, capFirst_eq, Bool.false_eq_true, if_false]
    rw [hcap]
    have plain : Joined U (ws ++ words (d :: r)) (result ++ py!" " ++ (d :: r)) :=
      ⟨by rw [hsp]; exact sentence_append h.words (sentence_refl _ _), hlast2 (by simp) hlr, by simp⟩
    have capd : Joined U (ws ++ words (d :: r)) (result ++ py!" " ++ capital U (d :: r)) :=
      ⟨by rw [hsp]; exact sentence_append h.words hcapw, hlast2 hcapn hcapl, by simp⟩
    have capn : endsWith result py!"\n" = true → Joined U (ws ++ words (d :: r)) (result ++ capital U (d :: r)) := fun he =>
      ⟨by rw [hnl he]; exact sentence_append h.words hcapw, hlast2 hcapn hcapl, by simp [h.ne]⟩
    split
    · split
      · exact plain
      · rename_i hdot
        split
        · rename_i he; exact capn he
        · rename_i hn
          refine ⟨?_, hlast2 (by simp) hlr, by simp⟩
          have hl : ∀ c, result.getLast? = some c → isSpace c = false := by
            intro c hc
            rcases h.last c hc with h' | h'
            · exact h'
            · subst h'; exact absurd (endsWith_char.mpr hc) hn
          obtain ⟨a, w, e1, e2, e3⟩ := words_snoc result h.ne hl py!"." (by decide)
          rw [show result ++ py!". " ++ (d :: r) = (result ++ py!".") ++ ' ' :: (d :: r) by simp,
            words_append_space (by decide), e2]
          refine sentence_append ?_ (sentence_refl _ _)
          have := h.words
          rw [e1] at this
          refine sentence_stop this ?_
          rw [e3]
          intro hd
          exact hdot (endsWith_char.mpr hd)
    · split
      · exact capd
      · split
        · rename_i he; exact capn he
        · exact plain

theorem joinLoop_joined {U : Uni} : ∀ (lines : List Str) {ws : List Str} {result : Str}, Joined U ws result → (∀ l ∈ lines, Stripped l) →
    Joined U (ws ++ lines.flatMap words) (joinLoop U false result lines)
  | [], _, _, h, _ => by simpa [joinLoop] using h
  | l :: r, ws, result, h, ht => by
    rw [joinLoop]
    have := joinLoop_joined r (joinStep_joined h (ht l (by simp))) (fun x hx => ht x (by simp [hx]))
    simpa using this

theorem dropWhile_empty_words : ∀ l : List Str, (l.dropWhile (·.isEmpty)).flatMap words = l.flatMap words
  | [] => rfl
  | x :: r => by
    rw [List.dropWhile_cons]
    split
    · rename_i h
      have : x = [] := by simpa using h
      subst this
      rw [dropWhile_empty_words r]; simp [words, wordsAux]
    · rfl

theorem dropWhile_end_words : ∀ l : List Str, ((l.reverse.dropWhile (·.isEmpty)).reverse).flatMap words = l.flatMap words := by
  intro l
  have h : ∀ m : List Str, (m.dropWhile (·.isEmpty)).reverse.flatMap words = m.reverse.flatMap words := by
    intro m
    induction m with
    | nil => rfl
    | cons x r ih =>
      rw [List.dropWhile_cons]
      split
      · rename_i hx
        have : x = [] := by simpa using hx
        subst this
        rw [ih]; simp [words, wordsAux]
      · rfl
  rw [h, List.reverse_reverse]

theorem trimEmpty_words (l : List Str) : (trimEmpty l).flatMap words = l.flatMap words := by
  unfold trimEmpty
  rw [dropWhile_end_words, dropWhile_empty_words]

theorem trimEmpty_mem {l : List Str} {x : Str} (h : x ∈ trimEmpty l) : x ∈ l := by
  unfold trimEmpty at h
  rw [List.mem_reverse] at h
  have := (List.dropWhile_sublist _).mem h
  rw [List.mem_reverse] at this
  exact (List.dropWhile_sublist _).mem this

theorem trimEmpty_ends {l : List Str} : (∀ x, (trimEmpty l).getLast? = some x → x ≠ []) ∧ (∀ x, (trimEmpty l).head? = some x → x ≠ []) := by
  constructor
  · intro x hx
    unfold trimEmpty at hx
    rw [List.getLast?_reverse] at hx
    have := List.head?_dropWhile_not (fun s : Str => s.isEmpty) (l.dropWhile (·.isEmpty)).reverse
    rw [hx] at this
    simpa using this
  · intro x hx
    unfold trimEmpty at hx
    have h1 := List.head?_dropWhile_not (fun s : Str => s.isEmpty) l
    have h2 : ((l.dropWhile (·.isEmpty)).reverse.dropWhile (·.isEmpty)).reverse <+: l.dropWhile (·.isEmpty) := by
      have := List.dropWhile_suffix (fun s : Str => s.isEmpty) (l := (l.dropWhile (·.isEmpty)).reverse)
      have := List.reverse_prefix.mpr this
      simpa using this
    obtain ⟨t, ht⟩ := h2
    cases hm : ((l.dropWhile (·.isEmpty)).reverse.dropWhile (·.isEmpty)).reverse with
    | nil => rw [hm] at hx; simp at hx
    | cons a b =>
      rw [hm] at hx ht
      rw [← ht] at h1
      simp at hx h1
      subst hx; simpa using h1

/-- After the loop, the text ends in a visible character if the last line is not empty. -/
theorem joinStep_last {U : Uni} {first : Bool} {result line : Str} (ht : Stripped line) (hne : line ≠ []) :
    ∀ c, (joinStep U first result line).getLast? = some c → isSpace c = false := by
  intro c hc
  cases line with
  | nil => exact absurd rfl hne
  | cons d r =>
    have hs : strip (d :: r) = d :: r := ht
    have hlast2 : ∀ {a b : Str}, b ≠ [] → (∀ c, b.getLast? = some c → isSpace c = false) →
        (a ++ b).getLast? = some c → isSpace c = false := by
      intro a b hb h' hc
      rw [List.getLast?_append] at hc
      cases hbl : b.getLast? with
      | none => simp at hbl; exact absurd hbl hb
      | some d => rw [hbl] at hc; simp at hc; subst hc; exact h' _ hbl
    have hlr : ∀ c, (d :: r).getLast? = some c → isSpace c = false := fun c hc => stripped_last ht hc
    have hcapl : ∀ c, (capital U (d :: r)).getLast? = some c → isSpace c = false := fun c hc => last_capital ht hc
    have hcapn := capital_ne (U := U) ht (by simp)
    unfold joinStep at hc
    simp only [hs, capFirst_eq] at hc
    repeat' split at hc
    all_goals first
      | exact hlast2 (by simp) hlr hc
      | exact hlast2 hcapn hcapl hc

theorem joinLoop_last {U : Uni} : ∀ (lines : List Str) (first : Bool) (result : Str), (∀ l ∈ lines, Stripped l) → lines ≠ [] →
    (∀ x, lines.getLast? = some x → x ≠ []) → ∀ c, (joinLoop U first result lines).getLast? = some c → isSpace c = false
  | [], _, _, _, hne, _ => absurd rfl hne
  | [l], first, result, ht, _, hl => by
    rw [joinLoop, joinLoop]
    exact joinStep_last (ht l (by simp)) (hl l rfl)
  | l :: m :: r, first, result, ht, _, hl => by
    rw [joinLoop]
    exact joinLoop_last (m :: r) false _ (fun x hx => ht x (by simp [hx])) (by simp) (fun x hx => hl x (by simpa using hx))

theorem joinComments_spec {U : Uni} {lines : List Str} (ht : ∀ l ∈ lines, Stripped l) :
    Sentence U (lines.flatMap words) (words (joinComments U lines)) ∧
      (joinComments U lines = [] ∨ endsWith (joinComments U lines) py!"." = true) := by
  have htt : ∀ l ∈ trimEmpty lines, Stripped l := fun l hl => ht l (trimEmpty_mem hl)
  rw [← trimEmpty_words lines]
  obtain ⟨hend, hhead⟩ := trimEmpty_ends (l := lines)
  unfold joinComments
  generalize hL : trimEmpty lines = L at *
  dsimp only
  cases L with
  | nil => simp only [joinLoop, List.isEmpty_nil, if_true, List.flatMap_nil]; exact ⟨.nil, .inl trivial⟩
  | cons l r =>
    have hl : l ≠ [] := hhead l rfl
    have htl := htt l (by simp)
    have h0 : Joined U (words l) (joinStep U true [] l) := by
      cases l with
      | nil => exact absurd rfl hl
      | cons c t =>
        have hs : strip (c :: t) = c :: t := htl
        unfold joinStep
        simp only [hs, if_true, List.nil_append]
        exact ⟨sentence_refl _ _, fun d hd => .inl (stripped_last htl hd), by simp⟩
    have hJ := joinLoop_joined r h0 (fun x hx => htt x (by simp [hx]))
    have hlast := joinLoop_last (U := U) (l :: r) true [] htt (by simp) hend
    rw [joinLoop] at hlast ⊢
    have hJ' : Sentence U (List.flatMap words (l :: r)) (words (joinLoop U false (joinStep U true [] l) r)) := by
      simpa using hJ.words
    generalize hR : joinLoop U false (joinStep U true [] l) r = R at hJ hlast hJ' ⊢
    have hne : R.isEmpty = false := by
      have := hJ.ne; simpa using this
    rw [if_neg (by simp [hne])]
    split
    · rename_i hd
      exact ⟨hJ', .inr hd⟩
    · rename_i hd
      refine ⟨?_, .inr (endsWith_char.mpr (by simp))⟩
      obtain ⟨a, w, e1, e2, e3⟩ := words_snoc R hJ.ne hlast py!"." (by decide)
      rw [e2]
      rw [e1] at hJ'
      refine sentence_stop hJ' ?_
      rw [e3]
      intro h
      exact hd (endsWith_char.mpr h)

/-! ### Keys -/

theorem replace_dash_nil : ∀ s : Str, replace py!"-" [] s = s.filter (· != '-')
  | [] => rfl
  | c :: r => by
    unfold replace
    have ih := replace_dash_nil r
    unfold replace at ih
    rw [replaceAux]
    by_cases h : c = '-'
    · subst h; simpa using ih
    · rw [if_neg (by simp [List.isPrefixOf, Ne.symm h]), ih]; simp [h]

theorem replace_dash_space : ∀ s : Str, replace py!"-" py!" " s = s.map (fun c => if c = '-' then ' ' else c)
  | [] => rfl
  | c :: r => by
    unfold replace
    have ih := replace_dash_space r
    unfold replace at ih
    rw [replaceAux]
    by_cases h : c = '-'
    · subst h; simpa using ih
    · rw [if_neg (by simp [List.isPrefixOf, Ne.symm h]), ih]; simp [h]

theorem rstrip_visible {x b : Str} {c : Char} (hc : isSpace c = false) : rstrip (x ++ c :: b) = x ++ c :: rstrip b := by
  unfold rstrip
  rw [List.reverse_append, List.reverse_cons, List.append_assoc, List.dropWhile_append]
  split
  · rename_i h
    have h' : List.dropWhile isSpace b.reverse = [] := by simpa using h
    rw [h']
    simp [hc]
  · simp

theorem lstrip_visible {a b : Str} {c : Char} (hc : isSpace c = false) : ∃ a', lstrip (a ++ c :: b) = a' ++ c :: b ∧ ∀ d ∈ a', d ∈ a := by
  unfold lstrip
  rw [List.dropWhile_append]
  split
  · exact ⟨[], by simp [hc], by simp⟩
  · exact ⟨a.dropWhile isSpace, rfl, fun d hd => (List.dropWhile_sublist _).mem hd⟩

theorem lstrip_allspace {a b : Str} (h : ∀ c ∈ a, isSpace c = true) : lstrip (a ++ b) = lstrip b := by
  unfold lstrip
  have : a.dropWhile isSpace = [] := by
    induction a with
    | nil => rfl
    | cons c r ih => rw [List.dropWhile_cons, if_pos (h c (by simp))]; exact ih (fun d hd => h d (by simp [hd]))
  rw [List.dropWhile_append, if_pos (by simp [this])]

theorem find_char {c : Char} : ∀ {a b : Str}, c ∉ a → find [c] (a ++ c :: b) = some a.length
  | [], b, _ => by simp [find]
  | d :: a, b, h => by
    rw [List.cons_append, find, if_neg, find_char (fun h' => h (by simp [h']))]
    · rfl
    · simp [List.isPrefixOf]
      intro e; exact h (by simp [e])

/-- Blanks and dashes. -/
def lead (c : Char) : Bool := isSpace c || c == '-'

theorem keyColumn_eq {a b : Str} {c : Char} (ha : ∀ d ∈ a, lead d = true) (hc : lead c = false) :
    keyColumn (a ++ c :: b) = .ok a.length := by
  have hcs : isSpace c = false := by unfold lead at hc; simp at hc; exact hc.1
  have hcd : c ≠ '-' := by unfold lead at hc; simp at hc; exact hc.2
  have hca : c ∉ a := fun h => by rw [ha c h] at hc; cases hc
  obtain ⟨a', e, ha'⟩ := lstrip_visible (a := a) (b := b) hcs
  unfold keyColumn
  rw [replace_dash_nil]
  have e1 : strip (a ++ c :: b) = a' ++ c :: rstrip b := by
    unfold strip; rw [e, rstrip_visible hcs]
  have e2 : (strip (a ++ c :: b)).filter (· != '-') = a'.filter (· != '-') ++ c :: (rstrip b).filter (· != '-') := by
    rw [e1, List.filter_append, List.filter_cons, if_pos (by simp [hcd])]
  have e3 : strip ((strip (a ++ c :: b)).filter (· != '-')) = c :: rstrip ((rstrip b).filter (· != '-')) := by
    rw [e2]
    unfold strip
    rw [lstrip_allspace]
    · have : lstrip (c :: List.filter (· != '-') (rstrip b)) = c :: List.filter (· != '-') (rstrip b) := by
        unfold lstrip; simp [hcs]
      rw [this]
      exact rstrip_visible (x := []) hcs
    · intro d hd
      rw [List.mem_filter] at hd
      have := ha d (ha' d hd.1)
      unfold lead at this
      simp at this hd
      rcases this with h | h
      · exact h
      · exact absurd h hd.2
  rw [e3]
  simp only [find_char hca, Option.getD_some]

theorem lead_split {line : Str} {x : Char} (hx : x ∈ line) (h : lead x = false) :
    ∃ a c b, line = a ++ c :: b ∧ (∀ d ∈ a, lead d = true) ∧ lead c = false := by
  induction line with
  | nil => cases hx
  | cons d r ih =>
    by_cases hd : lead d = true
    · have hxr : x ∈ r := by
        rcases List.mem_cons.mp hx with h' | h'
        · rw [h', hd] at h; cases h
        · exact h'
      obtain ⟨a, c, b, e, h1, h2⟩ := ih hxr
      exact ⟨d :: a, c, b, by simp [e], by simpa [hd] using h1, h2⟩
    · exact ⟨[], d, r, rfl, by simp, by simpa using hd⟩

theorem findOutside_mem {line : Str} {x : Char} (hx : isQuote x = false) {i : Nat} (h : findOutside line x = some i) : x ∈ line :=
  List.mem_of_getElem? ((findOutside_some hx line i).mp h).1

theorem blockComment_ok (U : Uni) (lines : List Str) (i : Nat) (up : Bool) : ∃ t, blockComment U lines i up = .ok t := by
  unfold blockComment
  split
  · exact ⟨_, rfl⟩
  · rename_i line hl
    split
    · exact ⟨_, rfl⟩
    · exact ⟨_, rfl⟩
    · rename_i k hk
      obtain ⟨a, c, b, e, h1, h2⟩ := lead_split (findOutside_mem (by decide) hk) (by decide)
      rw [e, keyColumn_eq h1 h2]
      dsimp only
      generalize (if up = true then _ else _ : List Str) = found
      split <;> exact ⟨_, rfl⟩

theorem commentFor_ok (U : Uni) (lines : List Str) (i : Nat) (line : Str) (p : CommentsAre) : ∃ t, commentFor U lines i line p = .ok t := by
  cases p with
  | above => obtain ⟨t, h⟩ := blockComment_ok U lines i true; exact ⟨_, by unfold commentFor; rw [h]; rfl⟩
  | below => obtain ⟨t, h⟩ := blockComment_ok U lines i false; exact ⟨_, by unfold commentFor; rw [h]; rfl⟩
  | side => exact ⟨_, rfl⟩

/-- The comment texts found for a line, in the order asked for. -/
def textsFor (U : Uni) (lines : List Str) (i : Nat) (line : Str) (cs : List CommentsAre) : List Str :=
  cs.filterMap (fun p => match commentFor U lines i line p with
    | .ok t => if t.isEmpty then none else some t
    | .error _ => none)

theorem commentsForLine_eq (U : Uni) (lines : List Str) (mk : Str → Comment) (i : Nat) (line : Str) : ∀ cs : List CommentsAre,
    commentsForLine U lines mk i line cs = .ok ((textsFor U lines i line cs).map mk)
  | [] => rfl
  | p :: ps => by
    obtain ⟨t, h⟩ := commentFor_ok U lines i line p
    have ih := commentsForLine_eq U lines mk i line ps
    rw [commentsForLine, h]
    dsimp only
    rw [ih]
    dsimp only
    unfold textsFor
    rw [List.filterMap_cons, h]
    dsimp only
    split <;> simp_all

/-! ### The lines of the new document -/

/-- What becomes of a line with a comment. -/
def entryText (c : Comment) (sp : Str) : Str := sp ++ yamlPrefix ++ c.key ++ py!": |" ++ commentBlock c
def keptLine (c : Comment) (line : Str) : Str := if c.dash then replaceFirstChar '-' ' ' line else line

/-- The new lines for one line. -/
def outLine (U : Uni) (cs : List CommentsAre) (all : List Str) (tabs : Bool) (i : Nat) (line : Str) : Except PyErr (List Str) :=
  match extractLine U cs all tabs i line with
  | .error e => .error e
  | .ok l => match mergeGroup l with
    | none => .ok [line]
    | some c => match c.spacing with
      | .error e => .error e
      | .ok sp => .ok [entryText c sp, keptLine c line]

def outFrom (U : Uni) (cs : List CommentsAre) (all : List Str) (tabs : Bool) : Nat → List Str → Except PyErr (List Str)
  | _, [] => .ok []
  | i, line :: r => match outLine U cs all tabs i line with
    | .error e => .error e
    | .ok a => match outFrom U cs all tabs (i + 1) r with
      | .error e => .error e
      | .ok b => .ok (a ++ b)

/-- The comments of each line. -/
inductive Found (U : Uni) (cs : List CommentsAre) (all : List Str) (tabs : Bool) : Nat → List Str → List (List Comment) → Prop
  | nil (i : Nat) : Found U cs all tabs i [] []
  | cons {i : Nat} {line : Str} {r : List Str} {l : List Comment} {ls : List (List Comment)} :
      extractLine U cs all tabs i line = .ok l → Found U cs all tabs (i + 1) r ls → Found U cs all tabs i (line :: r) (l :: ls)

theorem extractFrom_found {U : Uni} {cs : List CommentsAre} {all : List Str} {tabs : Bool} : ∀ {i : Nat} {r : List Str} {out : List Comment},
    extractFrom U cs all tabs i r = .ok out → ∃ ls, Found U cs all tabs i r ls ∧ out = ls.flatten
  | i, [], out, h => by
    simp [extractFrom] at h
    exact ⟨[], .nil i, by simp [h]⟩
  | i, line :: r, out, h => by
    rw [extractFrom] at h
    split at h
    · cases h
    · rename_i l hl
      cases hr : extractFrom U cs all tabs (i + 1) r with
      | error e => rw [hr] at h; cases h
      | ok b =>
        rw [hr] at h
        obtain ⟨ls, h1, h2⟩ := extractFrom_found hr
        refine ⟨l :: ls, .cons hl h1, ?_⟩
        injection h with h
        rw [← h, h2]; rfl

theorem extractFrom_error {U : Uni} {cs : List CommentsAre} {all : List Str} {tabs : Bool} : ∀ {i : Nat} {r : List Str} {e : PyErr},
    extractFrom U cs all tabs i r = .error e → ∃ e', outFrom U cs all tabs i r = .error e'
  | i, [], e, h => by cases h
  | i, line :: r, e, h => by
    rw [extractFrom] at h
    rw [outFrom]
    split at h
    · rename_i e' he
      exact ⟨e', by unfold outLine; rw [he]⟩
    · cases hr : extractFrom U cs all tabs (i + 1) r with
      | ok b => rw [hr] at h; cases h
      | error e' =>
        obtain ⟨e'', h2⟩ := extractFrom_error hr
        split
        · exact ⟨_, rfl⟩
        · rw [h2]; exact ⟨_, rfl⟩

theorem extractLine_line {U : Uni} {cs : List CommentsAre} {all : List Str} {tabs : Bool} {i : Nat} {line : Str} {l : List Comment}
    (h : extractLine U cs all tabs i line = .ok l) : ∀ c ∈ l, c.line = i := by
  unfold extractLine at h
  repeat' split at h
  all_goals try (injection h with h; subst h; intro c hc; cases hc)
  · cases h
  · rw [commentsForLine_eq] at h
    injection h with h
    subst h
    intro c hc
    obtain ⟨t, _, rfl⟩ := List.mem_map.mp hc
    rfl

theorem found_line {U : Uni} {cs : List CommentsAre} {all : List Str} {tabs : Bool} {i : Nat} {r : List Str} {ls : List (List Comment)}
    (h : Found U cs all tabs i r ls) : ∀ c ∈ ls.flatten, i ≤ c.line := by
  induction h with
  | nil => simp
  | cons hl _ ih =>
    intro c hc
    rw [List.flatten_cons, List.mem_append] at hc
    rcases hc with hc | hc
    · rw [extractLine_line hl c hc]; exact Nat.le_refl _
    · have := ih c hc; omega

theorem dedup_same {i : Nat} : ∀ {l m : List Nat}, (∀ x ∈ l, x = i) → i ∉ m → dedup (l ++ m) = (if l.isEmpty then [] else [i]) ++ dedup m
  | [], m, _, _ => by simp
  | x :: l, m, h, hm => by
    have hx := h x (by simp)
    subst hx
    rw [List.cons_append, dedup, dedup_same (fun y hy => h y (by simp [hy])) hm, List.filter_append]
    have e1 : (dedup m).filter (· ≠ x) = dedup m := by
      rw [List.filter_eq_self]
      intro y hy
      rw [mem_dedup] at hy
      simp only [ne_eq, decide_not, Bool.not_eq_true', decide_eq_false_iff_not]
      intro he; exact hm (he ▸ hy)
    rw [e1]
    split <;> simp

theorem filterMap_congr' {α β} {f g : α → Option β} : ∀ {l : List α}, (∀ x ∈ l, f x = g x) → l.filterMap f = l.filterMap g
  | [], _ => rfl
  | x :: r, h => by
    rw [List.filterMap_cons, List.filterMap_cons, h x (by simp), filterMap_congr' (fun y hy => h y (by simp [hy]))]

theorem merge_found {U : Uni} {cs : List CommentsAre} {all : List Str} {tabs : Bool} {i : Nat} {r : List Str} {ls : List (List Comment)}
    (h : Found U cs all tabs i r ls) : mergeComments ls.flatten = ls.filterMap mergeGroup := by
  induction h with
  | nil => rfl
  | @cons i line r l ls hl hf ih =>
    have hline := extractLine_line hl
    have hrest := found_line hf
    have hl' : l.filter (fun c => decide (c.line = i)) = l := by
      rw [List.filter_eq_self]; intro c hc; simp [hline c hc]
    have hr' : ls.flatten.filter (fun c => decide (c.line = i)) = [] := by
      rw [List.filter_eq_nil_iff]; intro c hc
      have := hrest c hc
      simp; omega
    rw [List.flatten_cons]
    unfold mergeComments
    rw [List.map_append, dedup_same (i := i) (by simpa using hline) (by
      simp only [List.mem_map, not_exists, not_and]
      intro c hc he
      have := hrest c hc
      omega), List.filterMap_append, List.filterMap_cons]
    unfold mergeComments at ih
    have e2 : (dedup (ls.flatten.map (·.line))).filterMap (fun x => mergeGroup ((l ++ ls.flatten).filter (fun c => decide (c.line = x)))) =
        (dedup (ls.flatten.map (·.line))).filterMap (fun x => mergeGroup (ls.flatten.filter (fun c => decide (c.line = x)))) := by
      apply filterMap_congr'
      intro x hx
      rw [mem_dedup] at hx
      obtain ⟨c, hc, rfl⟩ := List.mem_map.mp hx
      have hge := hrest c hc
      have : l.filter (fun d => decide (d.line = c.line)) = [] := by
        rw [List.filter_eq_nil_iff]; intro d hd
        have := hline d hd
        simp; omega
      rw [List.filter_append, this, List.nil_append]
    rw [e2, ih]
    cases l with
    | nil => simp [mergeGroup]
    | cons c l =>
      simp only [List.map_cons, List.isEmpty_cons, Bool.false_eq_true, if_false, List.filterMap_cons, List.filterMap_nil]
      rw [List.filter_append, hl', hr', List.append_nil]
      simp [mergeGroup]

theorem mergeGroup_line {l : List Comment} {c : Comment} (h : mergeGroup l = some c) {i : Nat} (hl : ∀ d ∈ l, d.line = i) : c.line = i := by
  cases l with
  | nil => cases h
  | cons d r => simp only [mergeGroup, Option.some.injEq] at h; rw [← h]; exact hl d (by simp)

theorem groups_sorted {U : Uni} {cs : List CommentsAre} {all : List Str} {tabs : Bool} {i : Nat} {r : List Str} {ls : List (List Comment)}
    (h : Found U cs all tabs i r ls) :
    (ls.filterMap mergeGroup).Pairwise (fun a b => a.line < b.line) ∧ ∀ c ∈ ls.filterMap mergeGroup, i ≤ c.line := by
  induction h with
  | nil => simp
  | @cons i line r l ls hl hf ih =>
    rw [List.filterMap_cons]
    cases hm : mergeGroup l with
    | none => exact ⟨ih.1, fun c hc => by have := ih.2 c hc; omega⟩
    | some c =>
      have hc := mergeGroup_line hm (extractLine_line hl)
      refine ⟨List.Pairwise.cons (fun d hd => by have := ih.2 d hd; omega) ih.1, ?_⟩
      intro d hd
      rcases List.mem_cons.mp hd with h' | h'
      · rw [h', hc]; exact Nat.le_refl _
      · have := ih.2 d h'; omega

theorem insertBy_last {α} {le : α → α → Bool} {x : α} : ∀ {l : List α}, (∀ y ∈ l, le x y = false) → insertBy le x l = l ++ [x]
  | [], _ => rfl
  | y :: r, h => by
    rw [insertBy, if_neg (by simp [h y]), insertBy_last (fun z hz => h z (by simp [hz]))]; rfl

theorem sort_desc : ∀ {l : List Comment}, l.Pairwise (fun a b => a.line < b.line) →
    sortBy (fun a b => decide (b.line ≤ a.line)) l = l.reverse
  | [], _ => rfl
  | c :: l, h => by
    rw [List.pairwise_cons] at h
    rw [sortBy, sort_desc h.2, insertBy_last, List.reverse_cons]
    intro d hd
    rw [List.mem_reverse] at hd
    have := h.1 d hd
    simp; omega

theorem injectAll_append : ∀ (a b : List Comment) (new : List Str), injectAll new (a ++ b) = match injectAll new a with
    | .error e => .error e
    | .ok new => injectAll new b
  | [], b, new => rfl
  | c :: a, b, new => by
    rw [List.cons_append, injectAll, injectAll]
    cases injectOne new c with
    | error e => rfl
    | ok n => exact injectAll_append a b n

theorem addLine_at {pre post : List Str} {x : Str} : addLine (pre ++ post) pre.length x = pre ++ x :: post := by
  unfold addLine; simp

theorem modify_at {pre post : List Str} {f : Str → Str} {x : Str} : (pre ++ x :: post).modify pre.length f = pre ++ f x :: post := by
  induction pre with
  | nil => simp
  | cons y pre ih => simpa using ih

theorem inject_found {U : Uni} {cs : List CommentsAre} {all : List Str} {tabs : Bool} {i : Nat} {r : List Str} {ls : List (List Comment)}
    (h : Found U cs all tabs i r ls) : ∀ pre : List Str, pre.length = i →
      match outFrom U cs all tabs i r with
      | .ok o => injectAll (pre ++ r) (ls.filterMap mergeGroup).reverse = .ok (pre ++ o)
      | .error _ => ∃ e, injectAll (pre ++ r) (ls.filterMap mergeGroup).reverse = .error e := by
  induction h with
  | nil => intro pre _; simp [outFrom, injectAll]
  | @cons i line r l ls hl hf ih =>
    intro pre hpre
    have ih := ih (pre ++ [line]) (by simp [hpre])
    rw [List.append_assoc, List.singleton_append] at ih
    rw [outFrom]
    unfold outLine
    rw [hl, List.filterMap_cons]
    dsimp only
    cases hm : mergeGroup l with
    | none =>
      dsimp only
      cases ho : outFrom U cs all tabs (i + 1) r with
      | error e => rw [ho] at ih; exact ih
      | ok o => rw [ho] at ih; simpa using ih
    | some c =>
      dsimp only
      have hc := mergeGroup_line hm (extractLine_line hl)
      rw [List.reverse_cons, injectAll_append]
      cases hsp : c.spacing with
      | error e =>
        dsimp only
        cases hi : injectAll (pre ++ line :: r) (ls.filterMap mergeGroup).reverse with
        | error e => exact ⟨e, rfl⟩
        | ok n => exact ⟨e, by simp only [injectAll, injectOne, hsp]⟩
      | ok sp =>
        dsimp only
        cases ho : outFrom U cs all tabs (i + 1) r with
        | error e =>
          rw [ho] at ih
          obtain ⟨e', he⟩ := ih
          exact ⟨e', by rw [he]⟩
        | ok o =>
          rw [ho] at ih
          dsimp only at ih ⊢
          rw [ih]
          simp only [injectAll, injectOne, hsp]
          rw [hc, ← hpre]
          have hk : (if c.dash then (pre ++ [line] ++ o).modify pre.length (replaceFirstChar '-' ' ') else pre ++ [line] ++ o) =
              pre ++ keptLine c line :: o := by
            rw [List.append_assoc, List.singleton_append]
            unfold keptLine
            split
            · rw [modify_at]
            · rfl
          rw [hk, addLine_at]
          simp [entryText]

/-- The new document, line by line. -/
theorem withHiddenKeys_eq {U : Uni} {cs : List CommentsAre} {lines : List Str} {tabs : Bool} (hi : indentation lines = some tabs) :
    match outFrom U cs lines tabs 0 lines with
    | .ok o => withHiddenKeys U cs lines = .ok (join py!"\n" o)
    | .error _ => ∃ e, withHiddenKeys U cs lines = .error e := by
  unfold withHiddenKeys extractComments
  rw [hi]
  dsimp only
  cases he : extractFrom U cs lines tabs 0 lines with
  | error e =>
    obtain ⟨e', h⟩ := extractFrom_error he
    rw [h]
    exact ⟨e, rfl⟩
  | ok out =>
    obtain ⟨ls, hf, rfl⟩ := extractFrom_found he
    have hinj := inject_found hf [] rfl
    have hs := sort_desc (groups_sorted hf).1
    simp only [Except.map, merge_found hf]
    rw [hs]
    cases ho : outFrom U cs lines tabs 0 lines with
    | error e =>
      rw [ho] at hinj
      obtain ⟨e', h⟩ := hinj
      exact ⟨e', by simp only [List.nil_append] at h; rw [h]⟩
    | ok o =>
      rw [ho] at hinj
      simp only [List.nil_append] at hinj
      rw [hinj]

theorem withHiddenKeys_none {U : Uni} {cs : List CommentsAre} {lines : List Str} (hi : indentation lines = none) :
    withHiddenKeys U cs lines = .ok (join py!"\n" lines) := by
  unfold withHiddenKeys extractComments
  rw [hi]
  rfl

end Verif
