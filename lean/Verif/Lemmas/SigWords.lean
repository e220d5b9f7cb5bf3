import Verif.Lemmas.Lexemes
import Verif.Lemmas.Imports
import Verif.Spec.Signature
/-
The keywords requested for a signature are words of the signature.
-/
namespace Verif
open Verif.Spec

section
variable {U : Uni}

theorem symbolsAux_lexemes : ∀ (s cur : Str), (∀ c ∈ s, wordChar U c = ofWord c) → (∀ c ∈ cur, ofWord c = true) →
    symbolsAux U cur s = lexemes (cur.reverse ++ s)
  | [], cur, _, hc => by
    simp only [symbolsAux, List.append_nil]
    split
    · rename_i h
      have : cur = [] := by simpa using h
      subst this
      rfl
    · rename_i h
      exact (lexemes_word (by simpa using h) (fun c hcm => hc c (List.mem_reverse.mp hcm))).symm
  | c :: r, cur, h, hc => by
    simp only [symbolsAux]
    have h1 := h c (by simp)
    have h2 : ∀ c ∈ r, wordChar U c = ofWord c := fun c hm => h c (List.mem_cons_of_mem _ hm)
    split
    · rename_i hw
      rw [symbolsAux_lexemes r (c :: cur) h2 (by
        intro d hd
        rcases List.mem_cons.mp hd with rfl | hd
        · rw [← h1]; exact hw
        · exact hc d hd)]
      simp
    · rename_i hw
      have hw' : ofWord c = false := by rw [← h1]; simpa using hw
      rw [lexemes_sep hw', symbolsAux_lexemes r [] h2 (by simp)]
      split
      · rename_i he
        have : cur = [] := by simpa using he
        subst this
        rfl
      · rename_i he
        rw [lexemes_word (by simpa using he) (fun c hcm => hc c (List.mem_reverse.mp hcm))]
        rfl

theorem symbols_lexemes {s : Str} (h : ∀ c ∈ s, wordChar U c = ofWord c) : symbols U s = lexemes s := by
  simpa [symbols] using symbolsAux_lexemes s [] h (by simp)

/-- Where a hint stands. -/
def HintAt (h s : Str) : Prop :=
  ∃ l r, s = l ++ (h ++ r) ∧ l ≠ [] ∧ (∀ c, l.getLast? = some c → c = ':' ∨ c = '>' ∨ isSpace c = true) ∧ (∀ c, r.head? = some c → hintChar c = false) ∧
    (∀ c ∈ h, hintChar c = true)

theorem HintAt.cons {h s : Str} (c : Char) (hs : HintAt h s) : HintAt h (c :: s) := by
  obtain ⟨l, r, e, hl, h1, h2, h3⟩ := hs
  refine ⟨c :: l, r, by rw [e]; rfl, by simp, ?_, h2, h3⟩
  intro d hd
  rw [List.getLast?_cons_of_ne_nil hl] at hd
  exact h1 d hd

theorem stands_here {c : Char} (hc : c = ':' ∨ c = '>') (r : Str) : HintAt ((lstrip r).takeWhile hintChar) (c :: r) := by
  refine ⟨c :: r.takeWhile isSpace, (lstrip r).dropWhile hintChar, ?_, by simp, ?_, ?_, ?_⟩
  · rw [List.takeWhile_append_dropWhile]
    show c :: r = c :: (r.takeWhile isSpace ++ r.dropWhile isSpace)
    rw [List.takeWhile_append_dropWhile]
  · intro d hd
    cases hw : r.takeWhile isSpace with
    | nil =>
      rw [hw] at hd
      simp only [List.getLast?_singleton, Option.some.injEq] at hd
      subst hd
      exact hc.imp id .inl
    | cons a b =>
      rw [hw, List.getLast?_cons_cons] at hd
      have hm : d ∈ r.takeWhile isSpace := by rw [hw]; exact List.mem_of_getLast? hd
      exact .inr (.inr (by
        have := List.all_takeWhile (p := isSpace) (l := r)
        exact List.all_eq_true.mp this d hm))
  · intro d hd
    have := List.head?_dropWhile_not hintChar (lstrip r)
    rw [hd] at this
    simpa using this
  · intro d hd
    have := List.all_takeWhile (p := hintChar) (l := lstrip r)
    exact List.all_eq_true.mp this d hd

theorem colonHints_stands {h : Str} : ∀ (s : Str) (k : Nat), h ∈ colonHints k s → HintAt h s
  | [], k, hh => by cases k <;> simp [colonHints] at hh
  | c :: r, k + 1, hh => (colonHints_stands r k (by simpa [colonHints] using hh)).cons c
  | c :: r, 0, hh => by
    simp only [colonHints] at hh
    split at hh
    · rename_i hc
      split at hh
      · exact (colonHints_stands r 0 hh).cons c
      · rcases List.mem_cons.mp hh with rfl | hh
        · exact stands_here (.inl hc) r
        · exact (colonHints_stands r _ hh).cons c
    · exact (colonHints_stands r 0 hh).cons c

theorem arrowHint_stands {h : Str} : ∀ (s : Str), arrowHint s = some h → HintAt h s
  | [], hh => by simp [arrowHint] at hh
  | c :: r, hh => by
    simp only [arrowHint] at hh
    split at hh
    · rename_i hp
      obtain ⟨t, ht⟩ : ∃ t, r = '>' :: t := by
        cases r with
        | nil => simp [startsWith, List.isPrefixOf] at hp
        | cons d t =>
          simp [startsWith, List.isPrefixOf] at hp
          exact ⟨t, by rw [← hp.2]⟩
      subst ht
      split at hh
      · exact (arrowHint_stands _ hh).cons c
      · simp only [Option.some.injEq, List.drop_succ_cons, List.drop_zero] at hh
        subst hh
        exact (stands_here (.inr rfl) t).cons c
    · exact (arrowHint_stands r hh).cons c

theorem replace_end : ∀ {h : Str}, (∀ l r, h = l ++ (py!"):" ++ r) → r = []) →
    replace py!"):" [] h = h ∨ ∃ l, h = l ++ py!"):" ∧ replace py!"):" [] h = l
  | [], _ => .inl rfl
  | c :: s, hp => by
    unfold replace
    simp only [replaceAux]
    split
    · rename_i hpre
      rw [List.isPrefixOf_iff_prefix] at hpre
      obtain ⟨t, ht⟩ := hpre
      have := hp [] t ht.symm
      subst this
      injection ht with h1 h2
      subst h1 h2
      exact .inr ⟨[], rfl, rfl⟩
    · rcases replace_end (h := s) (fun l r e => hp (c :: l) r (by rw [e]; rfl)) with h | ⟨l, h1, h2⟩
      · exact .inl (by rw [show replaceAux py!"):" [] 0 s = s from h])
      · exact .inr ⟨c :: l, by rw [h1]; rfl, by rw [show replaceAux py!"):" [] 0 s = l from h2]⟩

theorem rstripChar_split (c : Char) (s : Str) : ∃ t, s = rstripChar c s ++ t ∧ ∀ d ∈ t, d = c := by
  refine ⟨(s.reverse.takeWhile (· == c)).reverse, ?_, ?_⟩
  · unfold rstripChar
    rw [← List.reverse_append, List.takeWhile_append_dropWhile, List.reverse_reverse]
  · intro d hd
    have hd := List.mem_reverse.mp hd
    have := List.all_eq_true.mp (List.all_takeWhile (p := (· == c)) (l := s.reverse)) d hd
    simpa using this

theorem castSymbol_cases (w : Str) : castSymbol w = w ∨ (bindingOf (castSymbol w)).2 = w := by
  unfold castSymbol
  split
  · rename_i h; subst h; exact .inr (by decide)
  · split
    · rename_i h; subst h; exact .inr (by decide)
    · split
      · rename_i h; subst h; exact .inr (by decide)
      · split
        · rename_i h; subst h; exact .inr (by decide)
        · exact .inl rfl

/-- The symbol imported for a keyword found in a text is a word of the text. -/
theorem importSymbols_words {h : Str} (hw : ∀ c ∈ h, wordChar U c = ofWord c) {kw : Str} (hk : kw ∈ importSymbols U h)
    (hbad : ∀ x ∈ namedOtherwise, x ∉ lexemes h) : (bindingOf kw).2 ∈ lexemes h := by
  unfold importSymbols at hk
  obtain ⟨hk, hp⟩ := List.mem_filter.mp hk
  obtain ⟨w, hw', rfl⟩ := List.mem_map.mp hk
  rw [symbols_lexemes hw] at hw'
  rcases castSymbol_cases w with h' | h'
  · rw [h'] at hp ⊢
    have hkn : Known w := (known_iff w).mpr hp
    obtain ⟨b, hb⟩ := hkn
    have all : ∀ e ∈ symbolTable, e.1 ∈ namedOtherwise ∨ e.1.contains '.' = true ∨ (bindingOf e.1).2 = e.1 := by decide +kernel
    rcases all _ hb with h | h | h
    · exact absurd hw' (hbad w h)
    · exfalso
      have hl := lexemes_ofWord hw'
      have : ofWord '.' = true := hl '.' (by simpa using h)
      revert this
      decide
    · rw [h]; exact hw'
  · rw [h']; exact hw'

theorem wordChar_ascii {c : Char} (h : isAscii c = true ∨ U.isAlnum c = true) : wordChar U c = ofWord c := by
  unfold wordChar ofWord
  cases ha : isAscii c with
  | true =>
    have hlt : c.toNat < 128 := by simpa [isAscii] using ha
    have : ¬ 128 ≤ c.val := by
      intro h
      have h : 128 ≤ c.toNat := h
      omega
    simp only [Uni.isAlnum, U.alpha_ascii c ha, U.numeric_ascii c ha, Char.isAlphanum, this, decide_false, Bool.or_false]
  | false =>
    have hge : 128 ≤ c.toNat := by simpa [isAscii] using ha
    have h128 : 128 ≤ c.val := hge
    have hal : U.isAlnum c = true := by
      rcases h with h | h
      · rw [ha] at h; cases h
      · exact h
    simp [hal, h128]

/-- The symbols imported for a signature are words of it. -/
theorem sigImports_words {args : Str} (h : QuietSig U args) {kw : Str} (hk : kw ∈ sigImports U args) : (bindingOf kw).2 ∈ lexemes args := by
  have sep : ∀ {c : Char}, c ∈ args → isSpace c = true → ofWord c = false := by
    intro c hc hs
    rw [← wordChar_ascii (h.chars c hc)]
    unfold wordChar Uni.isAlnum
    rw [(U.space_alnum c hs).1, (U.space_alnum c hs).2]
    simp only [Bool.or_self, Bool.false_or, beq_eq_false_iff_ne]
    rintro rfl
    revert hs
    decide
  have inside : ∀ {hint g post : Str}, HintAt hint args → hint = g ++ post → (∀ c, post.head? = some c → ofWord c = false) →
      kw ∈ importSymbols U g → (bindingOf kw).2 ∈ lexemes args := by
    intro hint g post hs e hpost hk
    obtain ⟨l, r, ea, hl, h1, h2, h3⟩ := hs
    have hsub : ∀ x, x ∈ lexemes g → x ∈ lexemes args := by
      intro x hx
      rw [ea, e, List.append_assoc]
      refine mem_lexemes_mid ?_ ?_ hx
      · intro c hc
        rcases h1 c hc with rfl | rfl | hsp
        · decide
        · decide
        · exact sep (by rw [ea]; exact List.mem_append_left _ (List.mem_of_getLast? hc)) hsp
      · intro c hc
        cases post with
        | cons d t => exact hpost c (by simpa using hc)
        | nil =>
          have hc : r.head? = some c := by simpa using hc
          have := h2 c hc
          simp only [hintChar, Bool.and_eq_false_iff, Bool.not_eq_false', bne_eq_false_iff_eq] at this
          rcases this with hsp | rfl
          · exact sep (by rw [ea]; exact List.mem_append_right _ (List.mem_append_right _ (List.mem_of_mem_head? hc))) hsp
          · decide
    apply hsub
    refine importSymbols_words (fun c hc => wordChar_ascii (h.chars c ?_)) hk (fun x hx hm => h.words x hx (hsub x hm))
    rw [ea, e]
    simp [hc]
  unfold sigImports at hk
  rcases List.mem_append.mp hk with hk | hk
  · obtain ⟨hint, hh, hk⟩ := List.mem_flatMap.mp hk
    have hs := colonHints_stands _ _ hh
    obtain ⟨l, r, ea, hl, h1, h2, h3⟩ := hs
    have hsp : ∀ c ∈ hint, isSpace c = false := by
      intro c hc
      have := h3 c hc
      simp only [hintChar, Bool.and_eq_true, Bool.not_eq_true'] at this
      exact this.1
    rw [strip_eq_self (fun c hc => hsp c (List.mem_of_mem_head? hc)) (fun c hc => hsp c (List.mem_of_getLast? hc)),
      rstrip_eq_self (fun c hc => hsp c (List.mem_of_getLast? hc))] at hk
    rcases replace_end (h := hint) (fun a b e => by
      cases b with
      | nil => rfl
      | cons d t =>
        exfalso
        have hd := h3 d (by rw [e]; simp)
        have := h.colon (l ++ a) (d :: t ++ r) (by rw [ea, e]; simp) d (by simp)
        simp only [hintChar, Bool.and_eq_true, Bool.not_eq_true', bne_iff_ne] at hd
        rcases this with h | h
        · rw [h] at hd; exact absurd hd.1 (by simp)
        · exact hd.2 h) with he | ⟨g, he, hr⟩
    · rw [he] at hk
      exact inside (post := []) ⟨l, r, ea, hl, h1, h2, h3⟩ (by simp) (by simp) hk
    · rw [hr] at hk
      exact inside ⟨l, r, ea, hl, h1, h2, h3⟩ he (by decide) hk
  · cases ha : arrowHint args with
    | none => rw [ha] at hk; simp at hk
    | some hint =>
      rw [ha] at hk
      dsimp only at hk
      obtain ⟨t, ht, hall⟩ := rstripChar_split ':' hint
      exact inside (arrowHint_stands _ ha) ht (fun c hc => by rw [hall c (List.mem_of_mem_head? hc)]; decide) hk

end
end Verif
