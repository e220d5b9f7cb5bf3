import Verif.Lemmas.Quotes
import Verif.Props.Utils
/- Property C12: the docstring is one closed string literal. -/
namespace Verif.Props
open Verif Verif.Spec

private theorem docText_last (s : Str) : (docText s).getLast? = some '.' := by
  obtain ⟨t, n, _, h⟩ := docText_spec s
  rcases h with ⟨h, ht⟩ | h
  · rw [h]
    rw [endsWith, List.isSuffixOf_iff_suffix] at ht
    obtain ⟨u, rfl⟩ := ht
    simp
  · rw [h]; simp

/-- What the formatted docstring looks like: quotes, a body with the words of the text, quotes; the body does not
end with a quote or a backslash. -/
private theorem formatDoc_body (s : Str) (n : Nat) (indent : Str) (hi : Blank indent) :
    ∃ body, formatDoc s n indent = indent ++ quotes3 ++ body ++ quotes3 ∧ words body = words (docText s) ∧
      body.getLast? ≠ some '"' ∧ body.getLast? ≠ some '\\' := by
  unfold formatDoc
  simp only
  have hl := docText_last s
  split
  · exact ⟨docText s, by simp, rfl, by rw [hl]; decide, by rw [hl]; decide⟩
  · split
    · exact ⟨docText s, by simp, rfl, by rw [hl]; decide, by rw [hl]; decide⟩
    · have hbl : ∀ c ∈ py!"\n" ++ indent, isSpace c = true := by
        intro c hc
        rcases List.mem_append.mp hc with hc | hc
        · simp at hc; subst hc; decide
        · exact hi c hc
      have hlast : ∀ pre : Str, ∀ c, isSpace c = false → (pre ++ (py!"\n" ++ indent)).getLast? ≠ some c := by
        intro pre c hc h
        have h2 : (py!"\n" ++ indent).getLast? = some c := by
          rw [List.getLast?_append] at h
          cases hh : (py!"\n" ++ indent).getLast? with
          | none => simp at hh
          | some x => rw [hh] at h; simpa using h
        have := hbl c (List.mem_of_getLast? h2)
        simp [hc] at this
      refine ⟨py!"\n" ++ join py!"\n" ((splitString (docText s) n).map (indent ++ ·)) ++ (py!"\n" ++ indent),
        by simp [List.append_assoc], ?_, hlast _ _ (by decide), hlast _ _ (by decide)⟩
      rw [words_append_allspace _ hbl (by simp)]
      rw [List.singleton_append, words_cons_space (by decide), words_join_nl]
      rw [← splitString_words (docText s) n, List.map_map]
      congr 1
      apply List.map_congr_left
      intro x _
      exact words_allspace_append x hi

private theorem docText_infix {p s : Str} (h : '.' ∉ p) (h' : p <:+: docText s) : p <:+: s := by
  obtain ⟨t, n, hs, ht⟩ := docText_spec s
  have : p <:+: t := by
    rcases ht with ⟨h1, _⟩ | h1
    · rw [h1] at h'; exact h'
    · rw [h1] at h'
      rcases infix_split (b := []) h h' with h' | h'
      · exact h'
      · simp at h'; subst h'; exact List.nil_infix
  exact this.trans ⟨[], List.replicate n '\n', by simpa using hs.symm⟩

/-- C12 (full statement): for every text, width and indentation the docstring, after its indentation, is one
complete triple-quoted literal. -/
def DocstringIsLiteral : Prop := ∀ (s : Str) (n : Nat) (indent : Str), Blank indent →
  ∃ d body, formatDoc s n indent = indent ++ d ∧ IsTripleLiteral d body

/-- C12 is false: a text that itself contains three quotes ends the literal early. -/
theorem docstring_literal_fails : ¬ DocstringIsLiteral := by
  intro h
  obtain ⟨d, body, h1, r, rfl, hr⟩ := h py!"a \"\"\" b" 90 [] (by intro c hc; simp at hc)
  have hd : formatDoc py!"a \"\"\" b" 90 [] = '"' :: '"' :: '"' :: py!"a \"\"\" b.\"\"\"" := by decide
  rw [hd] at h1
  simp only [List.nil_append, List.cons.injEq, true_and] at h1
  subst h1
  exact absurd hr (by simp [readTriple])

/-- C12, what is true, first case: without quotes in the text the docstring is one closed literal (the text may
contain backslashes). Missing: texts with quotes. -/
theorem docstring_literal_noquote_partial (s : Str) (n : Nat) (indent : Str) (hi : Blank indent) (hq : '"' ∉ s) :
    ∃ d body, formatDoc s n indent = indent ++ d ∧ IsTripleLiteral d body ∧ words body = words (docText s) := by
  obtain ⟨body, h1, h2, _, h4⟩ := formatDoc_body s n indent hi
  refine ⟨quotes3 ++ body ++ quotes3, body, by rw [h1]; simp, ⟨body ++ quotes3, by simp [quotes3], ?_⟩, h2⟩
  apply readTriple_noquote body _ h4
  rw [← contains_singleton, contains_eq_of_words (by simp) (by decide) h2, contains_singleton]
  intro h
  apply hq
  rw [← contains_singleton, contains_iff_infix] at h ⊢
  exact docText_infix (by decide) h

/-- C12, second case: single and double quotes are harmless as long as no three quotes are adjacent and there is no
backslash; the content of the literal is then exactly the reflowed text. -/
theorem docstring_literal_partial (s : Str) (n : Nat) (indent : Str) (hi : Blank indent)
    (hq : ¬ quotes3 <:+: s) (hb : '\\' ∉ s) :
    ∃ d body, formatDoc s n indent = indent ++ d ∧ IsTripleLiteral d body ∧ words body = words (docText s) ∧
      '\\' ∉ body := by
  obtain ⟨body, h1, h2, h3, h4⟩ := formatDoc_body s n indent hi
  have hbs : '\\' ∉ body := by
    rw [← contains_singleton, contains_eq_of_words (by simp) (by decide) h2, contains_singleton]
    intro h
    apply hb
    rw [← contains_singleton, contains_iff_infix] at h ⊢
    exact docText_infix (by decide) h
  refine ⟨quotes3 ++ body ++ quotes3, body, by rw [h1]; simp, ⟨body ++ quotes3, by simp [quotes3], ?_⟩, h2, hbs⟩
  apply readTriple_no3 body hbs _ h3
  rw [← contains_iff_infix, contains_eq_of_words (by simp [quotes3]) (by decide) h2, contains_iff_infix]
  intro h
  exact hq (docText_infix (by decide) h)

example : ¬ quotes3 <:+: py!"say \"\"hi" := by rw [← contains_iff_infix]; decide
example : formatDoc py!"say \"\"hi" 90 [] = py!"\"\"\"say \"\"hi.\"\"\"" := by decide

end Verif.Props
