import Verif.Lemmas.Words
import Verif.Spec.Basic
/- Substring lemmas and the triple-quote reader. -/
namespace Verif
open Verif.Spec

theorem contains_iff_infix (p : Str) : ∀ s : Str, contains p s = true ↔ p <:+: s
  | [] => by simp [contains]
  | c :: r => by
    simp only [contains, Bool.or_eq_true, contains_iff_infix p r, List.isPrefixOf_iff_prefix, List.infix_cons_iff]

theorem infix_split {p a b : Str} {c : Char} (hc : c ∉ p) (h : p <:+: a ++ c :: b) : p <:+: a ∨ p <:+: b := by
  obtain ⟨x, y, hxy⟩ := h
  rw [List.append_eq_append_iff] at hxy
  rcases hxy with ⟨as, h1, h2⟩ | ⟨cs, h1, h2⟩
  · left
    exact ⟨x, as, by rw [h1]⟩
  · -- x ++ p = a ++ cs, c :: b = cs ++ y
    cases cs with
    | nil => left; exact ⟨x, [], by simpa using h1⟩
    | cons d ds =>
      simp at h2
      obtain ⟨rfl, rfl⟩ := h2
      rw [List.append_eq_append_iff] at h1
      rcases h1 with ⟨as, h3, h4⟩ | ⟨es, h3, h4⟩
      · exact absurd (h4 ▸ by simp) hc
      · right
        cases es with
        | nil =>
          simp at h4
          exact absurd (h4 ▸ by simp) hc
        | cons e es =>
          simp at h4
          obtain ⟨rfl, h4⟩ := h4
          exact ⟨es, y, by rw [h4]⟩

theorem infix_of_mem_wordsAux {p : Str} (hne : p ≠ []) (hp : ∀ c ∈ p, isSpace c = false) :
    ∀ (s cur : Str), p <:+: cur.reverse ++ s → ∃ w ∈ wordsAux cur s, p <:+: w
  | [], cur, h => by
    simp at h
    have hc : cur.isEmpty = false := by
      cases cur with
      | nil => simp at h; exact absurd h hne
      | cons _ _ => rfl
    exact ⟨cur.reverse, by simp [wordsAux, hc], h⟩
  | c :: s, cur, h => by
    simp only [wordsAux]
    split
    · rename_i hsp
      have hcp : c ∉ p := fun h' => by simp [hp c h'] at hsp
      rcases infix_split hcp h with h | h
      · have hc : cur.isEmpty = false := by
          cases cur with
          | nil => simp at h; exact absurd h hne
          | cons _ _ => rfl
        exact ⟨cur.reverse, by simp [hc], h⟩
      · obtain ⟨w, hw, hpw⟩ := infix_of_mem_wordsAux hne hp s [] (by simpa using h)
        refine ⟨w, ?_, hpw⟩
        split
        · exact hw
        · simp [hw]
    · exact infix_of_mem_wordsAux hne hp s (c :: cur) (by simpa using h)

theorem word_infix_aux : ∀ (s cur w : Str), w ∈ wordsAux cur s → w <:+: cur.reverse ++ s
  | [], cur, w, h => by
    simp only [wordsAux] at h
    split at h
    · simp at h
    · simp at h; subst h; simp
  | c :: s, cur, w, h => by
    simp only [wordsAux] at h
    have tail : w ∈ wordsAux [] s → w <:+: cur.reverse ++ c :: s := by
      intro h
      have := word_infix_aux s [] w h
      simp at this
      exact this.trans ⟨cur.reverse ++ [c], [], by simp⟩
    split at h
    · split at h
      · exact tail h
      · rcases List.mem_cons.mp h with h | h
        · subst h; exact ⟨[], c :: s, by simp⟩
        · exact tail h
    · have := word_infix_aux s (c :: cur) w h
      simpa using this

/-- A whitespace-free pattern occurs in a text exactly when it occurs in one of its words. -/
theorem infix_iff_words {p : Str} (hne : p ≠ []) (hp : ∀ c ∈ p, isSpace c = false) (s : Str) :
    p <:+: s ↔ ∃ w ∈ words s, p <:+: w := by
  constructor
  · intro h; exact infix_of_mem_wordsAux hne hp s [] (by simpa using h)
  · rintro ⟨w, hw, h⟩
    have := word_infix_aux s [] w hw
    exact h.trans (by simpa using this)

theorem contains_eq_of_words {p : Str} (hne : p ≠ []) (hp : ∀ c ∈ p, isSpace c = false) {s t : Str}
    (h : words s = words t) : contains p s = contains p t := by
  rw [Bool.eq_iff_iff, contains_iff_infix, contains_iff_infix, infix_iff_words hne hp, infix_iff_words hne hp, h]

theorem contains_singleton (c : Char) (s : Str) : contains [c] s = true ↔ c ∈ s := by
  rw [contains_iff_infix]
  constructor
  · rintro ⟨a, b, rfl⟩; simp
  · intro h
    obtain ⟨a, b, rfl⟩ := List.append_of_mem h
    exact ⟨a, b, by simp⟩

/-- Without quotes in the body, the literal closes exactly at its end (backslashes allowed, not as last character). -/
theorem readTriple_noquote : ∀ body : Str, '"' ∉ body → body.getLast? ≠ some '\\' →
    readTriple (body ++ quotes3) = some (body, [])
  | [], _, _ => rfl
  | [c], h1, h2 => by
    simp at h1 h2
    have hq : c ≠ '"' := fun e => h1 e.symm
    simp only [quotes3, List.cons_append, List.nil_append]
    unfold readTriple
    split
    · simp at *
    · rename_i heq; simp at heq; exact absurd heq.1 hq
    · rename_i heq; simp at heq; exact absurd heq.1 h2
    · rename_i heq; simp at heq; obtain ⟨rfl, rfl⟩ := heq; rfl
  | c :: d :: r, h1, h2 => by
    simp only [List.mem_cons, not_or] at h1
    have hq : c ≠ '"' := fun e => h1.1 e.symm
    simp only [List.cons_append]
    unfold readTriple
    split
    · rename_i heq; simp at heq
    · rename_i heq; simp at heq; exact absurd heq.1 hq
    · rename_i heq; simp at heq
      obtain ⟨rfl, rfl, rfl⟩ := heq
      rw [readTriple_noquote r h1.2.2 (by
        cases r with
        | nil => simp
        | cons e r => simpa [List.getLast?_cons_cons] using h2)]
      rfl
    · rename_i heq; simp at heq
      obtain ⟨rfl, rfl⟩ := heq
      have := readTriple_noquote (d :: r) (by simp only [List.mem_cons, not_or]; exact h1.2)
        (by simpa [List.getLast?_cons_cons] using h2)
      simp only [List.cons_append] at this
      rw [this]; rfl

/-- Without backslashes and without three quotes in a row, the literal closes exactly at its end unless the body
ends with a quote. -/
theorem readTriple_no3 : ∀ body : Str, '\\' ∉ body → ¬ quotes3 <:+: body → body.getLast? ≠ some '"' →
    readTriple (body ++ quotes3) = some (body, [])
  | [], _, _, _ => rfl
  | c :: r, h1, h2, h3 => by
    simp only [List.mem_cons, not_or] at h1
    have hb : c ≠ '\\' := fun e => h1.1 e.symm
    have hr : ¬ quotes3 <:+: r := fun h => h2 (h.trans (List.suffix_cons c r).isInfix)
    have ih : r ≠ [] ∨ r = [] := by cases r <;> simp
    have ih' : readTriple (r ++ quotes3) = some (r, []) := by
      apply readTriple_no3 r h1.2 hr
      cases r with
      | nil => simp
      | cons e r => simpa [List.getLast?_cons_cons] using h3
    simp only [List.cons_append]
    unfold readTriple
    split
    · rename_i heq; simp at heq
    · rename_i rest heq
      simp at heq
      obtain ⟨rfl, heq⟩ := heq
      exfalso
      match r, h3, h2, heq with
      | [], h3, _, _ => simp at h3
      | [x], h3, _, heq => simp [quotes3] at heq; simp [heq.1] at h3
      | x :: y :: r, h3, h2, heq =>
        simp at heq
        obtain ⟨rfl, rfl, _⟩ := heq
        exact h2 ⟨[], r, by simp [quotes3]⟩
    · rename_i heq; simp at heq; exact absurd heq.1 hb
    · rename_i heq; simp at heq
      obtain ⟨rfl, rfl⟩ := heq
      rw [ih']; rfl

end Verif
