import Verif.Spec.Lexemes
import Verif.Spec.Types
import Verif.Lemmas.ListStr
/-
The words of concatenated texts.
-/
namespace Verif
open Verif.Spec

theorem pieces_ne_nil : ∀ s : Str, pieces s ≠ []
  | [] => by simp [pieces]
  | c :: r => by
    unfold pieces
    split
    · split <;> simp
    · simp

theorem pieces_sep {c : Char} (h : ofWord c = false) (t : Str) : ∀ s : Str, pieces (s ++ c :: t) = pieces s ++ pieces t
  | [] => by simp [pieces, h]
  | d :: s => by
    have ih := pieces_sep h t s
    rw [List.cons_append, pieces, pieces, ih]
    split
    · cases hp : pieces s with
      | nil => exact absurd hp (pieces_ne_nil s)
      | cons p ps => rfl
    · rfl

theorem lexemes_sep {c : Char} (h : ofWord c = false) (s t : Str) : lexemes (s ++ c :: t) = lexemes s ++ lexemes t := by
  unfold lexemes
  rw [pieces_sep h, List.filter_append]

theorem lexemes_nil : lexemes [] = [] := rfl

theorem lexemes_cons {c : Char} (h : ofWord c = false) (t : Str) : lexemes (c :: t) = lexemes t := by
  simpa [lexemes_nil] using lexemes_sep h [] t

theorem pieces_word : ∀ {s : Str}, (∀ c ∈ s, ofWord c = true) → pieces s = [s]
  | [], _ => rfl
  | c :: s, h => by
    rw [pieces, if_pos (h c (by simp)), pieces_word (fun d hd => h d (by simp [hd]))]

theorem lexemes_word {s : Str} (hne : s ≠ []) (h : ∀ c ∈ s, ofWord c = true) : lexemes s = [s] := by
  unfold lexemes
  rw [pieces_word h]
  cases s with
  | nil => exact absurd rfl hne
  | cons c r => rfl

theorem pieces_ofWord : ∀ (s : Str), ∀ w ∈ pieces s, ∀ c ∈ w, ofWord c = true
  | [], w, hw, c, hc => by
    simp only [pieces, List.mem_singleton] at hw
    subst hw
    simp at hc
  | d :: r, w, hw, c, hc => by
    have ih := pieces_ofWord r
    simp only [pieces] at hw
    split at hw
    · rename_i hd
      split at hw
      · rename_i p ps hp
        rw [hp] at ih
        rcases List.mem_cons.mp hw with rfl | hw
        · rcases List.mem_cons.mp hc with rfl | hc
          · exact hd
          · exact ih p (by simp) c hc
        · exact ih w (List.mem_cons_of_mem _ hw) c hc
      · simp only [List.mem_singleton] at hw
        subst hw
        simp only [List.mem_singleton] at hc
        subst hc
        exact hd
    · rcases List.mem_cons.mp hw with rfl | hw
      · simp at hc
      · exact ih w hw c hc

theorem lexemes_ofWord {s w : Str} (h : w ∈ lexemes s) : ∀ c ∈ w, ofWord c = true :=
  pieces_ofWord s w (List.mem_filter.mp h).1

/-- Words of a text that ends in a separator. -/
theorem lexemes_last {c : Char} (h : ofWord c = false) (s : Str) : lexemes (s ++ [c]) = lexemes s := by
  rw [lexemes_sep h, lexemes_nil, List.append_nil]

theorem mem_lexemes_join {c : Char} {sep : Str} (hc : ofWord c = false)
    (hlast : ∀ t, lexemes (sep ++ t) = lexemes t) {x : Str} : ∀ {l : List Str}, x ∈ lexemes (join (c :: sep) l) ↔ ∃ s ∈ l, x ∈ lexemes s
  | [] => by simp [lexemes_nil]
  | [s] => by simp
  | s :: t :: r => by
    have ih := mem_lexemes_join hc hlast (x := x) (l := t :: r)
    rw [join_cons_cons, List.append_assoc, List.cons_append, lexemes_sep hc, hlast, List.mem_append, ih]
    simp

theorem mem_lexemes_commas {x : Str} {l : List Str} : x ∈ lexemes (join py!", " l) ↔ ∃ s ∈ l, x ∈ lexemes s :=
  mem_lexemes_join (c := ',') (sep := [' ']) (by decide) (fun t => lexemes_cons (by decide) t)

theorem mem_lexemes_lines {x : Str} {l : List Str} : x ∈ lexemes (join py!"\n" l) ↔ ∃ s ∈ l, x ∈ lexemes s :=
  mem_lexemes_join (c := '\n') (sep := []) (by decide) (fun t => rfl)

theorem lexemes_bracket (con x : Str) : lexemes (con ++ py!"[" ++ x ++ py!"]") = lexemes con ++ lexemes x := by
  rw [show con ++ py!"[" ++ x ++ py!"]" = con ++ '[' :: (x ++ [']']) by simp, lexemes_sep (by decide), lexemes_last (by decide)]

theorem lexemes_quotes (x : Str) : lexemes (py!"\"" ++ x ++ py!"\"") = lexemes x := by
  rw [show py!"\"" ++ x ++ py!"\"" = '"' :: (x ++ ['"']) by simp, lexemes_cons (by decide), lexemes_last (by decide)]

theorem printList_map : ∀ ts : List TExpr, printList ts = ts.map TExpr.print
  | [] => rfl
  | t :: r => by simp [printList, printList_map r]

/-- The words of a union. -/
theorem mem_lexemes_union {x : Str} {l : List Str} : x ∈ lexemes (py!"Union[" ++ join py!", " l ++ py!"]") ↔
    x = py!"Union" ∨ ∃ s ∈ l, x ∈ lexemes s := by
  rw [show py!"Union[" ++ join py!", " l ++ py!"]" = py!"Union" ++ py!"[" ++ join py!", " l ++ py!"]" by simp, lexemes_bracket,
    show lexemes py!"Union" = [py!"Union"] by decide, List.mem_append, mem_lexemes_commas, List.mem_singleton]

theorem mem_lexemes_tuple {x : Str} {l : List Str} : x ∈ lexemes (py!"Tuple[" ++ join py!", " l ++ py!"]") ↔
    x = py!"Tuple" ∨ ∃ s ∈ l, x ∈ lexemes s := by
  rw [show py!"Tuple[" ++ join py!", " l ++ py!"]" = py!"Tuple" ++ py!"[" ++ join py!", " l ++ py!"]" by simp, lexemes_bracket,
    show lexemes py!"Tuple" = [py!"Tuple"] by decide, List.mem_append, mem_lexemes_commas, List.mem_singleton]

theorem lexemes_tupleOf (x : Str) : lexemes (py!"Tuple[" ++ x ++ py!", ...]") = py!"Tuple" :: lexemes x := by
  rw [show py!"Tuple[" ++ x ++ py!", ...]" = py!"Tuple" ++ '[' :: (x ++ ',' :: py!" ...]") by simp, lexemes_sep (by decide),
    lexemes_sep (by decide), show lexemes py!"Tuple" = [py!"Tuple"] by decide, show lexemes py!" ...]" = [] by decide]
  simp

theorem lexemes_mapping (con k v : Str) : lexemes (con ++ py!"[" ++ k ++ py!", " ++ v ++ py!"]") = lexemes con ++ (lexemes k ++ lexemes v) := by
  rw [show con ++ py!"[" ++ k ++ py!", " ++ v ++ py!"]" = con ++ '[' :: (k ++ ',' :: ' ' :: (v ++ [']'])) by simp,
    lexemes_sep (by decide), lexemes_sep (by decide), lexemes_cons (by decide), lexemes_last (by decide)]

theorem lexemes_alias (name t : Str) : lexemes (name ++ py!": TypeAlias = " ++ t) = lexemes name ++ (py!"TypeAlias" :: lexemes t) := by
  rw [show name ++ py!": TypeAlias = " ++ t = name ++ ':' :: (py!" TypeAlias =" ++ ' ' :: t) by simp, lexemes_sep (by decide),
    lexemes_sep (by decide), show lexemes py!" TypeAlias =" = [py!"TypeAlias"] by decide]
  rfl

theorem lexemes_pre {a : Str} (h : ∀ c, a.getLast? = some c → ofWord c = false) (b : Str) : lexemes (a ++ b) = lexemes a ++ lexemes b := by
  rcases List.eq_nil_or_concat a with rfl | ⟨a', c, e⟩
  · simp [lexemes_nil]
  · rw [List.concat_eq_append] at e
    subst e
    have hc := h c (by simp)
    rw [List.append_assoc, List.singleton_append, lexemes_sep hc, lexemes_last hc]

theorem lexemes_post (a : Str) {b : Str} (h : ∀ c, b.head? = some c → ofWord c = false) : lexemes (a ++ b) = lexemes a ++ lexemes b := by
  cases b with
  | nil => simp [lexemes_nil]
  | cons c r =>
    have hc := h c rfl
    rw [lexemes_sep hc, lexemes_cons hc]

/-- The words in the middle of a text. -/
theorem mem_lexemes_mid {x pre m post : Str} (h1 : ∀ c, pre.getLast? = some c → ofWord c = false)
    (h2 : ∀ c, post.head? = some c → ofWord c = false) (h : x ∈ lexemes m) : x ∈ lexemes (pre ++ (m ++ post)) := by
  rw [lexemes_pre h1, lexemes_post _ h2]
  simp [h]

/-- A text that ends in a fixed text with a separator at its end. -/
theorem last_lit (a : Str) {b : Str} (h : b.getLast?.any (fun c => !ofWord c) = true) : ∀ c, (a ++ b).getLast? = some c → ofWord c = false := by
  intro c hc
  cases hb : b.getLast? with
  | none => rw [hb] at h; simp at h
  | some d =>
    rw [List.getLast?_append, hb] at hc
    rw [hb] at h
    simp at hc h
    rw [← hc, h]

theorem mem_classText {e : RawEntry} {x : Str} (h : x ∈ lexemes e.type) : x ∈ lexemes e.classText := by
  unfold RawEntry.classText
  rw [List.append_assoc]
  refine mem_lexemes_mid (last_lit _ (by decide)) ?_ h
  intro c hc
  cases hd : e.doc with
  | none => rw [hd] at hc; simp at hc
  | some d => rw [hd] at hc; simp at hc; subst hc; decide

theorem mem_functionalText {e : RawEntry} {x : Str} (h : x ∈ lexemes e.type) : x ∈ lexemes e.functionalText := by
  unfold RawEntry.functionalText
  rw [List.append_assoc]
  exact mem_lexemes_mid (last_lit _ (by decide)) (by intro c hc; simp at hc; subst hc; decide) h

/-- The words of a TypedDict: `TypedDict` and those of the types of its entries. -/
theorem mem_recordText {name : Str} {f : Bool} {doc : Option Str} {es : List RawEntry} {x : Str}
    (h : x = py!"TypedDict" ∨ ∃ e ∈ es, x ∈ lexemes e.type) : x ∈ lexemes (recordText name f doc es) := by
  unfold recordText
  cases f with
  | true =>
    simp only [if_true]
    rcases h with rfl | ⟨e, he, hx⟩
    · simp only [List.append_assoc]
      rw [show py!" = TypedDict(\n    \"" = py!" = " ++ (py!"TypedDict" ++ py!"(\n    \"") from rfl]
      simp only [List.append_assoc]
      rw [← List.append_assoc name]
      exact mem_lexemes_mid (last_lit _ (by decide)) (by intro c hc; simp at hc; subst hc; decide) (by decide)
    · rw [List.append_assoc, List.append_assoc]
      exact mem_lexemes_mid (last_lit _ (by decide)) (by intro c hc; simp at hc; subst hc; decide)
        (mem_lexemes_lines.mpr ⟨_, List.mem_map_of_mem he, mem_functionalText hx⟩)
  | false =>
    simp only [Bool.false_eq_true, if_false]
    rcases h with rfl | ⟨e, he, hx⟩
    · rw [show py!"(TypedDict):\n" = py!"(" ++ (py!"TypedDict" ++ py!"):\n") from rfl]
      simp only [List.append_assoc]
      rw [← List.append_assoc py!"class " name, ← List.append_assoc (py!"class " ++ name)]
      exact mem_lexemes_mid (last_lit _ (by decide)) (by intro c hc; simp at hc; subst hc; decide) (by decide)
    · cases es with
      | nil => simp at he
      | cons e0 r =>
        rw [lexemes_pre ?_]
        · exact List.mem_append_right _ (mem_lexemes_lines.mpr ⟨_, List.mem_map_of_mem he, mem_classText hx⟩)
        · intro c hc
          cases doc with
          | none => simp only [List.append_nil] at hc; exact last_lit _ (by decide) c hc
          | some t => rw [← List.append_assoc] at hc; exact last_lit _ (by decide) c hc

theorem mem_typeText {e : Entry} {x : Str} (h : (e.readOnly = true ∧ x = py!"ReadOnly") ∨ (e.required = false ∧ x = py!"NotRequired") ∨
    x ∈ lexemes e.type.print) : x ∈ lexemes e.typeText := by
  unfold Entry.typeText
  have hr : ∀ t, lexemes (py!"ReadOnly[" ++ t ++ py!"]") = py!"ReadOnly" :: lexemes t := fun t => by
    rw [show py!"ReadOnly[" ++ t ++ py!"]" = py!"ReadOnly" ++ py!"[" ++ t ++ py!"]" by simp, lexemes_bracket]; rfl
  have hn : ∀ t, lexemes (py!"NotRequired[" ++ t ++ py!"]") = py!"NotRequired" :: lexemes t := fun t => by
    rw [show py!"NotRequired[" ++ t ++ py!"]" = py!"NotRequired" ++ py!"[" ++ t ++ py!"]" by simp, lexemes_bracket]; rfl
  cases h1 : e.required <;> cases h2 : e.readOnly <;>
    simp only [h1, h2, Bool.false_eq_true, if_false, if_true, hr, hn, List.mem_cons, false_and, true_and, false_or, reduceCtorEq] at h ⊢
  · exact h
  · exact h
  · exact h
  · exact h

end Verif
