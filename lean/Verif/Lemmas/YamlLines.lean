import Verif.Lemmas.YamlInject
import Verif.Lemmas.Reload
/-
The lines of documents, and the text of comments beside keys.
-/
namespace Verif
open Spec

/-- A line of a document: printable, and dashes begin list items. -/
def GoodLine (l : Str) : Prop := PrintedLine l ∧ ∀ r, lstrip l = '-' :: r → strip l ≠ py!"-" ∧ 2 ≤ (indentOf l).length

theorem good_key {w : Nat} {k rest : Str} (hk : PlainWord k) (hp : PrintedLine rest) : GoodLine (blanks w ++ (k ++ ':' :: rest)) := by
  refine ⟨printed_append (blanks_printed w) (printed_append (word_printed hk) ?_), fun r hr => ?_⟩
  · intro c hc
    rcases List.mem_cons.mp hc with rfl | hc
    · exact .inl (by decide)
    · exact hp c hc
  · obtain ⟨c, k, rfl, hc⟩ := hk.split
    have hc := yamlChar_ascii c hc
    rw [List.cons_append, lstrip_blanks w hc.2.1] at hr
    injection hr with hr _
    exact absurd hr hc.2.2.2.2.1

theorem good_item {w : Nat} {x : Str} {c : Char} (hx : PrintedLine (c :: x)) (hc : isSpace c = false) : GoodLine (blanks w ++ '-' :: ' ' :: c :: x) := by
  refine ⟨printed_append (blanks_printed w) ?_, fun r hr => ⟨?_, ?_⟩⟩
  · intro d hd
    rcases List.mem_cons.mp hd with rfl | hd
    · exact .inl (by decide)
    · rcases List.mem_cons.mp hd with rfl | hd
      · exact .inl (by decide)
      · exact hx d hd
  · unfold strip
    rw [lstrip_blanks w (by decide)]
    have := rstrip_visible (x := py!"- ") (b := x) hc
    rw [show '-' :: ' ' :: c :: x = py!"- " ++ c :: x from rfl, this]
    intro h
    have := congrArg List.length h
    simp at this
  · unfold indentOf
    rw [List.takeWhile_append_of_pos]
    · simp only [List.length_append, List.takeWhile_cons, beq_self_eq_true, Bool.or_true, Bool.true_or, if_true, List.length_cons]
      omega
    · intro d hd; rw [List.eq_of_mem_replicate hd]; decide

theorem good_note {l : Str} (h : NoteLine l) : GoodLine l := by
  refine ⟨h.1, fun r hr => ?_⟩
  exfalso
  rcases h.2 with hb | ⟨n, s, rfl⟩
  · have := lstrip_allspace (a := l) (b := []) (fun c hc => by rw [hb c hc]; decide)
    rw [List.append_nil, hr] at this
    simp [lstrip] at this
  · have := lstrip_blanks n (c := '#') (r := s) (by decide)
    rw [show blanks n = List.replicate n ' ' from rfl] at this
    rw [this] at hr
    injection hr with hr _
    exact absurd hr (by decide)

theorem scalar_visible {s : YScalar} (h : s.OK) : ∃ c r, s.text = c :: r ∧ isSpace c = false := by
  cases s with
  | int d =>
    cases d with
    | nil => exact absurd rfl h.1
    | cons c r =>
      refine ⟨c, r, rfl, ?_⟩
      have := h.2.1 c (by simp)
      exact (yamlChar_ascii c (by simp [yamlChar, this.1, Char.isAlphanum, this.2])).2.1
  | bool b => cases b <;> exact ⟨_, _, rfl, by decide⟩
  | null => exact ⟨_, _, rfl, by decide⟩
  | word s =>
    obtain ⟨c, r, rfl, hc⟩ := PlainWord.split h
    exact ⟨c, r, rfl, (yamlChar_ascii c hc).2.1⟩
  | quoted s => exact ⟨_, _, rfl, by decide⟩

theorem good_dashed {w : Nat} {k rest : Str} {r : List Str} (hk : PlainWord k) (hp : PrintedLine rest) (hr : ∀ l ∈ r, GoodLine l) :
    ∀ l ∈ dashed w ((blanks (w + 2) ++ (k ++ ':' :: rest)) :: r), GoodLine l := by
  rw [dashed_line]
  intro l hl
  rcases List.mem_cons.mp hl with rfl | hl
  · have := (good_key (w := 0) hk hp).1
    obtain ⟨c, k, rfl, hc⟩ := hk.split
    exact good_item this (yamlChar_ascii c hc).2.1
  · exact hr l hl

theorem good_cons {a : Str} {r : List Str} (ha : GoodLine a) (hr : ∀ l ∈ r, GoodLine l) : ∀ l ∈ a :: r, GoodLine l := fun l hl => by
  rcases List.mem_cons.mp hl with rfl | hl
  · exact ha
  · exact hr l hl

theorem good_append {a b : List Str} (ha : ∀ l ∈ a, GoodLine l) (hb : ∀ l ∈ b, GoodLine l) : ∀ l ∈ a ++ b, GoodLine l := fun l hl =>
  (List.mem_append.mp hl).elim (ha l) (hb l)

theorem scalar_rest {s : YScalar} {t : Str} (h : s.OK) (ht : CommentTail t) : PrintedLine (' ' :: s.text ++ t) := printed_append (a := ' ' :: s.text)
  (fun c hc => (List.mem_cons.mp hc).elim (fun e => by rw [e]; exact .inl (by decide)) (scalar_printed h c)) ht.1

mutual
theorem map_good : ∀ (m : YMap), m.OK → m.Plain → (∀ w, ∀ l ∈ m.lines w, GoodLine l) ∧ ∀ w, m.begins → ∀ l ∈ dashed w (m.lines (w + 2)), GoodLine l
  | .nil, _, _ => ⟨fun w l hl => by (rw [YMap.lines] at hl; cases hl), fun _ h => absurd h id⟩
  | .note l r, ho, hp => by
    rw [YMap.OK] at ho
    rw [YMap.Plain] at hp
    refine ⟨fun w => ?_, fun _ h => absurd h id⟩
    rw [YMap.lines]
    exact good_cons (good_note ho.1) ((map_good r ho.2 hp).1 w)
  | .scalar k s t r, ho, hp => by
    rw [YMap.OK] at ho
    rw [YMap.Plain] at hp
    have ih := (map_good r ho.2.2.2 hp.2.2).1
    refine ⟨fun w => ?_, fun w _ => ?_⟩ <;> rw [YMap.lines, scalar_line]
    · exact good_cons (good_key ho.1 (scalar_rest ho.2.1 ho.2.2.1)) (ih w)
    · exact good_dashed ho.1 (scalar_rest ho.2.1 ho.2.2.1) (ih _)
  | .map k t st v r, ho, hp => by
    rw [YMap.OK] at ho
    rw [YMap.Plain] at hp
    have ih := (map_good r ho.2.2.2.2.2.2 hp.2.2.2).1
    have iv := (map_good v ho.2.2.2.2.2.1 hp.2.2.1).1
    refine ⟨fun w => ?_, fun w _ => ?_⟩ <;> rw [YMap.lines, nested_line, List.cons_append]
    · exact good_cons (good_key ho.1 ho.2.1.1) (good_append (iv _) (ih _))
    · exact good_dashed ho.1 ho.2.1.1 (good_append (iv _) (ih _))
  | .seq k t st v r, ho, hp => by
    rw [YMap.OK] at ho
    rw [YMap.Plain] at hp
    have ih := (map_good r ho.2.2.2.2 hp.2.2.2).1
    have iv := seq_good v ho.2.2.2.1 hp.2.2.1
    refine ⟨fun w => ?_, fun w _ => ?_⟩ <;> rw [YMap.lines, nested_line, List.cons_append]
    · exact good_cons (good_key ho.1 ho.2.1.1) (good_append (iv _) (ih _))
    · exact good_dashed ho.1 ho.2.1.1 (good_append (iv _) (ih _))
  | .text k ls r, _, hp => by rw [YMap.Plain] at hp; exact hp.elim
theorem seq_good : ∀ (s : YSeq), s.OK → s.Plain → ∀ w, ∀ l ∈ s.lines w, GoodLine l
  | .nil, _, _, w => fun l hl => by rw [YSeq.lines] at hl; cases hl
  | .note l r, ho, hp, w => by
    rw [YSeq.OK] at ho
    rw [YSeq.Plain] at hp
    rw [YSeq.lines]
    exact good_cons (good_note ho.1) (seq_good r ho.2 hp w)
  | .scalar s t r, ho, hp, w => by
    rw [YSeq.OK] at ho
    rw [YSeq.Plain] at hp
    rw [YSeq.lines]
    refine good_cons ?_ (seq_good r ho.2.2 hp.2 w)
    have := scalar_rest ho.1 ho.2.1
    obtain ⟨c, x, e, hc⟩ := scalar_visible ho.1
    rw [e] at this ⊢
    have := good_item (w := w) (c := c) (x := x ++ t) (fun d hd => this d (by simp at hd ⊢; exact .inr hd)) hc
    simpa using this
  | .map v r, ho, hp, w => by
    rw [YSeq.OK] at ho
    rw [YSeq.Plain] at hp
    rw [YSeq.lines]
    exact good_append ((map_good v ho.2.2.1 hp.1).2 w ho.1) (seq_good r ho.2.2.2 hp.2 w)
end

theorem doc_good {d : YDoc} (ho : d.OK) (hp : d.Plain) : ∀ l ∈ d.lines, GoodLine l := by
  cases d with
  | map m => exact (map_good m ho.2.2 hp).1 0
  | seq s => exact seq_good s ho.2 hp 0

/-- There is a blank in every document. -/
theorem blank_append {a b : List Str} (h : (∃ l ∈ a, ' ' ∈ l) ∨ ∃ l ∈ b, ' ' ∈ l) : ∃ l ∈ a ++ b, ' ' ∈ l := by
  rcases h with ⟨l, h, h'⟩ | ⟨l, h, h'⟩
  · exact ⟨l, List.mem_append_left _ h, h'⟩
  · exact ⟨l, List.mem_append_right _ h, h'⟩

mutual
theorem map_blank : ∀ (m : YMap), m.OK → m.Plain → m.items ≠ [] → ∀ w, ∃ l ∈ m.lines w, ' ' ∈ l
  | .nil, _, _, h, _ => by rw [YMap.items] at h; exact absurd rfl h
  | .note l r, ho, hp, h, w => by
    rw [YMap.OK] at ho
    rw [YMap.Plain] at hp
    rw [YMap.items] at h
    rw [YMap.lines]
    exact blank_append (a := [l]) (.inr (map_blank r ho.2 hp h w))
  | .scalar k s t r, _, _, _, w => by
    rw [YMap.lines, scalar_line]
    exact ⟨_, .head _, by simp⟩
  | .map k t st v r, ho, hp, _, w => by
    rw [YMap.OK] at ho
    rw [YMap.Plain] at hp
    rw [YMap.lines]
    exact blank_append (.inl (blank_append (a := [_]) (.inr (map_blank v ho.2.2.2.2.2.1 hp.2.2.1 ho.2.2.2.1 _))))
  | .seq k t st v r, ho, hp, _, w => by
    rw [YMap.OK] at ho
    rw [YMap.lines]
    exact blank_append (.inl (blank_append (a := [_]) (.inr (seq_blank v ho.2.2.2.1 ho.2.2.1 _))))
  | .text k ls r, _, hp, _, _ => by rw [YMap.Plain] at hp; exact hp.elim
theorem seq_blank : ∀ (s : YSeq), s.OK → s.elems ≠ [] → ∀ w, ∃ l ∈ s.lines w, ' ' ∈ l
  | .nil, _, h, _ => by rw [YSeq.elems] at h; exact absurd rfl h
  | .note l r, ho, h, w => by
    rw [YSeq.OK] at ho
    rw [YSeq.elems] at h
    rw [YSeq.lines]
    exact blank_append (a := [l]) (.inr (seq_blank r ho.2 h w))
  | .scalar s t r, _, _, w => by
    rw [YSeq.lines]
    exact ⟨_, .head _, by simp⟩
  | .map v r, ho, _, w => by
    rw [YSeq.OK] at ho
    rw [YSeq.lines]
    refine blank_append (.inl ?_)
    have : ∃ x l, v.lines (w + 2) = x :: l := by
      cases v with
      | nil => exact absurd ho.1 id
      | note l r => exact absurd ho.1 id
      | scalar k s t r => rw [YMap.lines]; exact ⟨_, _, rfl⟩
      | map k t st v r => rw [YMap.lines]; exact ⟨_, _, rfl⟩
      | seq k t st v r => rw [YMap.lines]; exact ⟨_, _, rfl⟩
      | text k ls r => rw [YMap.lines]; exact ⟨_, _, rfl⟩
    obtain ⟨x, l, e⟩ := this
    rw [e]
    exact ⟨_, .head _, by simp⟩
end

theorem doc_indented {d : YDoc} (ho : d.OK) (hp : d.Plain) : Indented false d.lines := by
  refine ⟨fun l hl => printed_noTab (doc_good ho hp l hl).1, ?_⟩
  cases d with
  | map m => exact map_blank m ho.2.2 hp ho.1 0
  | seq s => exact seq_blank s ho.2 ho.1 0

theorem strip_sub {s : Str} {c : Char} (h : c ∈ strip s) : c ∈ s := by
  unfold strip rstrip at h
  rw [List.mem_reverse] at h
  have h := (List.dropWhile_sublist _).mem h
  rw [List.mem_reverse] at h
  exact (List.dropWhile_sublist _).mem h

/-- Comments beside keys are lines of text blocks. -/
theorem side_block {lines : List Str} {U : Uni} {i : Nat} {line : Str} {ts : List Str} (hl : PrintedLine line) (h : TextsOf U lines i line [.side] ts) (hne : ts ≠ []) :
    TextBlock (splitlines (join py!"\n\n" ts)) := by
  cases h with
  | skip _ h => cases h; exact absurd rfl hne
  | take h1 h2 h3 =>
    cases h3
    rename_i t
    rcases h1 with ⟨j, _, _, _, _, e⟩ | ⟨_, e⟩
    · have hs : strip (line.drop (j + 2)) ≠ [] := by
        intro h0; rw [h0] at e; exact h2 (by rw [e]; rfl)
      have hin : ∀ c ∈ strip (line.drop (j + 2)), c ∈ line := fun c hc => List.mem_of_mem_drop (strip_sub hc)
      obtain ⟨c, r, e2⟩ : ∃ c r, strip (line.drop (j + 2)) = c :: r := by
        cases h : strip (line.drop (j + 2)) with
        | nil => exact absurd h hs
        | cons c r => exact ⟨c, r, rfl⟩
      have hc : isSpace c = false := head_strip (by rw [e2]; rfl)
      have hlast : ∀ d, (strip (line.drop (j + 2))).getLast? = some d → isSpace d = false := fun d hd => last_strip hd
      have hp : PrintedLine t := by
        intro d hd
        rw [e] at hd
        unfold ended at hd
        split at hd
        · exact hl d (hin d hd)
        · rcases List.mem_append.mp hd with hd | hd
          · exact hl d (hin d hd)
          · rw [List.mem_singleton.mp hd]; exact .inl (by decide)
      have hh : ∃ r', t = c :: r' := by
        rw [e, e2]; unfold ended
        split
        · exact ⟨r, rfl⟩
        · exact ⟨_, rfl⟩
      obtain ⟨r', rfl⟩ := hh
      have hone : splitlines (join py!"\n\n" [c :: r']) = [c :: r'] := splitlines_last (fun d hd => (hp d hd).noBreak) (by simp)
      rw [hone]
      refine ⟨fun l hl' => by rw [List.mem_singleton.mp hl']; exact hp, ⟨c, r', [], rfl, ?_⟩, fun l hl' => ?_⟩
      · rintro rfl; revert hc; decide
      · rw [List.getLast?_singleton] at hl'
        injection hl' with hl'
        subst hl'
        exact ⟨c, by simp, hc⟩
    · exact absurd e h2

end Verif
