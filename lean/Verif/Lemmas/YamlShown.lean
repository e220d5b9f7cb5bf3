import Verif.Lemmas.YamlLines
import Verif.Lemmas.Reload
/-
The text blocks before the keys of a mapping, in its data.
-/
namespace Verif
open Spec

/-- The text of a block. -/
def blockValue (ls : List Str) : Str := join py!"\n" ls ++ py!"\n"

theorem hidden_ne {k k' : Str} (h : (Key.str k').hidden = false) : hiddenPrefix ++ k ≠ k' := fun e => by
  rw [← e, hidden_prefix] at h; cases h

/-- What is known of the key `k`: its line, and its text block. -/
def Told (T : Nat → Str → Str → Option (List Str) → Prop) (w : Nat) (m : YMap) (p : Option (List Str)) (k : Str) : Prop :=
  ∃ j rest o, PrintedLine rest ∧ T j (blanks w ++ (k ++ ':' :: rest)) k o ∧
    ∀ text, ((hiddenPrefix ++ k, Val.inst .str (some text)) ∈ m.items ∨ (m.firstKey = some k ∧ ∃ ls, p = some ls ∧ text = blockValue ls)) ↔
      ∃ ls, o = some ls ∧ text = blockValue ls

theorem told_first {T : Nat → Str → Str → Option (List Str) → Prop} {w j : Nat} {m r : YMap} {p : Option (List Str)} {k rest : Str} {v : Val}
    (hm : m.items = (k, v) :: r.items) (hf : m.firstKey = some k) (hk : (Key.str k).hidden = false) (hr : r.Documented)
    (hn : k ∉ r.bare.items.map (·.1)) (hpr : PrintedLine rest) (ht : T j (blanks w ++ (k ++ ':' :: rest)) k p) : Told T w m p k := by
  refine ⟨j, rest, p, hpr, ht, fun text => ?_⟩
  rw [hm]
  constructor
  · rintro (h | ⟨_, h⟩)
    · exfalso
      rcases List.mem_cons.mp h with h | h
      · injection h with h _
        exact hidden_ne hk h
      · obtain ⟨key, h1, h2, h3⟩ := YMap.owner r hr (hidden_prefix k) (List.mem_map.mpr ⟨_, h, rfl⟩)
        have := List.append_cancel_left h1
        subst this
        exact hn ((YMap.key_bare r hr k).mpr ⟨h2, h3⟩)
    · exact h
  · exact fun h => .inr ⟨hf, h⟩

theorem told_rest {T : Nat → Str → Str → Option (List Str) → Prop} {w : Nat} {m r : YMap} {p : Option (List Str)} {k k' : Str} {v : Val}
    (hm : m.items = (k', v) :: r.items) (hf : m.firstKey = some k') (hk : (Key.str k').hidden = false) (hne : k ≠ k') (h : Told T w r none k) : Told T w m p k := by
  obtain ⟨j, rest, o, h0, h1, h2⟩ := h
  refine ⟨j, rest, o, h0, h1, fun text => ?_⟩
  rw [← h2 text, hm, hf, List.mem_cons]
  constructor
  · rintro ((h | h) | ⟨h, _⟩)
    · injection h with h _
      exact absurd h (hidden_ne hk)
    · exact .inl h
    · injection h with h
      exact absurd h.symm hne
  · rintro (h | ⟨_, ls, h, _⟩)
    · exact .inl (.inr h)
    · cases h

theorem YMap_told (T : Nat → Str → Str → Option (List Str) → Prop) (w : Nat) : ∀ (m : YMap) (i : Nat) (p : Option (List Str)), m.Documented → m.OK →
    (m.bare.items.map (·.1)).Nodup → m.Shows T (blanks w) w i p → ∀ k ∈ m.bare.items.map (·.1), Told T w m p k
  | .nil, _, _, _, _, _, _, k, hk => by rw [YMap.bare, YMap.items] at hk; cases hk
  | .note l r, i, p, hd, ho, hn, hs, k, hk => by
    rw [YMap.Documented] at hd
    rw [YMap.OK] at ho
    rw [YMap.bare, YMap.items] at hn hk
    rw [YMap.Shows] at hs
    obtain ⟨j, rest, o, h0, h1, h2⟩ := YMap_told T w r (i + 1) none hd ho.2 hn hs k hk
    refine ⟨j, rest, o, h0, h1, fun text => ?_⟩
    rw [← h2 text, YMap.items]
    constructor
    · rintro (h | ⟨h, _⟩)
      · exact .inl h
      · cases h
    · rintro (h | ⟨_, ls, h, _⟩)
      · exact .inl h
      · cases h
  | .scalar k' s t r, i, p, hd, ho, hn, hs, k, hk => by
    rw [YMap.Documented] at hd
    rw [YMap.OK] at ho
    rw [YMap.bare, YMap.items, List.map_cons] at hn hk
    rw [List.nodup_cons] at hn
    rw [YMap.Shows] at hs
    by_cases e : k = k'
    · subst e
      exact told_first (r := r) (by rw [YMap.items]) rfl hd.1 hd.2 hn.1 (scalar_rest ho.2.1 ho.2.2.1) hs.1
    · refine told_rest (r := r) (by rw [YMap.items]) rfl hd.1 e (YMap_told T w r (i + 1) none hd.2 ho.2.2.2 hn.2 hs.2 k ?_)
      exact (List.mem_cons.mp hk).resolve_left e
  | .map k' t st v r, i, p, hd, ho, hn, hs, k, hk => by
    rw [YMap.Documented] at hd
    rw [YMap.OK] at ho
    rw [YMap.bare, YMap.items, List.map_cons] at hn hk
    rw [List.nodup_cons] at hn
    rw [YMap.Shows] at hs
    by_cases e : k = k'
    · subst e
      exact told_first (r := r) (by rw [YMap.items]) rfl hd.1 hd.2.2 hn.1 ho.2.1.1 hs.1
    · refine told_rest (r := r) (by rw [YMap.items]) rfl hd.1 e (YMap_told T w r _ none hd.2.2 ho.2.2.2.2.2.2 hn.2 hs.2.2 k ?_)
      exact (List.mem_cons.mp hk).resolve_left e
  | .seq k' t st v r, i, p, hd, ho, hn, hs, k, hk => by
    rw [YMap.Documented] at hd
    rw [YMap.OK] at ho
    rw [YMap.bare, YMap.items, List.map_cons] at hn hk
    rw [List.nodup_cons] at hn
    rw [YMap.Shows] at hs
    by_cases e : k = k'
    · subst e
      exact told_first (r := r) (by rw [YMap.items]) rfl hd.1 hd.2.2 hn.1 ho.2.1.1 hs.1
    · refine told_rest (r := r) (by rw [YMap.items]) rfl hd.1 e (YMap_told T w r _ none hd.2.2 ho.2.2.2.2 hn.2 hs.2.2 k ?_)
      exact (List.mem_cons.mp hk).resolve_left e
  | .text k' ls r, i, p, hd, ho, hn, hs, k, hk => by
    rw [YMap.Documented] at hd
    rw [YMap.OK] at ho
    obtain ⟨⟨key, rfl, hf⟩, hd⟩ := hd
    rw [YMap.bare, if_pos (hidden_prefix key)] at hn hk
    rw [YMap.Shows] at hs
    obtain ⟨j, rest, o, h0, h1, h2⟩ := YMap_told T w r i (some ls) hd ho.2.2.2 hn hs k hk
    refine ⟨j, rest, o, h0, h1, fun text => ?_⟩
    rw [← h2 text, YMap.items, hf, List.mem_cons]
    constructor
    · rintro ((h | h) | ⟨h, _⟩)
      · injection h with h h'
        have := List.append_cancel_left h
        subst this
        injection h' with _ h'
        injection h' with h'
        exact .inr ⟨rfl, ls, rfl, h'⟩
      · exact .inl h
      · cases h
    · rintro (h | ⟨h, ls', h', h''⟩)
      · exact .inl (.inr h)
      · injection h with h
        injection h' with h'
        subst h h' h''
        exact .inl (.inl rfl)

/-- Lines of keys in the first column are recognised if the key begins with a letter. -/
theorem keyLine_word {U : Uni} {w : Nat} {k rest : Str} (hk : PlainWord k) (hp : PrintedLine rest) :
    KeyLine U false (blanks w ++ (k ++ ':' :: rest)) k ↔ k.head? ≠ some '_' := by
  have htab : '\t' ∉ blanks w ++ (k ++ ':' :: rest) := printed_noTab (good_key hk hp).1
  obtain ⟨⟨c, r, rfl, hdig⟩, hall, _⟩ := id hk
  have hc := hall c (by simp)
  have hc' := yamlChar_ascii c hc
  have hv : visibleText (blanks w ++ (c :: r ++ ':' :: rest)) = c :: (r ++ ':' :: rest) := by
    rw [List.cons_append] at htab ⊢
    exact visible_blanks htab hc'.2.1
  have hasc : isAscii c = true := by
    unfold yamlChar at hc; simp only [Bool.and_eq_true] at hc; exact hc.1
  have halpha : U.isAlpha c = true ↔ c ≠ '_' := by
    rw [U.alpha_ascii c hasc]
    unfold yamlChar Char.isAlphanum at hc
    rw [hdig] at hc
    simp only [Bool.and_eq_true, Bool.or_eq_true, beq_iff_eq, Bool.false_eq_true, or_false] at hc
    constructor
    · rintro h rfl; revert h; decide
    · exact fun h => hc.2.resolve_right h
  constructor
  · rintro ⟨_, ⟨c', r', h1, h2⟩, _⟩ he
    rw [hv] at h1
    injection h1 with h1 _
    subst h1
    injection he with he
    subst he
    rcases h2 with h2 | h2
    · exact halpha.mp h2 rfl
    · exact absurd h2 (by decide)
  · intro h
    have hb : lineBody (blanks w ++ (c :: r ++ ':' :: rest)) = c :: r ++ ':' :: rest := by
      unfold lineBody
      rw [hv]
      split
      · rename_i e; injection e with e _; exact absurd e hc'.2.2.2.2.1
      · rfl
    refine ⟨by simp, ⟨c, _, hv, .inl (halpha.mpr fun e => h (by rw [e]; rfl))⟩, (fun h => by cases h), (c :: r).length, ?_, ?_, ?_, ?_⟩ <;> rw [hb]
    · simp
    · unfold Unquoted quotesBefore
      rw [List.take_left' rfl]
      have : (c :: r).countP (fun c => c == '\'' || c == '"') = 0 := by
        rw [List.countP_eq_zero]
        intro d hd
        have := (yamlChar_ascii _ (hk.char hd)).2.2.1
        simpa [isQuote] using this
      rw [this]
    · intro j hj hj'
      rw [List.getElem?_append_left hj] at hj'
      exact absurd rfl (yamlChar_ascii _ (hk.char (List.mem_of_getElem? hj'))).2.2.2.1
    · refine (key_found hk (i := (c :: r).length) (rest := rest) (key := unquote ((c :: r ++ ':' :: rest).take (c :: r).length)) (by simp) ?_ rfl).symm
      intro j hj hj'
      rw [List.getElem?_append_left hj] at hj'
      exact absurd rfl (yamlChar_ascii _ (hk.char (List.mem_of_getElem? hj'))).2.2.2.1

theorem words_of_map : ∀ m : YMap, m.OK → ∀ k ∈ m.items.map (·.1), PlainWord k
  | .nil, _, k, hk => by rw [YMap.items] at hk; cases hk
  | .note l r, ho, k, hk => by
    rw [YMap.OK] at ho
    rw [YMap.items] at hk
    exact words_of_map r ho.2 k hk
  | .scalar k' s t r, ho, k, hk => by
    rw [YMap.OK] at ho
    rw [YMap.items, List.map_cons, List.mem_cons] at hk
    rcases hk with rfl | hk
    · exact ho.1
    · exact words_of_map r ho.2.2.2 k hk
  | .map k' t st v r, ho, k, hk => by
    rw [YMap.OK] at ho
    rw [YMap.items, List.map_cons, List.mem_cons] at hk
    rcases hk with rfl | hk
    · exact ho.1
    · exact words_of_map r ho.2.2.2.2.2.2 k hk
  | .seq k' t st v r, ho, k, hk => by
    rw [YMap.OK] at ho
    rw [YMap.items, List.map_cons, List.mem_cons] at hk
    rcases hk with rfl | hk
    · exact ho.1
    · exact words_of_map r ho.2.2.2.2 k hk
  | .text k' ls r, ho, k, hk => by
    rw [YMap.OK] at ho
    rw [YMap.items, List.map_cons, List.mem_cons] at hk
    rcases hk with rfl | hk
    · exact ho.1
    · exact words_of_map r ho.2.2.2 k hk

theorem visible_words : ∀ m : YMap, m.Documented → visible (m.items.map (·.1)) = m.bare.items.map (·.1)
  | .nil, _ => by rw [YMap.bare, YMap.items]; rfl
  | .note l r, h => by
    rw [YMap.Documented] at h
    rw [YMap.bare, YMap.items, YMap.items]
    exact visible_words r h
  | .scalar k s t r, h => by
    rw [YMap.Documented] at h
    rw [YMap.bare, YMap.items, YMap.items, List.map_cons, List.map_cons, ← visible_words r h.2]
    exact List.filter_cons_of_pos (by have := h.1; unfold Key.hidden at this; simp [this])
  | .map k t st v r, h => by
    rw [YMap.Documented] at h
    rw [YMap.bare, YMap.items, YMap.items, List.map_cons, List.map_cons, ← visible_words r h.2.2]
    exact List.filter_cons_of_pos (by have := h.1; unfold Key.hidden at this; simp [this])
  | .seq k t st v r, h => by
    rw [YMap.Documented] at h
    rw [YMap.bare, YMap.items, YMap.items, List.map_cons, List.map_cons, ← visible_words r h.2.2]
    exact List.filter_cons_of_pos (by have := h.1; unfold Key.hidden at this; simp [this])
  | .text k ls r, h => by
    rw [YMap.Documented] at h
    obtain ⟨⟨key, rfl, _⟩, h⟩ := h
    rw [YMap.bare, if_pos (hidden_prefix key), YMap.items, List.map_cons, ← visible_words r h]
    exact List.filter_cons_of_neg (by have := hidden_prefix key; unfold Key.hidden at this; simp [this])

theorem printed_oneLine {l : Str} (h : PrintedLine l) : OneLine l := by
  intro c hc
  have := h c hc
  unfold Printed at this
  cases hb : isLineBreak c with
  | false => rfl
  | true =>
    exfalso
    unfold isLineBreak at hb
    simp only [Bool.or_eq_true, Bool.and_eq_true, decide_eq_true_eq, beq_iff_eq] at hb
    omega

theorem YDoc_text_lines {d : YDoc} (ho : d.OK) (hp : d.Plain) : splitlines d.text = d.lines := by
  have := splitlines_unlines (F := d.lines) (fun x hx => printed_oneLine (doc_good ho hp x hx).1) []
  rw [List.append_nil] at this
  exact this.trans (List.append_nil _)

theorem plainWord_ident {k : Str} (h : PlainWord k) : (∀ c ∈ k, isAscii c = true) ∧ AsciiIdent k := by
  have cls : ∀ c, yamlChar c = true → isAscii c = true ∧ (c.isAlpha = true ∨ c.isDigit = true ∨ c = '_') := by
    intro c hc
    unfold yamlChar Char.isAlphanum at hc
    simp only [Bool.and_eq_true, Bool.or_eq_true, beq_iff_eq] at hc
    exact ⟨hc.1, or_assoc.mp hc.2⟩
  refine ⟨fun c hc => (cls c (h.char hc)).1, ?_⟩
  obtain ⟨⟨c, r, rfl, hd⟩, hall, _⟩ := h
  refine ⟨c, r, rfl, ?_, fun d hd => (cls d (hall d (by simp [hd]))).2⟩
  rcases (cls c (hall c (by simp))).2 with h | h | h
  · exact .inl h
  · rw [hd] at h; cases h
  · exact .inr h

theorem hidden_text : ∀ m : YMap, m.Documented → ∀ kv ∈ m.items, (Key.str kv.1).hidden = true → ∃ text, kv.2 = .inst .str (some text)
  | .nil, _, kv, hk, _ => by rw [YMap.items] at hk; cases hk
  | .note l r, h, kv, hk, hh => by
    rw [YMap.Documented] at h
    rw [YMap.items] at hk
    exact hidden_text r h kv hk hh
  | .scalar k s t r, h, kv, hk, hh => by
    rw [YMap.Documented] at h
    rw [YMap.items, List.mem_cons] at hk
    rcases hk with rfl | hk
    · rw [h.1] at hh; cases hh
    · exact hidden_text r h.2 kv hk hh
  | .map k t st v r, h, kv, hk, hh => by
    rw [YMap.Documented] at h
    rw [YMap.items, List.mem_cons] at hk
    rcases hk with rfl | hk
    · rw [h.1] at hh; cases hh
    · exact hidden_text r h.2.2 kv hk hh
  | .seq k t st v r, h, kv, hk, hh => by
    rw [YMap.Documented] at h
    rw [YMap.items, List.mem_cons] at hk
    rcases hk with rfl | hk
    · rw [h.1] at hh; cases hh
    · exact hidden_text r h.2.2 kv hk hh
  | .text k ls r, h, kv, hk, hh => by
    rw [YMap.Documented] at h
    rw [YMap.items, List.mem_cons] at hk
    rcases hk with rfl | hk
    · exact ⟨_, rfl⟩
    · exact hidden_text r h.2 kv hk hh

theorem zip_items (l : Dct) : (l.map (·.1)).zip (l.map (·.2)) = l := by
  induction l with
  | nil => rfl
  | cons a l ih => rw [List.map_cons, List.map_cons, List.zip_cons_cons, ih]

end Verif
