import Verif.Lemmas.YamlShown
import Verif.Lemmas.YamlInner
import Verif.Spec.YamlRows
import Verif.Spec.InnerRows
import Verif.Lemmas.Imports
/-
Helper lemmas about lists of mappings in YAML documents.
-/
namespace Verif
open Verif.Spec

/-- What is known of the key `k`: the number of its line, the line, and its text block. -/
def ToldAt (T : Nat → Str → Str → Option (List Str) → Prop) (start : Str) (w i : Nat) (m : YMap) (p : Option (List Str)) (k : Str) : Prop :=
  ∃ j st rest o, (k, j) ∈ m.bare.keyRows w i ∧ (st = start ∨ (st = blanks w ∧ i < j)) ∧ PrintedLine rest ∧ T j (st ++ (k ++ ':' :: rest)) k o ∧
    ∀ text, ((hiddenPrefix ++ k, Val.inst .str (some text)) ∈ m.items ∨ (m.firstKey = some k ∧ ∃ ls, p = some ls ∧ text = blockValue ls)) ↔
      ∃ ls, o = some ls ∧ text = blockValue ls

theorem keyRows_from (w : Nat) {k : Str} {j : Nat} : ∀ (m : YMap) (i : Nat), (k, j) ∈ m.keyRows w i → i ≤ j
  | .nil, _, h => by rw [YMap.keyRows] at h; cases h
  | .note _ r, i, h => by rw [YMap.keyRows] at h; have := keyRows_from w r _ h; omega
  | .scalar _ _ _ r, i, h => by
    rw [YMap.keyRows] at h
    rcases List.mem_cons.mp h with e | h
    · injection e with _ e; omega
    · have := keyRows_from w r _ h; omega
  | .map _ _ _ _ r, i, h => by
    rw [YMap.keyRows] at h
    rcases List.mem_cons.mp h with e | h
    · injection e with _ e; omega
    · have := keyRows_from w r _ h; omega
  | .seq _ _ _ _ r, i, h => by
    rw [YMap.keyRows] at h
    rcases List.mem_cons.mp h with e | h
    · injection e with _ e; omega
    · have := keyRows_from w r _ h; omega
  | .text _ _ r, i, h => by
    rw [YMap.keyRows] at h
    rcases List.mem_cons.mp h with e | h
    · injection e with _ e; omega
    · have := keyRows_from w r _ h; omega

theorem toldAt_first {T : Nat → Str → Str → Option (List Str) → Prop} {start : Str} {w i : Nat} {m r : YMap} {p : Option (List Str)} {k rest : Str} {v : Val}
    (hrow : (k, i) ∈ m.bare.keyRows w i)
    (hm : m.items = (k, v) :: r.items) (hf : m.firstKey = some k) (hk : (Key.str k).hidden = false) (hr : r.Documented)
    (hn : k ∉ r.bare.items.map (·.1)) (hpr : PrintedLine rest) (ht : T i (start ++ (k ++ ':' :: rest)) k p) : ToldAt T start w i m p k := by
  refine ⟨i, start, rest, p, hrow, .inl rfl, hpr, ht, fun text => ?_⟩
  rw [hm]
  constructor
  · rintro (h | ⟨_, h⟩)
    · exfalso
      rcases List.mem_cons.mp h with h | h
      · injection h with h _
        exact hidden_ne hk h
      · obtain ⟨key, h1, h2, h3⟩ := YMap.owner r hr (hidden_prefix k) (List.mem_map.mpr ⟨_, h, rfl⟩)
        have := List.append_cancel_left h1
        subst this
        exact hn ((YMap.key_bare r hr k).mpr ⟨h2, h3⟩)
    · exact h
  · exact fun h => .inr ⟨hf, h⟩

theorem toldAt_rest {T : Nat → Str → Str → Option (List Str) → Prop} {start : Str} {w i i' : Nat} {m r : YMap} {p : Option (List Str)} {k k' : Str} {v : Val}
    (hlt : i < i') (hrow : ∀ x ∈ r.bare.keyRows w i', x ∈ m.bare.keyRows w i)
    (hm : m.items = (k', v) :: r.items) (hf : m.firstKey = some k') (hk : (Key.str k').hidden = false) (hne : k ≠ k')
    (h : ToldAt T (blanks w) w i' r none k) : ToldAt T start w i m p k := by
  obtain ⟨j, st, rest, o, hr, hst, h0, h1, h2⟩ := h
  refine ⟨j, st, rest, o, hrow _ hr, .inr ⟨hst.elim id (·.1), Nat.lt_of_lt_of_le hlt (keyRows_from w _ _ hr)⟩, h0, h1, fun text => ?_⟩
  rw [← h2 text, hm, hf, List.mem_cons]
  constructor
  · rintro ((h | h) | ⟨h, _⟩)
    · injection h with h _
      exact absurd h (hidden_ne hk)
    · exact .inl h
    · injection h with h
      exact absurd h.symm hne
  · rintro (h | ⟨_, ls, h, _⟩)
    · exact .inl (.inr h)
    · cases h

theorem YMap_toldAt (T : Nat → Str → Str → Option (List Str) → Prop) (w : Nat) : ∀ (m : YMap) (start : Str) (i : Nat) (p : Option (List Str)), m.Documented → m.OK →
    (m.bare.items.map (·.1)).Nodup → m.Shows T start w i p → ∀ k ∈ m.bare.items.map (·.1), ToldAt T start w i m p k
  | .nil, _, _, _, _, _, _, _, k, hk => by rw [YMap.bare, YMap.items] at hk; cases hk
  | .note l r, start, i, p, hd, ho, hn, hs, k, hk => by
    rw [YMap.Documented] at hd
    rw [YMap.OK] at ho
    rw [YMap.bare, YMap.items] at hn hk
    rw [YMap.Shows] at hs
    obtain ⟨j, st, rest, o, hr, hst, h0, h1, h2⟩ := YMap_toldAt T w r _ (i + 1) none hd ho.2 hn hs k hk
    refine ⟨j, st, rest, o, by rw [YMap.bare, YMap.keyRows]; exact hr, .inr ⟨hst.elim id (·.1), keyRows_from w _ _ hr⟩, h0, h1, fun text => ?_⟩
    rw [← h2 text, YMap.items]
    constructor
    · rintro (h | ⟨h, _⟩)
      · exact .inl h
      · cases h
    · rintro (h | ⟨_, ls, h, _⟩)
      · exact .inl h
      · cases h
  | .scalar k' s t r, start, i, p, hd, ho, hn, hs, k, hk => by
    rw [YMap.Documented] at hd
    rw [YMap.OK] at ho
    rw [YMap.bare, YMap.items, List.map_cons] at hn hk
    rw [List.nodup_cons] at hn
    rw [YMap.Shows] at hs
    by_cases e : k = k'
    · subst e
      exact toldAt_first (r := r) (by rw [YMap.bare, YMap.keyRows]; exact .head _) (by rw [YMap.items]) rfl hd.1 hd.2 hn.1 (scalar_rest ho.2.1 ho.2.2.1) hs.1
    · refine toldAt_rest (r := r) (by omega) (fun x hx => by rw [YMap.bare, YMap.keyRows]; exact .tail _ hx) (by rw [YMap.items]) rfl hd.1 e
        (YMap_toldAt T w r _ (i + 1) none hd.2 ho.2.2.2 hn.2 hs.2 k ?_)
      exact (List.mem_cons.mp hk).resolve_left e
  | .map k' t st v r, start, i, p, hd, ho, hn, hs, k, hk => by
    rw [YMap.Documented] at hd
    rw [YMap.OK] at ho
    rw [YMap.bare, YMap.items, List.map_cons] at hn hk
    rw [List.nodup_cons] at hn
    rw [YMap.Shows] at hs
    by_cases e : k = k'
    · subst e
      exact toldAt_first (r := r) (by rw [YMap.bare, YMap.keyRows]; exact .head _) (by rw [YMap.items]) rfl hd.1 hd.2.2 hn.1 ho.2.1.1 hs.1
    · refine toldAt_rest (r := r) (by omega) (fun x hx => by rw [YMap.bare, YMap.keyRows]; exact .tail _ hx) (by rw [YMap.items]) rfl hd.1 e
        (YMap_toldAt T w r _ _ none hd.2.2 ho.2.2.2.2.2.2 hn.2 hs.2.2 k ?_)
      exact (List.mem_cons.mp hk).resolve_left e
  | .seq k' t st v r, start, i, p, hd, ho, hn, hs, k, hk => by
    rw [YMap.Documented] at hd
    rw [YMap.OK] at ho
    rw [YMap.bare, YMap.items, List.map_cons] at hn hk
    rw [List.nodup_cons] at hn
    rw [YMap.Shows] at hs
    by_cases e : k = k'
    · subst e
      exact toldAt_first (r := r) (by rw [YMap.bare, YMap.keyRows]; exact .head _) (by rw [YMap.items]) rfl hd.1 hd.2.2 hn.1 ho.2.1.1 hs.1
    · refine toldAt_rest (r := r) (by omega) (fun x hx => by rw [YMap.bare, YMap.keyRows]; exact .tail _ hx) (by rw [YMap.items]) rfl hd.1 e
        (YMap_toldAt T w r _ _ none hd.2.2 ho.2.2.2.2 hn.2 hs.2.2 k ?_)
      exact (List.mem_cons.mp hk).resolve_left e
  | .text k' ls r, start, i, p, hd, ho, hn, hs, k, hk => by
    rw [YMap.Documented] at hd
    rw [YMap.OK] at ho
    obtain ⟨⟨key, rfl, hf⟩, hd⟩ := hd
    rw [YMap.bare, if_pos (hidden_prefix key)] at hn hk
    rw [YMap.Shows] at hs
    obtain ⟨j, st, rest, o, hr, hst, h0, h1, h2⟩ := YMap_toldAt T w r start i (some ls) hd ho.2.2.2 hn hs k hk
    refine ⟨j, st, rest, o, by rw [YMap.bare, if_pos (hidden_prefix key)]; exact hr, hst, h0, h1, fun text => ?_⟩
    rw [← h2 text, YMap.items, hf, List.mem_cons]
    constructor
    · rintro ((h | h) | ⟨h, _⟩)
      · injection h with h h'
        have := List.append_cancel_left h
        subst this
        injection h' with _ h'
        injection h' with h'
        exact .inr ⟨rfl, ls, rfl, h'⟩
      · exact .inl h
      · cases h
    · rintro (h | ⟨h, ls', h', h''⟩)
      · exact .inl (.inr h)
      · injection h with h
        injection h' with h'
        subst h h' h''
        exact .inl (.inl rfl)

/-- In a list item the line of the first key is always recognised. -/
theorem keyLine_dash {U : Uni} {w : Nat} {k rest : Str} (hk : PlainWord k) (hp : PrintedLine rest) :
    KeyLine U false (blanks w ++ py!"- " ++ (k ++ ':' :: rest)) k := by
  have hk0 : PrintedLine (blanks w ++ (k ++ ':' :: rest)) := (good_key hk hp).1
  have htab : '\t' ∉ blanks w ++ '-' :: (' ' :: (k ++ ':' :: rest)) := by
    have := printed_noTab hk0
    simp only [List.mem_append, List.mem_cons, not_or] at this ⊢
    exact ⟨this.1, by decide, by decide, this.2⟩
  have e : blanks w ++ py!"- " ++ (k ++ ':' :: rest) = blanks w ++ '-' :: (' ' :: (k ++ ':' :: rest)) := by simp
  rw [e]
  have hv : visibleText (blanks w ++ '-' :: (' ' :: (k ++ ':' :: rest))) = '-' :: (' ' :: (k ++ ':' :: rest)) := visible_blanks htab (by decide)
  have hne : k ≠ [] := by obtain ⟨⟨c, r, rfl, _⟩, _⟩ := hk; simp
  have hb : lineBody (blanks w ++ '-' :: (' ' :: (k ++ ':' :: rest))) = k ++ ':' :: rest := by
    unfold lineBody
    rw [hv]
    obtain ⟨⟨c, r, rfl, hdig⟩, hall, _⟩ := id hk
    have hc' := yamlChar_ascii c (hall c (by simp))
    show lstrip (' ' :: (c :: r ++ ':' :: rest)) = _
    exact lstrip_blanks 1 hc'.2.1
  refine ⟨hne, ⟨'-', _, hv, .inr rfl⟩, (fun h => by cases h), k.length, ?_, ?_, ?_, ?_⟩ <;> rw [hb]
  · simp
  · unfold Unquoted quotesBefore
    rw [List.take_left' rfl]
    have : k.countP (fun c => c == '\'' || c == '"') = 0 := by
      rw [List.countP_eq_zero]
      intro d hd
      have := (yamlChar_ascii _ (hk.char hd)).2.2.1
      simpa [isQuote] using this
    rw [this]
  · intro j hj hj'
    rw [List.getElem?_append_left hj] at hj'
    exact absurd rfl (yamlChar_ascii _ (hk.char (List.mem_of_getElem? hj'))).2.2.2.1
  · refine (key_found hk (i := k.length) (rest := rest) (key := unquote ((k ++ ':' :: rest).take k.length)) (by simp) ?_ rfl).symm
    intro j hj hj'
    rw [List.getElem?_append_left hj] at hj'
    exact absurd rfl (yamlChar_ascii _ (hk.char (List.mem_of_getElem? hj'))).2.2.2.1

theorem keyRows_keys (w : Nat) : ∀ (m : YMap) (i : Nat), (m.keyRows w i).map (·.1) = m.items.map (·.1)
  | .nil, _ => by rw [YMap.keyRows, YMap.items]; rfl
  | .note _ r, i => by rw [YMap.keyRows, YMap.items]; exact keyRows_keys w r _
  | .scalar _ _ _ r, i => by rw [YMap.keyRows, YMap.items, List.map_cons, List.map_cons, keyRows_keys w r]
  | .map _ _ _ _ r, i => by rw [YMap.keyRows, YMap.items, List.map_cons, List.map_cons, keyRows_keys w r]
  | .seq _ _ _ _ r, i => by rw [YMap.keyRows, YMap.items, List.map_cons, List.map_cons, keyRows_keys w r]
  | .text _ _ r, i => by rw [YMap.keyRows, YMap.items, List.map_cons, List.map_cons, keyRows_keys w r]

theorem row_unique {α β : Type} : ∀ {l : List (α × β)}, (l.map (·.1)).Nodup → ∀ {k : α} {j j' : β}, (k, j) ∈ l → (k, j') ∈ l → j = j'
  | [], _, _, _, _, h, _ => by cases h
  | a :: l, hn, k, j, j', h, h' => by
    rw [List.map_cons, List.nodup_cons] at hn
    rcases List.mem_cons.mp h with e | h
    · rcases List.mem_cons.mp h' with e' | h'
      · rw [← e] at e'; injection e' with _ e'; exact e'.symm
      · exact absurd (List.mem_map.mpr ⟨_, h', by rw [← e]⟩) hn.1
    · rcases List.mem_cons.mp h' with e' | h'
      · exact absurd (List.mem_map.mpr ⟨_, h, by rw [← e']⟩) hn.1
      · exact row_unique hn.2 h h'

/-- The row of the document with text blocks that belongs to the row of the document. -/
structure RowOf (T : Nat → Str → Str → Option (List Str) → Prop) (w : Nat) (row : Nat × YMap) (m : YMap) : Prop where
  bare : m.bare = row.2
  doc : m.Documented
  ok : m.OK
  nodup : (m.items.map (·.1)).Nodup
  shows : m.Shows T (blanks w ++ py!"- ") (w + 2) row.1 none

theorem RowOf.shown {T : Nat → Str → Str → Option (List Str) → Prop} {w : Nat} {row : Nat × YMap} {m : YMap} (h : RowOf T w row m) :
    shown m.items = row.2.items.map (·.1) := by
  rw [← h.bare]; exact visible_words m h.doc

theorem RowOf.words {T : Nat → Str → Str → Option (List Str) → Prop} {w : Nat} {row : Nat × YMap} {m : YMap} (h : RowOf T w row m) :
    ∀ k ∈ row.2.items.map (·.1), PlainWord k := by
  rw [← h.bare]; exact fun k hk => words_of_map m h.ok k ((YMap.key_bare m h.doc k).mp hk).1

theorem rows_of (T : Nat → Str → Str → Option (List Str) → Prop) (w : Nat) : ∀ (s : YSeq) (i : Nat), s.Documented → s.OK → s.bare.OnlyMaps → s.Shows T w i →
    ∃ ms : List YMap, s.elems = (ms.map (·.items)).map dictOf ∧ All₂ (RowOf T w) (s.bare.rowsAt w i) ms
  | .nil, _, _, _, _, _ => ⟨[], by rw [YSeq.elems]; rfl, by rw [YSeq.bare, YSeq.rowsAt]; exact .nil⟩
  | .note l r, i, hd, ho, hm, hs => by
    rw [YSeq.Documented] at hd
    rw [YSeq.OK] at ho
    rw [YSeq.bare, YSeq.OnlyMaps] at hm
    rw [YSeq.Shows] at hs
    rw [YSeq.elems, YSeq.bare, YSeq.rowsAt]
    exact rows_of T w r _ hd ho.2 hm hs
  | .scalar _ _ _, i, hd, ho, hm, hs => by rw [YSeq.bare, YSeq.OnlyMaps] at hm; exact hm.elim
  | .map v r, i, hd, ho, hm, hs => by
    rw [YSeq.Documented] at hd
    rw [YSeq.OK] at ho
    rw [YSeq.bare, YSeq.OnlyMaps] at hm
    rw [YSeq.Shows] at hs
    obtain ⟨ms, h1, h2⟩ := rows_of T w r _ hd.2 ho.2.2.2 hm hs.2
    refine ⟨v :: ms, by rw [YSeq.elems, h1]; rfl, ?_⟩
    rw [YSeq.bare, YSeq.rowsAt]
    exact .cons ⟨rfl, hd.1, ho.2.2.1, ho.2.1, hs.1⟩ h2

/-- The mappings that are entries of the document with text blocks. -/
theorem YMap_sub_find (T : Nat → Str → Str → Option (List Str) → Prop) (w : Nat) : ∀ (m : YMap) (start : Str) (i : Nat) (p : Option (List Str)),
    m.Documented → m.OK → m.Shows T start w i p → ∀ before x after, m.bare.subsAt w i = before ++ x :: after →
    ∃ v : YMap, v.bare = x.2.2.2 ∧ (Key.str x.1).hidden = false ∧ v.Documented ∧ v.OK ∧ (v.items.map (·.1)).Nodup ∧ v.Shows T (blanks x.2.1) x.2.1 x.2.2.1 none ∧
      ∃ pre post, m.items = pre ++ (x.1, dictOf v.items) :: post ∧ ∀ kv ∈ pre, ∀ t ks vs, kv.2 = .map .dict t ks vs → ∃ b ∈ before, ∃ u : YMap, u.bare = b.2.2.2 ∧ u.Documented ∧ kv.2 = dictOf u.items
  | .nil, _, _, _, _, _, _, before, x, after, h => by rw [YMap.bare, YMap.subsAt] at h; simp at h
  | .note l r, _, i, p, hd, ho, hs, before, x, after, h => by
    rw [YMap.Documented] at hd
    rw [YMap.OK] at ho
    rw [YMap.Shows] at hs
    rw [YMap.bare, YMap.subsAt] at h
    rw [YMap.items]
    exact YMap_sub_find T w r _ _ _ hd ho.2 hs before x after h
  | .scalar k y t r, _, i, p, hd, ho, hs, before, x, after, h => by
    rw [YMap.Documented] at hd
    rw [YMap.OK] at ho
    rw [YMap.Shows] at hs
    rw [YMap.bare, YMap.subsAt] at h
    obtain ⟨v', a1, a2, a3, a4, a5, a6, pre, post, e, hp⟩ := YMap_sub_find T w r _ _ _ hd.2 ho.2.2.2 hs.2 before x after h
    refine ⟨v', a1, a2, a3, a4, a5, a6, (k, y.value) :: pre, post, by rw [YMap.items, e]; rfl, fun kv hkv a b c hv => ?_⟩
    rcases List.mem_cons.mp hkv with rfl | hkv
    · exact absurd hv (scalar_no_dict y _ _ _)
    · exact hp kv hkv a b c hv
  | .map k t st v r, _, i, p, hd, ho, hs, before, x, after, h => by
    rw [YMap.Documented] at hd
    rw [YMap.OK] at ho
    rw [YMap.Shows] at hs
    rw [YMap.bare, YMap.subsAt] at h
    cases before with
    | nil =>
      injection h with h1 h2
      subst h1
      exact ⟨v, rfl, hd.1, hd.2.1, ho.2.2.2.2.2.1, ho.2.2.2.2.1, hs.2.1, [], r.items, by rw [YMap.items]; rfl, fun kv hkv => by cases hkv⟩
    | cons b before =>
      injection h with h1 h2
      subst h1
      obtain ⟨v', a1, a2, a3, a4, a5, a6, pre, post, e, hp⟩ := YMap_sub_find T w r _ _ _ hd.2.2 ho.2.2.2.2.2.2 hs.2.2 before x after h2
      refine ⟨v', a1, a2, a3, a4, a5, a6, (k, dictOf v.items) :: pre, post, by rw [YMap.items, e]; rfl, fun kv hkv a b c hv => ?_⟩
      rcases List.mem_cons.mp hkv with rfl | hkv
      · exact ⟨_, List.mem_cons_self .., v, rfl, hd.2.1, rfl⟩
      · obtain ⟨b, hb, h⟩ := hp kv hkv a b c hv
        exact ⟨b, List.mem_cons_of_mem _ hb, h⟩
  | .seq k t st v r, _, i, p, hd, ho, hs, before, x, after, h => by
    rw [YMap.Documented] at hd
    rw [YMap.OK] at ho
    rw [YMap.Shows] at hs
    rw [YMap.bare, YMap.subsAt] at h
    obtain ⟨v', a1, a2, a3, a4, a5, a6, pre, post, e, hp⟩ := YMap_sub_find T w r _ _ _ hd.2.2 ho.2.2.2.2 hs.2.2 before x after h
    refine ⟨v', a1, a2, a3, a4, a5, a6, (k, .seq .list .list v.elems) :: pre, post, by rw [YMap.items, e]; rfl, fun kv hkv a b c hv => ?_⟩
    rcases List.mem_cons.mp hkv with rfl | hkv
    · cases hv
    · exact hp kv hkv a b c hv
  | .text k ls r, _, i, p, hd, ho, hs, before, x, after, h => by
    rw [YMap.Documented] at hd
    rw [YMap.OK] at ho
    rw [YMap.Shows] at hs
    obtain ⟨⟨key, rfl, hf⟩, hd⟩ := hd
    rw [YMap.bare, if_pos (hidden_prefix key)] at h
    obtain ⟨v', a1, a2, a3, a4, a5, a6, pre, post, e, hp⟩ := YMap_sub_find T w r _ _ _ hd ho.2.2.2 hs before x after h
    refine ⟨v', a1, a2, a3, a4, a5, a6, (_, .inst .str (some (join py!"\n" ls ++ py!"\n"))) :: pre, post, by rw [YMap.items, e]; rfl, fun kv hkv a b c hv => ?_⟩
    rcases List.mem_cons.mp hkv with rfl | hkv
    · cases hv
    · exact hp kv hkv a b c hv

/-- The sequences that are entries of the document with text blocks. -/
theorem YMap_seq_find (T : Nat → Str → Str → Option (List Str) → Prop) (w : Nat) : ∀ (m : YMap) (start : Str) (i : Nat) (p : Option (List Str)),
    m.Documented → m.OK → m.Shows T start w i p → ∀ before x after, m.bare.seqsAt w i = before ++ x :: after →
    ∃ v : YSeq, v.bare = x.2.2.2 ∧ (Key.str x.1).hidden = false ∧ v.Documented ∧ v.OK ∧ v.elems ≠ [] ∧ v.Shows T x.2.1 x.2.2.1 ∧
      ∃ pre post, m.items = pre ++ (x.1, .seq .list .list v.elems) :: post ∧ ∀ kv ∈ pre, ∀ kd t es, kv.2 = .seq kd t es → ∃ b ∈ before, ∃ u : YSeq, u.bare = b.2.2.2 ∧ u.Documented ∧ es = u.elems
  | .nil, _, _, _, _, _, _, before, x, after, h => by rw [YMap.bare, YMap.seqsAt] at h; simp at h
  | .note l r, _, i, p, hd, ho, hs, before, x, after, h => by
    rw [YMap.Documented] at hd
    rw [YMap.OK] at ho
    rw [YMap.Shows] at hs
    rw [YMap.bare, YMap.seqsAt] at h
    rw [YMap.items]
    exact YMap_seq_find T w r _ _ _ hd ho.2 hs before x after h
  | .scalar k y t r, _, i, p, hd, ho, hs, before, x, after, h => by
    rw [YMap.Documented] at hd
    rw [YMap.OK] at ho
    rw [YMap.Shows] at hs
    rw [YMap.bare, YMap.seqsAt] at h
    obtain ⟨v', a1, a2, a3, a4, a5, a6, pre, post, e, hp⟩ := YMap_seq_find T w r _ _ _ hd.2 ho.2.2.2 hs.2 before x after h
    refine ⟨v', a1, a2, a3, a4, a5, a6, (k, y.value) :: pre, post, by rw [YMap.items, e]; rfl, fun kv hkv a b c hv => ?_⟩
    rcases List.mem_cons.mp hkv with rfl | hkv
    · cases y <;> cases hv
    · exact hp kv hkv a b c hv
  | .map k t st v r, _, i, p, hd, ho, hs, before, x, after, h => by
    rw [YMap.Documented] at hd
    rw [YMap.OK] at ho
    rw [YMap.Shows] at hs
    rw [YMap.bare, YMap.seqsAt] at h
    obtain ⟨v', a1, a2, a3, a4, a5, a6, pre, post, e, hp⟩ := YMap_seq_find T w r _ _ _ hd.2.2 ho.2.2.2.2.2.2 hs.2.2 before x after h
    refine ⟨v', a1, a2, a3, a4, a5, a6, (k, dictOf v.items) :: pre, post, by rw [YMap.items, e]; rfl, fun kv hkv a b c hv => ?_⟩
    rcases List.mem_cons.mp hkv with rfl | hkv
    · rw [dictOf_shape] at hv; cases hv
    · exact hp kv hkv a b c hv
  | .seq k t st v r, _, i, p, hd, ho, hs, before, x, after, h => by
    rw [YMap.Documented] at hd
    rw [YMap.OK] at ho
    rw [YMap.Shows] at hs
    rw [YMap.bare, YMap.seqsAt] at h
    cases before with
    | nil =>
      injection h with h1 h2
      subst h1
      exact ⟨v, rfl, hd.1, hd.2.1, ho.2.2.2.1, ho.2.2.1, hs.2.1, [], r.items, by rw [YMap.items]; rfl, fun kv hkv => by cases hkv⟩
    | cons b before =>
      injection h with h1 h2
      subst h1
      obtain ⟨v', a1, a2, a3, a4, a5, a6, pre, post, e, hp⟩ := YMap_seq_find T w r _ _ _ hd.2.2 ho.2.2.2.2 hs.2.2 before x after h2
      refine ⟨v', a1, a2, a3, a4, a5, a6, (k, .seq .list .list v.elems) :: pre, post, by rw [YMap.items, e]; rfl, fun kv hkv a b c hv => ?_⟩
      rcases List.mem_cons.mp hkv with rfl | hkv
      · exact ⟨_, List.mem_cons_self .., v, rfl, hd.2.1, (by injection hv with _ _ hv; exact hv.symm)⟩
      · obtain ⟨b, hb, h⟩ := hp kv hkv a b c hv
        exact ⟨b, List.mem_cons_of_mem _ hb, h⟩
  | .text k ls r, _, i, p, hd, ho, hs, before, x, after, h => by
    rw [YMap.Documented] at hd
    rw [YMap.OK] at ho
    rw [YMap.Shows] at hs
    obtain ⟨⟨key, rfl, hf⟩, hd⟩ := hd
    rw [YMap.bare, if_pos (hidden_prefix key)] at h
    obtain ⟨v', a1, a2, a3, a4, a5, a6, pre, post, e, hp⟩ := YMap_seq_find T w r _ _ _ hd ho.2.2.2 hs before x after h
    refine ⟨v', a1, a2, a3, a4, a5, a6, (_, .inst .str (some (join py!"\n" ls ++ py!"\n"))) :: pre, post, by rw [YMap.items, e]; rfl, fun kv hkv a b c hv => ?_⟩
    rcases List.mem_cons.mp hkv with rfl | hkv
    · cases hv
    · exact hp kv hkv a b c hv

theorem only_scalars_inst : ∀ u : YSeq, u.bare.OnlyScalars → ∀ e ∈ u.elems, ∃ ty x, e = .inst ty x
  | .nil, _, e, h => by rw [YSeq.elems] at h; cases h
  | .note _ r, ho, e, h => by
    rw [YSeq.bare, YSeq.OnlyScalars] at ho
    rw [YSeq.elems] at h
    exact only_scalars_inst r ho e h
  | .scalar y _ r, ho, e, h => by
    rw [YSeq.bare, YSeq.OnlyScalars] at ho
    rw [YSeq.elems] at h
    rcases List.mem_cons.mp h with rfl | h
    · cases y <;> exact ⟨_, _, rfl⟩
    · exact only_scalars_inst r ho e h
  | .map _ _, ho, e, h => by rw [YSeq.bare, YSeq.OnlyScalars] at ho; exact ho.elim

/-- A list of mappings inside a document is a list of dictionaries inside its data. -/
theorem inner_rows (T : Nat → Str → Str → Option (List Str) → Prop) {w i w1 i1 : Nat} {m : YMap} {s : YSeq} (h : InnerSeq w i m w1 i1 s) (hmaps : s.OnlyMaps) :
    ∀ m' : YMap, m'.bare = m → m'.Documented → m'.OK → (m'.items.map (·.1)).Nodup → m'.Shows T (blanks w) w i none →
    ∃ ms : List YMap, All₂ (RowOf T w1) (s.rowsAt w1 i1) ms ∧ InnerRows (dictOf m'.items) .list (ms.map (·.items)) := by
  induction h with
  | @last w i w1 i1 m s k before after hsub hsep =>
    intro m' e hd ho hn hs
    subst e
    obtain ⟨s', a1, a2, a3, a4, a5, a6, pre, post, c1, c2⟩ := YMap_seq_find T w m' _ i none hd ho hs _ _ _ hsub
    dsimp only at a1 a2 a6 c1
    subst a1
    obtain ⟨ms, b1, b2⟩ := rows_of T w1 s' i1 a3 a4 hmaps a6
    refine ⟨ms, b2, ?_⟩
    rw [b1] at c1
    have hz := keyed_zip m'.items
    rw [dictOf_shape]
    refine .last (before := pre.map fun kv => (Key.str kv.1, kv.2)) (after := post.map fun kv => (Key.str kv.1, kv.2)) (key := .str k) (t' := .list)
      (by simp) ?_ (by simp) (by rw [hz, c1]; simp) a2 ?_ ?_ ?_
    · exact (List.pairwise_map.mpr (hn.imp fun hne e => hne (by injection e)))
    · intro e; rw [b1, e] at a5; exact a5 rfl
    · intro d hd
      obtain ⟨m, hm, rfl⟩ := List.mem_map.mp hd
      have : ∀ {l : List (Nat × YMap)} {l' : List YMap}, All₂ (RowOf T w1) l l' → ∀ m ∈ l', (m.items.map (·.1)).Nodup := by
        intro l l' h
        induction h with
        | nil => intro m hm; cases hm
        | cons r _ ih =>
          intro m hm
          rcases List.mem_cons.mp hm with rfl | hm
          · exact r.nodup
          · exact ih m hm
      exact this b2 m hm
    · intro k2 kd t2 es hm2 _
      obtain ⟨kv, hkv, e⟩ := List.mem_map.mp hm2
      injection e with e e'
      obtain ⟨b, hb, u, d1, _, rfl⟩ := c2 kv hkv _ _ _ e'
      exact only_scalars_inst u (d1 ▸ hsep b hb)
  | @step w i w' i' w1 i1 m v s k before after hsub hsep _ ih =>
    intro m' e hd ho hn hs
    subst e
    obtain ⟨v', a1, a2, a3, a4, a5, a6, pre, post, c1, c2⟩ := YMap_sub_find T w m' _ i none hd ho hs _ _ _ hsub
    dsimp only at a1 a2 a6 c1
    obtain ⟨ms, b1, b2⟩ := ih hmaps v' a1 a3 a4 a5 a6
    subst a1
    refine ⟨ms, b1, ?_⟩
    rw [dictOf_shape] at b2 c1 ⊢
    have hz := keyed_zip m'.items
    refine .step (before := pre.map fun kv => (Key.str kv.1, kv.2)) (after := post.map fun kv => (Key.str kv.1, kv.2)) (key := .str k)
      (by simp) ?_ (by simp) (by rw [hz, c1]; simp) a2 (by simp) ?_ b2
    · exact (List.pairwise_map.mpr (hn.imp fun hne e => hne (by injection e)))
    · intro k2 t2 keys2 vals2 hm2 _
      obtain ⟨kv, hkv, e⟩ := List.mem_map.mp hm2
      injection e with e e'
      obtain ⟨b, hb, u, d1, d3, d2⟩ := c2 kv hkv _ _ _ e'
      obtain ⟨x1, x2⟩ := dictOf_keys (e'.symm.trans d2)
      subst x1 x2
      refine ⟨by simp, fun hsame => hsep b hb fun key => ?_⟩
      rw [← d1, YMap.key_bare _ d3, YMap.key_bare _ a3]
      constructor
      · rintro ⟨h1, h2⟩
        have := (hsame (.str key) h2).mp (List.mem_map_of_mem h1)
        obtain ⟨x, hx, ex⟩ := List.mem_map.mp this
        injection ex with ex
        exact ⟨ex ▸ hx, h2⟩
      · rintro ⟨h1, h2⟩
        have := (hsame (.str key) h2).mpr (List.mem_map_of_mem h1)
        obtain ⟨x, hx, ex⟩ := List.mem_map.mp this
        injection ex with ex
        exact ⟨ex ▸ hx, h2⟩

theorem sideText_unique {line t t' : Str} (h : SideText line t) (h' : SideText line t') : t = t' := by
  rcases h with ⟨i, a1, a2, a3, a4, rfl⟩ | ⟨a, rfl⟩
  · rcases h' with ⟨j, b1, b2, b3, b4, rfl⟩ | ⟨b, rfl⟩
    · rcases Nat.lt_trichotomy i j with hij | rfl | hij
      · exact absurd a3 (b4 (i + 1) (by omega) a2)
      · rfl
      · exact absurd b3 (a4 (j + 1) (by omega) b2)
    · obtain ⟨j, hj, c1, c2⟩ := b i a1 a2 a3
      exact absurd c2 (a4 j hj c1)
  · rcases h' with ⟨j, b1, b2, b3, b4, rfl⟩ | ⟨b, rfl⟩
    · obtain ⟨i, hi, c1, c2⟩ := a j b1 b2 b3
      exact absurd c2 (b4 i hi c1)
    · rfl

theorem textOf_unique {U : Uni} {lines : List Str} {i : Nat} {line t t' : Str} {p : CommentsAre} (h : TextOf U lines i line p t) (h' : TextOf U lines i line p t') :
    t = t' := by
  cases p with
  | above => exact Eq.trans h (Eq.symm h')
  | below => exact Eq.trans h (Eq.symm h')
  | side => exact sideText_unique h h'

/-- The comments of a line are determined. -/
theorem textsOf_unique {U : Uni} {lines : List Str} {i : Nat} {line : Str} {cs : List CommentsAre} {ts : List Str} (h : TextsOf U lines i line cs ts) :
    ∀ {ts'}, TextsOf U lines i line cs ts' → ts = ts' := by
  induction h with
  | nil => intro ts' h'; cases h'; rfl
  | skip a _ ih =>
    intro ts' h'
    cases h' with
    | skip _ b => exact ih b
    | take b hne _ => exact absurd (textOf_unique b a) hne
  | take a hne _ ih =>
    intro ts' h'
    cases h' with
    | skip b _ => exact absurd (textOf_unique a b) hne
    | take b _ c => rw [textOf_unique a b, ih c]

end Verif
