import Verif.Spec.YamlData
import Verif.Lemmas.Yaml
/-
The data of documents with and without comments.
-/
namespace Verif
open Spec

theorem hidden_prefix (k : Str) : (Key.str (hiddenPrefix ++ k)).hidden = true := by
  simp [Key.hidden, startsWith, List.isPrefixOf_iff_prefix]

theorem Spec.YScalar.bareValue (s : YScalar) : withoutComments s.value = s.value := by
  cases s <;> rfl

/-- The values without comments, key by key. -/
theorem uncommented_cons {k : Key} {v : Val} {ks : List Key} {vs : List Val} :
    uncommented (k :: ks) (v :: vs) = if k.hidden then uncommented ks vs else (k, withoutComments v) :: uncommented ks vs := by
  rw [uncommented]

/-- The visible items, with keys as in values. -/
def keyed (d : Dct) : List (Key × Val) := d.map fun kv => (.str kv.1, kv.2)

theorem dictOf_bare {d d' : Dct} (h : uncommented (d.map fun kv => .str kv.1) (d.map (·.2)) = keyed d') : withoutComments (dictOf d) = dictOf d' := by
  unfold dictOf
  rw [withoutComments, h]
  · simp [keyed]
  · intro i h; cases h

mutual
theorem Spec.YMap.bare_items : ∀ m : YMap, m.Documented → uncommented (m.items.map fun kv => .str kv.1) (m.items.map (·.2)) = keyed m.bare.items
  | .nil, _ => by simp [YMap.items, YMap.bare, keyed, uncommented]
  | .note l r, h => by
    rw [YMap.Documented] at h
    rw [YMap.items, YMap.bare, YMap.items]; exact YMap.bare_items r h
  | .scalar k s t r, h => by
    rw [YMap.Documented] at h
    rw [YMap.items, YMap.bare, YMap.items, List.map_cons, List.map_cons, uncommented_cons, h.1, YMap.bare_items r h.2, YScalar.bareValue]; rfl
  | .map k t st v r, h => by
    rw [YMap.Documented] at h
    rw [YMap.items, YMap.bare, YMap.items, List.map_cons, List.map_cons, uncommented_cons, h.1, YMap.bare_items r h.2.2,
      dictOf_bare (YMap.bare_items v h.2.1)]; rfl
  | .seq k t st v r, h => by
    rw [YMap.Documented] at h
    rw [YMap.items, YMap.bare, YMap.items, List.map_cons, List.map_cons, uncommented_cons, h.1, YMap.bare_items r h.2.2,
      withoutComments, YSeq.bare_elems v h.2.1]; rfl
  | .text k ls r, h => by
    rw [YMap.Documented] at h
    obtain ⟨⟨key, rfl, _⟩, h⟩ := h
    rw [YMap.items, YMap.bare, List.map_cons, List.map_cons, uncommented_cons, hidden_prefix, if_pos rfl, if_pos rfl]
    exact YMap.bare_items r h
theorem Spec.YSeq.bare_elems : ∀ s : YSeq, s.Documented → withoutCommentsList s.elems = s.bare.elems
  | .nil, _ => by simp [YSeq.elems, YSeq.bare, withoutCommentsList]
  | .note l r, h => by
    rw [YSeq.Documented] at h
    rw [YSeq.elems, YSeq.bare, YSeq.elems]; exact YSeq.bare_elems r h
  | .scalar s t r, h => by
    rw [YSeq.Documented] at h
    rw [YSeq.elems, YSeq.bare, YSeq.elems, withoutCommentsList, YScalar.bareValue, YSeq.bare_elems r h]
  | .map v r, h => by
    rw [YSeq.Documented] at h
    rw [YSeq.elems, YSeq.bare, YSeq.elems, withoutCommentsList, dictOf_bare (YMap.bare_items v h.1), YSeq.bare_elems r h.2]
end

theorem Spec.YDoc.bare_value {d d' : YDoc} (h : d.Documents d') : withoutComments d'.value = d.value := by
  cases d <;> cases d' <;> simp only [YDoc.Documents] at h
  · rw [← h.1]; exact dictOf_bare (YMap.bare_items _ h.2)
  · rw [← h.1]
    show Val.seq _ _ (withoutCommentsList _) = Val.seq _ _ _
    rw [YSeq.bare_elems _ h.2]

/-! ### Keys -/

theorem visible_cons {k k' : Str} {P : Prop} (h : (Key.str k').hidden = false) :
    k = k' ∨ P ∧ (Key.str k).hidden = false ↔ (k = k' ∨ P) ∧ (Key.str k).hidden = false := by
  constructor
  · rintro (rfl | h')
    · exact ⟨.inl rfl, h⟩
    · exact ⟨.inr h'.1, h'.2⟩
  · rintro ⟨rfl | h', h2⟩
    · exact .inl rfl
    · exact .inr ⟨h', h2⟩

/-- The visible keys of the mapping are those of the document without comments. -/
theorem Spec.YMap.key_bare : ∀ m : YMap, m.Documented → ∀ k, k ∈ m.bare.items.map (·.1) ↔ k ∈ m.items.map (·.1) ∧ (Key.str k).hidden = false
  | .nil, _, k => by simp [YMap.items, YMap.bare]
  | .note l r, h, k => by
    rw [YMap.Documented] at h
    rw [YMap.items, YMap.bare, YMap.items]; exact YMap.key_bare r h k
  | .scalar k' s t r, h, k => by
    rw [YMap.Documented] at h
    rw [YMap.items, YMap.bare, YMap.items, List.map_cons, List.map_cons, List.mem_cons, List.mem_cons, YMap.key_bare r h.2]
    exact visible_cons h.1
  | .map k' _ _ v r, h, k => by
    rw [YMap.Documented] at h
    rw [YMap.items, YMap.bare, YMap.items, List.map_cons, List.map_cons, List.mem_cons, List.mem_cons, YMap.key_bare r h.2.2]
    exact visible_cons h.1
  | .seq k' _ _ v r, h, k => by
    rw [YMap.Documented] at h
    rw [YMap.items, YMap.bare, YMap.items, List.map_cons, List.map_cons, List.mem_cons, List.mem_cons, YMap.key_bare r h.2.2]
    exact visible_cons h.1
  | .text k' ls r, h, k => by
    rw [YMap.Documented] at h
    obtain ⟨⟨key, rfl, _⟩, h⟩ := h
    rw [YMap.items, YMap.bare, if_pos (hidden_prefix key), YMap.key_bare r h k, List.map_cons, List.mem_cons]
    constructor
    · exact fun h => ⟨.inr h.1, h.2⟩
    · rintro ⟨rfl | h', h2⟩
      · rw [hidden_prefix] at h2; cases h2
      · exact ⟨h', h2⟩

theorem Spec.YMap.firstKey_mem {r : YMap} {k : Str} (h : r.firstKey = some k) : ∃ v d, r.items = (k, v) :: d := by
  cases r <;> simp only [YMap.firstKey, Option.some.injEq, reduceCtorEq] at h
  all_goals subst h; rw [YMap.items]; exact ⟨_, _, rfl⟩

theorem Spec.YMap.firstKey_visible (r : YMap) (h : r.Documented) {k : Str} (hf : r.firstKey = some k) : (Key.str k).hidden = false := by
  cases r <;> simp only [YMap.firstKey, Option.some.injEq, reduceCtorEq] at hf
  all_goals subst hf; rw [YMap.Documented] at h; exact h.1

theorem Spec.YMap.firstKey_rest (r : YMap) (h : r.Documented) {k : Str} (hf : r.firstKey = some k) :
    ∃ r2 : YMap, r2.Documented ∧ r.items.map (·.1) = k :: r2.items.map (·.1) ∧ r.bare.items.map (·.1) = k :: r2.bare.items.map (·.1) := by
  cases r <;> simp only [YMap.firstKey, Option.some.injEq, reduceCtorEq] at hf
  all_goals subst hf; rw [YMap.Documented] at h
  · exact ⟨_, h.2, by rw [YMap.items]; rfl, by rw [YMap.bare, YMap.items]; rfl⟩
  · exact ⟨_, h.2.2, by rw [YMap.items]; rfl, by rw [YMap.bare, YMap.items]; rfl⟩
  · exact ⟨_, h.2.2, by rw [YMap.items]; rfl, by rw [YMap.bare, YMap.items]; rfl⟩

theorem Spec.YMap.owner : ∀ m : YMap, m.Documented → ∀ {k : Str}, (Key.str k).hidden = true → k ∈ m.items.map (·.1) →
    ∃ key, k = hiddenPrefix ++ key ∧ key ∈ m.items.map (·.1) ∧ (Key.str key).hidden = false
  | .nil, _, k, _, hk => by simp [YMap.items] at hk
  | .note l r, h, k, hh, hk => by
    rw [YMap.Documented] at h
    rw [YMap.items] at hk ⊢
    exact YMap.owner r h hh hk
  | .scalar k' s t r, h, k, hh, hk => by
    rw [YMap.Documented] at h
    rw [YMap.items, List.map_cons, List.mem_cons] at hk
    rcases hk with rfl | hk
    · rw [h.1] at hh; cases hh
    · obtain ⟨key, h1, h2, h3⟩ := YMap.owner r h.2 hh hk
      exact ⟨key, h1, by rw [YMap.items, List.map_cons]; exact .tail _ h2, h3⟩
  | .map k' _ _ v r, h, k, hh, hk => by
    rw [YMap.Documented] at h
    rw [YMap.items, List.map_cons, List.mem_cons] at hk
    rcases hk with rfl | hk
    · rw [h.1] at hh; cases hh
    · obtain ⟨key, h1, h2, h3⟩ := YMap.owner r h.2.2 hh hk
      exact ⟨key, h1, by rw [YMap.items, List.map_cons]; exact .tail _ h2, h3⟩
  | .seq k' _ _ v r, h, k, hh, hk => by
    rw [YMap.Documented] at h
    rw [YMap.items, List.map_cons, List.mem_cons] at hk
    rcases hk with rfl | hk
    · rw [h.1] at hh; cases hh
    · obtain ⟨key, h1, h2, h3⟩ := YMap.owner r h.2.2 hh hk
      exact ⟨key, h1, by rw [YMap.items, List.map_cons]; exact .tail _ h2, h3⟩
  | .text k' ls r, h, k, hh, hk => by
    rw [YMap.Documented] at h
    obtain ⟨⟨key', rfl, hf⟩, h⟩ := h
    rw [YMap.items, List.map_cons, List.mem_cons] at hk
    rcases hk with rfl | hk
    · refine ⟨key', rfl, ?_, ?_⟩
      · obtain ⟨v, d, e⟩ := YMap.firstKey_mem hf
        rw [YMap.items, e]; simp
      · exact r.firstKey_visible h hf
    · obtain ⟨key, h1, h2, h3⟩ := YMap.owner r h hh hk
      exact ⟨key, h1, by rw [YMap.items, List.map_cons]; exact .tail _ h2, h3⟩

/-- The keys differ if those of the document without comments do. -/
theorem Spec.YMap.nodup_keys : ∀ m : YMap, m.Documented → (m.bare.items.map (·.1)).Nodup → (m.items.map (·.1)).Nodup
  | .nil, _, _ => by simp [YMap.items]
  | .note l r, h, hn => by
    rw [YMap.Documented] at h
    rw [YMap.bare, YMap.items] at hn
    rw [YMap.items]
    exact YMap.nodup_keys r h hn
  | .scalar k s t r, h, hn => by
    rw [YMap.Documented] at h
    rw [YMap.bare, YMap.items, List.map_cons, List.nodup_cons] at hn
    rw [YMap.items, List.map_cons, List.nodup_cons]
    exact ⟨fun hk => hn.1 ((YMap.key_bare r h.2 k).mpr ⟨hk, h.1⟩), YMap.nodup_keys r h.2 hn.2⟩
  | .map k _ _ v r, h, hn => by
    rw [YMap.Documented] at h
    rw [YMap.bare, YMap.items, List.map_cons, List.nodup_cons] at hn
    rw [YMap.items, List.map_cons, List.nodup_cons]
    exact ⟨fun hk => hn.1 ((YMap.key_bare r h.2.2 k).mpr ⟨hk, h.1⟩), YMap.nodup_keys r h.2.2 hn.2⟩
  | .seq k _ _ v r, h, hn => by
    rw [YMap.Documented] at h
    rw [YMap.bare, YMap.items, List.map_cons, List.nodup_cons] at hn
    rw [YMap.items, List.map_cons, List.nodup_cons]
    exact ⟨fun hk => hn.1 ((YMap.key_bare r h.2.2 k).mpr ⟨hk, h.1⟩), YMap.nodup_keys r h.2.2 hn.2⟩
  | .text k ls r, h, hn => by
    rw [YMap.Documented] at h
    obtain ⟨⟨key, rfl, hf⟩, h⟩ := h
    rw [YMap.bare, if_pos (hidden_prefix key)] at hn
    rw [YMap.items, List.map_cons, List.nodup_cons]
    refine ⟨fun hk => ?_, YMap.nodup_keys r h hn⟩
    have hv := r.firstKey_visible h hf
    obtain ⟨r2, h2, e1, e2⟩ := r.firstKey_rest h hf
    dsimp only at hk
    rw [e1, List.mem_cons] at hk
    rcases hk with hk | hk
    · rw [← hk, hidden_prefix] at hv; cases hv
    · obtain ⟨key', g1, g2, g3⟩ := YMap.owner r2 h2 (hidden_prefix key) hk
      have : key = key' := List.append_cancel_left g1
      subst this
      rw [e2, List.nodup_cons] at hn
      exact hn.1 ((YMap.key_bare r2 h2 key).mpr ⟨g2, g3⟩)

/-! ### Data with comments -/

theorem hidden_texts : ∀ m : YMap, m.Documented → ∀ kv ∈ (m.items.map fun kv => Key.str kv.1).zip (m.items.map (·.2)), kv.1.hidden = true → ∃ text, kv.2 = .inst .str text
  | .nil, _, kv, hk, _ => by simp [YMap.items] at hk
  | .note l r, h, kv, hk, hh => by
    rw [YMap.Documented] at h
    rw [YMap.items] at hk
    exact hidden_texts r h kv hk hh
  | .scalar k s t r, h, kv, hk, hh => by
    rw [YMap.Documented] at h
    rw [YMap.items, List.map_cons, List.map_cons, List.zip_cons_cons, List.mem_cons] at hk
    rcases hk with rfl | hk
    · rw [h.1] at hh; cases hh
    · exact hidden_texts r h.2 kv hk hh
  | .map k _ _ v r, h, kv, hk, hh => by
    rw [YMap.Documented] at h
    rw [YMap.items, List.map_cons, List.map_cons, List.zip_cons_cons, List.mem_cons] at hk
    rcases hk with rfl | hk
    · rw [h.1] at hh; cases hh
    · exact hidden_texts r h.2.2 kv hk hh
  | .seq k _ _ v r, h, kv, hk, hh => by
    rw [YMap.Documented] at h
    rw [YMap.items, List.map_cons, List.map_cons, List.zip_cons_cons, List.mem_cons] at hk
    rcases hk with rfl | hk
    · rw [h.1] at hh; cases hh
    · exact hidden_texts r h.2.2 kv hk hh
  | .text k ls r, h, kv, hk, hh => by
    rw [YMap.Documented] at h
    rw [YMap.items, List.map_cons, List.map_cons, List.zip_cons_cons, List.mem_cons] at hk
    rcases hk with rfl | hk
    · exact ⟨_, rfl⟩
    · exact hidden_texts r h.2 kv hk hh

theorem commentedAt_dict {S : Strategies} (hS : S.dict = .typedDict) (m : YMap) (h : m.Documented) : CommentedAt S (dictOf m.items) := by
  refine ⟨by simp, ?_, hidden_texts m h, .inl ⟨rfl, hS⟩⟩
  intro k hk hh
  obtain ⟨kv, hkv, rfl⟩ := List.mem_map.mp hk
  obtain ⟨key, h1, h2, h3⟩ := YMap.owner m h hh (List.mem_map.mpr ⟨kv, hkv, rfl⟩)
  obtain ⟨kv', hkv', rfl⟩ := List.mem_map.mp h2
  exact ⟨kv'.1, by rw [h1], List.mem_map.mpr ⟨kv', hkv', rfl⟩, h3⟩

theorem commented_scalar {S : Strategies} (s : YScalar) : Every (CommentedAt S) s.value := by
  cases s <;> exact trivial

mutual
theorem Spec.YMap.commented {S : Strategies} (hS : S.dict = .typedDict) : ∀ m : YMap, m.Documented → EveryList (CommentedAt S) (m.items.map (·.2))
  | .nil, _ => by simp [YMap.items, EveryList]
  | .note l r, h => by
    rw [YMap.Documented] at h
    rw [YMap.items]; exact YMap.commented hS r h
  | .scalar k s t r, h => by
    rw [YMap.Documented] at h
    rw [YMap.items, List.map_cons, EveryList]
    exact ⟨commented_scalar s, YMap.commented hS r h.2⟩
  | .map k _ _ v r, h => by
    rw [YMap.Documented] at h
    rw [YMap.items, List.map_cons, EveryList]
    exact ⟨⟨commentedAt_dict hS v h.2.1, YMap.commented hS v h.2.1⟩, YMap.commented hS r h.2.2⟩
  | .seq k _ _ v r, h => by
    rw [YMap.Documented] at h
    rw [YMap.items, List.map_cons, EveryList]
    exact ⟨⟨trivial, YSeq.commented hS v h.2.1⟩, YMap.commented hS r h.2.2⟩
  | .text k ls r, h => by
    rw [YMap.Documented] at h
    rw [YMap.items, List.map_cons, EveryList]
    exact ⟨trivial, YMap.commented hS r h.2⟩
theorem Spec.YSeq.commented {S : Strategies} (hS : S.dict = .typedDict) : ∀ s : YSeq, s.Documented → EveryList (CommentedAt S) s.elems
  | .nil, _ => by simp [YSeq.elems, EveryList]
  | .note l r, h => by
    rw [YSeq.Documented] at h
    rw [YSeq.elems]; exact YSeq.commented hS r h
  | .scalar s t r, h => by
    rw [YSeq.Documented] at h
    rw [YSeq.elems, EveryList]
    exact ⟨commented_scalar s, YSeq.commented hS r h⟩
  | .map v r, h => by
    rw [YSeq.Documented] at h
    rw [YSeq.elems, EveryList]
    exact ⟨⟨commentedAt_dict hS v h.1, YMap.commented hS v h.1⟩, YSeq.commented hS r h.2⟩
end

theorem Spec.YDoc.commented {S : Strategies} (hS : S.dict = .typedDict) {d d' : YDoc} (h : d.Documents d') : Commented S d'.value := by
  cases d <;> cases d' <;> simp only [YDoc.Documents] at h
  · exact ⟨commentedAt_dict hS _ h.2, YMap.commented hS _ h.2⟩
  · exact ⟨trivial, YSeq.commented hS _ h.2⟩

end Verif
