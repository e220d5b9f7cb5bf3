import Verif.Lemmas.YamlShown
import Verif.Spec.YamlInner
import Verif.Spec.InnerDicts
/-
Mappings inside the mappings of YAML documents are dictionaries inside dictionaries.
-/
namespace Verif
open Verif.Spec

theorem YMap_subs_bare (w : Nat) : ∀ m : YMap, m.Documented → m.bare.subs w = (m.subs w).map fun s => (s.1, s.2.1, s.2.2.bare)
  | .nil, _ => by simp [YMap.bare, YMap.subs]
  | .note l r, h => by
    rw [YMap.Documented] at h
    rw [YMap.bare, YMap.subs, YMap.subs]
    exact YMap_subs_bare w r h
  | .scalar k s t r, h => by
    rw [YMap.Documented] at h
    rw [YMap.bare, YMap.subs, YMap.subs]
    exact YMap_subs_bare w r h.2
  | .map k t st v r, h => by
    rw [YMap.Documented] at h
    rw [YMap.bare, YMap.subs, YMap.subs, YMap_subs_bare w r h.2.2]
    rfl
  | .seq k t st v r, h => by
    rw [YMap.Documented] at h
    rw [YMap.bare, YMap.subs, YMap.subs]
    exact YMap_subs_bare w r h.2.2
  | .text k ls r, h => by
    rw [YMap.Documented] at h
    obtain ⟨⟨key, rfl, _⟩, h⟩ := h
    rw [YMap.bare, if_pos (hidden_prefix key), YMap.subs]
    exact YMap_subs_bare w r h

/-- What is known of a mapping that is an entry. -/
theorem YMap_subs_know (T : Nat → Str → Str → Option (List Str) → Prop) (w : Nat) : ∀ (m : YMap) (start : Str) (i : Nat) (p : Option (List Str)),
    m.Documented → m.OK → m.Shows T start w i p → ∀ s ∈ m.subs w,
    (Key.str s.1).hidden = false ∧ s.2.2.Documented ∧ s.2.2.OK ∧ (s.2.2.items.map (·.1)).Nodup ∧ ∃ j, s.2.2.Shows T (blanks s.2.1) s.2.1 j none
  | .nil, _, _, _, _, _, _, s, hm => by simp [YMap.subs] at hm
  | .note l r, _, i, p, hd, ho, hs, s, hm => by
    rw [YMap.Documented] at hd
    rw [YMap.OK] at ho
    rw [YMap.Shows] at hs
    rw [YMap.subs] at hm
    exact YMap_subs_know T w r _ _ _ hd ho.2 hs s hm
  | .scalar k x t r, _, i, p, hd, ho, hs, s, hm => by
    rw [YMap.Documented] at hd
    rw [YMap.OK] at ho
    rw [YMap.Shows] at hs
    rw [YMap.subs] at hm
    exact YMap_subs_know T w r _ _ _ hd.2 ho.2.2.2 hs.2 s hm
  | .map k t st v r, _, i, p, hd, ho, hs, s, hm => by
    rw [YMap.Documented] at hd
    rw [YMap.OK] at ho
    rw [YMap.Shows] at hs
    rw [YMap.subs] at hm
    rcases List.mem_cons.mp hm with rfl | hm
    · exact ⟨hd.1, hd.2.1, ho.2.2.2.2.2.1, ho.2.2.2.2.1, _, hs.2.1⟩
    · exact YMap_subs_know T w r _ _ _ hd.2.2 ho.2.2.2.2.2.2 hs.2.2 s hm
  | .seq k t st v r, _, i, p, hd, ho, hs, s, hm => by
    rw [YMap.Documented] at hd
    rw [YMap.OK] at ho
    rw [YMap.Shows] at hs
    rw [YMap.subs] at hm
    exact YMap_subs_know T w r _ _ _ hd.2.2 ho.2.2.2.2 hs.2.2 s hm
  | .text k ls r, _, i, p, hd, ho, hs, s, hm => by
    rw [YMap.Documented] at hd
    rw [YMap.OK] at ho
    rw [YMap.Shows] at hs
    rw [YMap.subs] at hm
    exact YMap_subs_know T w r _ _ _ hd.2 ho.2.2.2 hs s hm

theorem scalar_no_dict (s : YScalar) : ∀ t ks vs, s.value ≠ .map .dict t ks vs := by
  intro t ks vs h
  cases s <;> simp [YScalar.value] at h

/-- The dictionaries among the values are the mappings, in the same order. -/
theorem YMap_subs_split (w : Nat) : ∀ (m : YMap) (before after : List (Str × Nat × YMap)) (s : Str × Nat × YMap), m.subs w = before ++ s :: after →
    ∃ pre post, m.items = pre ++ (s.1, dictOf s.2.2.items) :: post ∧
      ∀ kv ∈ pre, ∀ t ks vs, kv.2 = .map .dict t ks vs → ∃ b ∈ before, kv.1 = b.1 ∧ kv.2 = dictOf b.2.2.items
  | .nil, before, after, s, h => by simp [YMap.subs] at h
  | .note l r, before, after, s, h => by
    rw [YMap.subs] at h
    rw [YMap.items]
    exact YMap_subs_split w r before after s h
  | .scalar k x t r, before, after, s, h => by
    rw [YMap.subs] at h
    obtain ⟨pre, post, e, hp⟩ := YMap_subs_split w r before after s h
    refine ⟨(k, x.value) :: pre, post, by rw [YMap.items, e]; rfl, fun kv hkv t ks vs hv => ?_⟩
    rcases List.mem_cons.mp hkv with rfl | hkv
    · exact absurd hv (scalar_no_dict x t ks vs)
    · exact hp kv hkv t ks vs hv
  | .map k t st v r, before, after, s, h => by
    rw [YMap.subs] at h
    cases before with
    | nil =>
      injection h with h1 h2
      subst h1
      exact ⟨[], r.items, by rw [YMap.items]; rfl, fun kv hkv => by cases hkv⟩
    | cons b before =>
      injection h with h1 h2
      subst h1
      obtain ⟨pre, post, e, hp⟩ := YMap_subs_split w r before after s h2
      refine ⟨(k, dictOf v.items) :: pre, post, by rw [YMap.items, e]; rfl, fun kv hkv t ks vs hv => ?_⟩
      rcases List.mem_cons.mp hkv with rfl | hkv
      · exact ⟨_, List.mem_cons_self .., rfl, rfl⟩
      · obtain ⟨b, hb, h⟩ := hp kv hkv t ks vs hv
        exact ⟨b, List.mem_cons_of_mem _ hb, h⟩
  | .seq k t st v r, before, after, s, h => by
    rw [YMap.subs] at h
    obtain ⟨pre, post, e, hp⟩ := YMap_subs_split w r before after s h
    refine ⟨(k, .seq .list .list v.elems) :: pre, post, by rw [YMap.items, e]; rfl, fun kv hkv t ks vs hv => ?_⟩
    rcases List.mem_cons.mp hkv with rfl | hkv
    · cases hv
    · exact hp kv hkv t ks vs hv
  | .text k ls r, before, after, s, h => by
    rw [YMap.subs] at h
    obtain ⟨pre, post, e, hp⟩ := YMap_subs_split w r before after s h
    refine ⟨(k, .inst .str (some (join py!"\n" ls ++ py!"\n"))) :: pre, post, by rw [YMap.items, e]; rfl, fun kv hkv t ks vs hv => ?_⟩
    rcases List.mem_cons.mp hkv with rfl | hkv
    · cases hv
    · exact hp kv hkv t ks vs hv

theorem dictOf_shape (d : Dct) : dictOf d = .map .dict .dict ((d.map (·.1)).map .str) (d.map (·.2)) := by simp [dictOf]

theorem dictOf_keys {d : Dct} {t : Ty} {ks : List Key} {vs : List Val} (h : Val.map .dict t ks vs = dictOf d) :
    ks = (d.map (·.1)).map .str ∧ vs = d.map (·.2) := by
  rw [dictOf_shape] at h
  injection h with _ _ h1 h2
  exact ⟨h1, h2⟩

theorem keyed_zip : ∀ l : Dct, ((l.map (·.1)).map Key.str).zip (l.map (·.2)) = l.map fun kv => (Key.str kv.1, kv.2)
  | [] => rfl
  | a :: l => by rw [List.map_cons, List.map_cons, List.map_cons, List.zip_cons_cons, keyed_zip l]; rfl

/-- A mapping inside a document is a dictionary inside its data; the same holds for the document with comments as text blocks. -/
theorem inner_dict (T : Nat → Str → Str → Option (List Str) → Prop) {w w1 : Nat} {m m1 : YMap} (h : InnerMap w m w1 m1) : ∀ (m' : YMap) (i : Nat),
    m'.bare = m → m'.Documented → m'.OK → (m'.items.map (·.1)).Nodup → m'.Shows T (blanks w) w i none →
    ∃ (m1' : YMap) (j : Nat), m1'.bare = m1 ∧ m1'.Documented ∧ m1'.OK ∧ (m1'.items.map (·.1)).Nodup ∧ m1'.Shows T (blanks w1) w1 j none ∧
      InnerDict (dictOf m'.items) (m1'.items.map (·.1)) (m1'.items.map (·.2)) := by
  induction h with
  | here w m =>
    intro m' i e hd ho hn hs
    exact ⟨m', i, e, hd, ho, hn, hs, by rw [dictOf_shape]; exact .here _ _ _⟩
  | @step w w' w1 m v m1 k before after hsub hsep _ ih =>
    intro m' i e hd ho hn hs
    subst e
    rw [YMap_subs_bare w m' hd] at hsub
    obtain ⟨before', rest, e1, e2, e3⟩ := List.map_eq_append_iff.mp hsub
    obtain ⟨s, after', e4, e5, e6⟩ := List.map_eq_cons_iff.mp e3
    subst e4 e2 e6
    obtain ⟨k', w'', v'⟩ := s
    simp only [Prod.mk.injEq] at e5
    obtain ⟨rfl, rfl, rfl⟩ := e5
    have know := YMap_subs_know T w m' _ i none hd ho hs
    obtain ⟨a1, a2, a3, a4, j, a5⟩ := know (k', w'', v') (by rw [e1]; simp)
    obtain ⟨m1', j', b1, b2, b3, b4, b5, b6⟩ := ih v' j rfl a2 a3 a4 a5
    refine ⟨m1', j', b1, b2, b3, b4, b5, ?_⟩
    obtain ⟨pre, post, c1, c2⟩ := YMap_subs_split w m' before' after' _ e1
    dsimp only at c1 b6
    rw [dictOf_shape] at b6 c1 ⊢
    have hz := keyed_zip m'.items
    refine .step (before := pre.map fun kv => (Key.str kv.1, kv.2)) (after := post.map fun kv => (Key.str kv.1, kv.2)) (k := .str k')
      (by simp) ?_ (by simp) (by rw [hz, c1]; simp) a1 (by simp) ?_ b6
    · exact (List.pairwise_map.mpr (hn.imp fun hne e => hne (by injection e)))
    · intro k2 t2 keys2 vals2 hm2 _
      obtain ⟨kv, hkv, e⟩ := List.mem_map.mp hm2
      injection e with e e'
      obtain ⟨b, hb, d1, d2⟩ := c2 kv hkv _ _ _ e'
      obtain ⟨x1, x2⟩ := dictOf_keys (e'.symm.trans d2)
      subst x1 x2
      refine ⟨by simp, fun hsame => hsep _ (List.mem_map.mpr ⟨b, hb, rfl⟩) fun key => ?_⟩
      obtain ⟨y1, y2, _⟩ := know b (by rw [e1]; simp [hb])
      dsimp only
      rw [YMap.key_bare _ y2, YMap.key_bare _ a2]
      constructor
      · rintro ⟨h1, h2⟩
        have := (hsame (.str key) h2).mp (List.mem_map_of_mem h1)
        obtain ⟨x, hx, ex⟩ := List.mem_map.mp this
        injection ex with ex
        exact ⟨ex ▸ hx, h2⟩
      · rintro ⟨h1, h2⟩
        have := (hsame (.str key) h2).mpr (List.mem_map_of_mem h1)
        obtain ⟨x, hx, ex⟩ := List.mem_map.mp this
        injection ex with ex
        exact ⟨ex ▸ hx, h2⟩

end Verif
