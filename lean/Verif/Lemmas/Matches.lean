import Verif.Spec.Matches
import Verif.Lemmas.ListStr
/-
What values of the same shape have in common.
-/
namespace Verif
open Verif.Spec

theorem covers_leafType {S : Strategies} {v w : Val} (h : Covers S v w) {t : TExpr} (hv : leafType v = some t) : leafType w = some t := by
  cases h with
  | leaf h =>
    unfold SameLeaf at h
    split at h
    · rw [← hv]; simp only [leafType, h]
    · rw [← hv]; simp only [leafType, h]
    · exact hv
    · exact hv
    · rw [← hv]; simp only [leafType, h]
    · rw [← hv]; simp only [leafType, h.2.2]
    · exact h.elim
  | tuple => cases hv
  | seq => cases hv
  | record => cases hv
  | @mapping k _ _ _ _ _ _ R hk =>
    rcases hk with rfl | rfl <;> cases hv
  | @frame i i' t t' ks vs ks' vs' R _ hk =>
    cases ks with
    | cons => cases hv
    | nil =>
      cases ks' with
      | nil => exact hv
      | cons k r => exact absurd ((hk k).mpr (by simp)) (by simp)

theorem matches_leaf {S : Strategies} {v w : Val} (h : Matches S v w) : ∀ {t : TExpr}, leafType v = some t → Admits [] t w := by
  induction h with
  | leaf h1 h2 =>
    intro t ht
    rw [ht] at h1
    injection h1 with h1
    rw [h1]
    exact h2
  | swap h1 _ _ ih => exact fun ht => ih (covers_leafType h1 ht)
  | noElements => intro t ht; cases ht
  | tuple => intro t ht; cases ht
  | seq => intro t ht; cases ht
  | record => intro t ht; cases ht
  | mapping R hk => intro t ht; rcases hk with rfl | rfl <;> cases ht
  | @frame i i' t t' ks vs =>
    intro t ht
    cases ks with
    | cons => cases ht
    | nil =>
      injection ht with ht
      subst ht
      exact .anyFrame (fun ⟨_, h, _⟩ => by cases h)

theorem covers_seq {S : Strategies} {k : SeqKind} {t : Ty} {es : List Val} {w : Val} (h : Covers S (.seq k t es) w) :
    ∃ t' es', w = .seq k t' es' ∧ (Placed S k → es.length = es'.length) := by
  generalize hv : Val.seq k t es = v at h
  cases h with
  | leaf h => subst hv; cases w <;> exact h.elim
  | tuple _ hl => cases hv; exact ⟨_, _, rfl, fun _ => hl⟩
  | seq R hp => cases hv; exact ⟨_, _, rfl, fun h => absurd h hp⟩
  | _ => cases hv

theorem matches_seq {S : Strategies} {v w : Val} (h : Matches S v w) : ∀ {k : SeqKind} {t : Ty} {es : List Val}, v = .seq k t es →
    ∃ k' t' es', w = .seq k' t' es' ∧ SeqLike S k k' ∧ (Placed S k → es ≠ [] → es.length = es'.length) := by
  induction h with
  | leaf h => rintro k t es rfl; cases h
  | swap h1 _ _ ih =>
    rintro k t es rfl
    obtain ⟨t', es', rfl, hl⟩ := covers_seq h1
    obtain ⟨k2, t2, es2, rfl, hk2, hl2⟩ := ih rfl
    refine ⟨_, _, _, rfl, hk2, fun hp hne => ?_⟩
    have h1 := hl hp
    rw [h1]
    refine hl2 hp ?_
    rintro rfl
    exact hne (List.length_eq_zero_iff.mp h1)
  | noElements hk => rintro k t es e; cases e; exact ⟨_, _, _, rfl, hk, fun _ h => absurd rfl h⟩
  | tuple R _ hl => rintro k t es e; cases e; exact ⟨_, _, _, rfl, .inl rfl, fun _ _ => hl⟩
  | seq R hp hk => rintro k t es e; cases e; exact ⟨_, _, _, rfl, hk, fun h => absurd h hp⟩
  | record => rintro k t es e; cases e
  | mapping => rintro k t es e; cases e
  | frame => rintro k t es e; cases e

theorem covers_map {S : Strategies} {k : MapKind} {t : Ty} {ks : List Key} {vs : List Val} {w : Val} (h : Covers S (.map k t ks vs) w) :
    ∃ k' t' ks' vs', w = .map k' t' ks' vs' ∧ (Lookup k → k' = k) ∧ (¬ Lookup k → ¬ Lookup k') ∧
      (IsRecord S (.map k t ks vs) → IsRecord S w) ∧ (IsRecord S (.map k t ks vs) ∨ ¬ Lookup k → ∀ x, x ∈ ks ↔ x ∈ ks') := by
  generalize hv : Val.map k t ks vs = v at h
  cases h with
  | leaf h => subst hv; cases w <;> exact h.elim
  | record R hr _ hk =>
    cases hv
    exact ⟨_, _, _, _, rfl, fun _ => rfl, fun h => absurd (.inl rfl) h, fun _ => ⟨hr.1, fun x hx => hr.2 x ((hk x).mpr hx)⟩, fun _ => hk⟩
  | mapping R hL hn =>
    cases hv
    exact ⟨_, _, _, _, rfl, fun _ => rfl, fun h => absurd hL h, fun h => absurd h hn,
      fun h => by rcases h with h | h <;> contradiction⟩
  | frame R _ hk =>
    cases hv
    exact ⟨_, _, _, _, rfl, fun h => (by rcases h with h | h <;> cases h), fun _ h => (by rcases h with h | h <;> cases h), fun h => h.elim,
      fun _ => hk⟩
  | _ => cases hv

theorem matches_record {S : Strategies} {v w : Val} (h : Matches S v w) : ∀ {t : Ty} {ks : List Key} {vs : List Val},
    v = .map .dict t ks vs → IsRecord S v → ∃ t' ks' vs', w = .map .dict t' ks' vs' ∧ (∀ x, x ∈ ks ↔ x ∈ ks') ∧
      ∀ kw ∈ ks'.zip vs', ∃ x, (kw.1, x) ∈ ks.zip vs ∧ ∀ k t es, x = .seq k t es → ∃ k' t' es', kw.2 = .seq k' t' es' ∧ SeqLike S k k' := by
  induction h with
  | leaf h => rintro t ks vs rfl; cases h
  | swap h1 _ _ ih =>
    rintro t ks vs rfl hr
    obtain ⟨k', t', ks', vs', rfl, e, _, hrec, hk⟩ := covers_map h1
    cases e (.inl rfl)
    obtain ⟨t2, ks2, vs2, rfl, hk2, hz⟩ := ih rfl (hrec hr)
    refine ⟨_, _, _, rfl, fun x => (hk (.inl hr) x).trans (hk2 x), ?_⟩
    intro kw hkw
    obtain ⟨y, hy, hs⟩ := hz kw hkw
    cases h1 with
    | leaf h => exact h.elim
    | mapping R _ hn => exact absurd hr hn
    | record R _ _ _ hR hzz =>
      obtain ⟨x, hx, hxy⟩ := hzz _ hy
      refine ⟨x, hx, ?_⟩
      rintro k t es rfl
      obtain ⟨t', es', e, _⟩ := covers_seq (hR _ _ hxy)
      exact hs k t' es' e
  | noElements => rintro t ks vs e; cases e
  | tuple => rintro t ks vs e; cases e
  | seq => rintro t ks vs e; cases e
  | record R hr hk hR hz =>
    rintro t ks vs e _
    cases e
    refine ⟨_, _, _, rfl, hk, ?_⟩
    intro kw hkw
    obtain ⟨x, hx, hxw⟩ := hz kw hkw
    refine ⟨x, hx, ?_⟩
    rintro k t es rfl
    obtain ⟨k', t', es', e, hl, _⟩ := matches_seq (hR _ _ hxw) rfl
    exact ⟨k', t', es', e, hl⟩
  | mapping R _ hn => rintro t ks vs e hr; exact absurd hr hn
  | frame => rintro t ks vs e; cases e

theorem matches_map {S : Strategies} {v w : Val} (h : Matches S v w) : ∀ {k : MapKind} {t : Ty} {ks : List Key} {vs : List Val},
    v = .map k t ks vs → Lookup k → ∃ k' t' ks' vs', w = .map k' t' ks' vs' ∧ MapLike S k k' := by
  induction h with
  | leaf h => rintro k t ks vs rfl hL; rcases hL with rfl | rfl <;> cases h
  | swap h1 _ _ ih =>
    rintro k t ks vs rfl hL
    obtain ⟨k', t', ks', vs', rfl, e, _⟩ := covers_map h1
    cases e hL
    exact ih rfl hL
  | noElements => rintro k t ks vs e; cases e
  | tuple => rintro k t ks vs e; cases e
  | seq => rintro k t ks vs e; cases e
  | record => rintro k t ks vs e _; cases e; exact ⟨_, _, _, _, rfl, .inl rfl⟩
  | mapping R _ _ hl => rintro k t ks vs e _; cases e; exact ⟨_, _, _, _, rfl, hl⟩
  | frame => rintro k t ks vs e hL; cases e; rcases hL with h | h <;> cases h

theorem matches_frame {S : Strategies} {v w : Val} (h : Matches S v w) : ∀ {i : FrameInfo} {t : Ty} {ks : List Key} {vs : List Val},
    v = .map (.frame i) t ks vs → ks ≠ [] → ∃ i' t' ks' vs', w = .map (.frame i') t' ks' vs' ∧ ∀ x, x ∈ ks ↔ x ∈ ks' := by
  induction h with
  | leaf h =>
    rintro i t ks vs rfl hne
    cases ks with
    | nil => exact absurd rfl hne
    | cons => cases h
  | swap h1 _ _ ih =>
    rintro i t ks vs rfl hne
    have hnl : ¬ Lookup (.frame i) := fun h => by rcases h with h | h <;> cases h
    obtain ⟨k', t', ks', vs', rfl, _, hn, _, hk⟩ := covers_map h1
    have hk := hk (.inr hnl)
    cases k' with
    | frame i' =>
      obtain ⟨i2, t2, ks2, vs2, rfl, hk2⟩ := ih rfl (by
        rintro rfl
        cases ks with
        | nil => exact hne rfl
        | cons k r => exact absurd ((hk k).mp (by simp)) (by simp))
      exact ⟨_, _, _, _, rfl, fun x => (hk x).trans (hk2 x)⟩
    | dict => exact absurd (.inl rfl) (hn hnl)
    | proxy => exact absurd (.inr rfl) (hn hnl)
  | noElements => rintro i t ks vs e; cases e
  | tuple => rintro i t ks vs e; cases e
  | seq => rintro i t ks vs e; cases e
  | record => rintro i t ks vs e; cases e
  | mapping R hL => rintro i t ks vs e; cases e; rcases hL with h | h <;> cases h
  | frame R hk => rintro i t ks vs e _; cases e; exact ⟨_, _, _, _, rfl, hk⟩

theorem leaf_not_record {S : Strategies} {e : Val} {ty : TExpr} (h : leafType e = some ty) : ¬ IsRecord S e := by
  intro hr
  cases e with
  | map k t ks vs =>
    cases k with
    | dict => cases h
    | proxy => cases h
    | frame => exact hr.elim
  | _ => exact hr.elim

/-- Sequences of leaves match only sequences of leaves of the same types. -/
theorem matches_elements {S : Strategies} {v w : Val} (h : Matches S v w) : ∀ {k : SeqKind} {t : Ty} {es : List Val}, v = .seq k t es →
    (∀ e ∈ es, ∃ ty, leafType e = some ty) → es ≠ [] → ∃ k' t' es', w = .seq k' t' es' ∧
      (∀ e' ∈ es', ∃ e ∈ es, ∃ ty, leafType e = some ty ∧ Admits [] ty e') ∧
      (Placed S k → ∀ p ∈ es.zip es', ∃ ty, leafType p.1 = some ty ∧ Admits [] ty p.2) := by
  induction h with
  | leaf h => rintro k t es rfl; cases h
  | @swap a b w h1 h2 _ ih =>
    rintro k t es rfl hl hne
    cases h1 with
    | leaf h => cases b <;> exact h.elim
    | @tuple _ t2 _ es2 hS hlen hz =>
      have hz' : ∀ i (h : i < es.length) (h' : i < es2.length), ∀ ty, leafType es[i] = some ty → leafType es2[i] = some ty := by
        intro i h h' ty e
        exact covers_leafType (hz (es[i], es2[i]) (List.mem_iff_getElem.mpr ⟨i, by simp; omega, by simp⟩)) e
      have hl2 : ∀ e ∈ es2, ∃ ty, leafType e = some ty := by
        intro e he
        obtain ⟨i, hi, rfl⟩ := List.mem_iff_getElem.mp he
        obtain ⟨ty, e⟩ := hl es[i] (List.getElem_mem _)
        exact ⟨ty, hz' i _ hi ty e⟩
      obtain ⟨k3, t3, es3, rfl, h3, h4⟩ := ih rfl hl2 (by rintro rfl; exact hne (List.length_eq_zero_iff.mp hlen))
      refine ⟨_, _, _, rfl, ?_, ?_⟩
      · intro e' he'
        obtain ⟨e, he, ty, e1, e2⟩ := h3 e' he'
        obtain ⟨i, hi, rfl⟩ := List.mem_iff_getElem.mp he
        obtain ⟨ty', e3⟩ := hl es[i] (List.getElem_mem _)
        have := hz' i (by omega) hi ty' e3
        rw [e1] at this
        cases this
        exact ⟨es[i], List.getElem_mem _, ty, e3, e2⟩
      · intro hp p hpm
        obtain ⟨i, hi, rfl⟩ := List.mem_iff_getElem.mp hpm
        simp only [List.length_zip] at hi
        simp only [List.getElem_zip]
        obtain ⟨ty', e3⟩ := hl es[i] (List.getElem_mem _)
        obtain ⟨ty, e1, e2⟩ := h4 hp (es2[i], es3[i]) (List.mem_iff_getElem.mpr ⟨i, by simp; omega, by simp⟩)
        have := hz' i (by omega) (by omega) ty' e3
        rw [e1] at this
        cases this
        exact ⟨_, e3, e2⟩
    | @seq _ _ t2 _ es2 R hp hR hc =>
      have hl2 : ∀ e ∈ es2, ∃ e0 ∈ es, ∃ ty, leafType e0 = some ty ∧ leafType e = some ty := by
        intro e he
        obtain ⟨e0, he0, hr⟩ := hc e he
        obtain ⟨ty, e1⟩ := hl e0 he0
        exact ⟨e0, he0, ty, e1, covers_leafType (hR _ _ hr) e1⟩
      have hne2 : es2 ≠ [] := by
        rintro rfl
        cases h2 with
        | leaf h => exact h.elim
        | tuple hS => exact hp ⟨rfl, hS⟩
        | seq R _ _ hc =>
          obtain ⟨e, he⟩ := List.exists_mem_of_ne_nil _ hne
          obtain ⟨_, h, _⟩ := hc e he
          cases h
      obtain ⟨k3, t3, es3, rfl, h3, h4⟩ := ih rfl (fun e he => by obtain ⟨_, _, ty, _, h⟩ := hl2 e he; exact ⟨ty, h⟩) hne2
      refine ⟨_, _, _, rfl, ?_, fun h => absurd h hp⟩
      intro e' he'
      obtain ⟨e, he, ty, e1, e2⟩ := h3 e' he'
      obtain ⟨e0, he0, ty', e3, e4⟩ := hl2 e he
      rw [e1] at e4
      cases e4
      exact ⟨e0, he0, ty, e3, e2⟩
  | noElements hk => rintro k t es e; cases e; exact fun _ h => absurd rfl h
  | @tuple t t' es es' R hS hlen hR hz =>
    rintro k t es e hl hne
    cases e
    have key : ∀ p ∈ es.zip es', ∃ ty, leafType p.1 = some ty ∧ Admits [] ty p.2 := by
      intro p hp
      obtain ⟨ty, e⟩ := hl p.1 (List.of_mem_zip (show (p.1, p.2) ∈ _ from hp)).1
      rcases hz p hp with h | ⟨h, _⟩
      · exact ⟨ty, e, matches_leaf (hR _ _ h) e⟩
      · exact absurd h.1 (leaf_not_record e)
    refine ⟨_, _, _, rfl, ?_, fun _ => key⟩
    intro e' he'
    obtain ⟨i, hi, rfl⟩ := List.mem_iff_getElem.mp he'
    obtain ⟨ty, e1, e2⟩ := key (es[i], es'[i]) (List.mem_iff_getElem.mpr ⟨i, by simp; omega, by simp⟩)
    exact ⟨es[i], List.getElem_mem _, ty, e1, e2⟩
  | seq R hp hk hR hc =>
    rintro k t es e hl hne
    cases e
    refine ⟨_, _, _, rfl, ?_, fun h => absurd h hp⟩
    intro e' he'
    rcases hc e' he' with ⟨e, he, h⟩ | ⟨_, _, _, _, _, _, _, ⟨e, he, hf⟩, _⟩
    · obtain ⟨ty, e1⟩ := hl e he
      exact ⟨e, he, ty, e1, matches_leaf (hR _ _ h) e1⟩
    · obtain ⟨ty, e1⟩ := hl e he
      exact absurd hf.1 (leaf_not_record e1)
  | record => rintro k t es e; cases e
  | mapping => rintro k t es e; cases e
  | frame => rintro k t es e; cases e

/-- Dictionaries with items that are described by TypedDicts. -/
def Row (S : Strategies) (e : Val) : Prop := ∃ t ks vs, e = .map .dict t ks vs ∧ IsRecord S e ∧ ks ≠ [] ∧ ks.length = vs.length

def mapKeys : Val → List Key
  | .map _ _ ks _ => ks
  | _ => []

theorem covers_row {S : Strategies} {e w : Val} (he : Row S e) (h : Covers S e w) : Row S w ∧ ∀ x, x ∈ mapKeys e ↔ x ∈ mapKeys w := by
  obtain ⟨t, ks, vs, rfl, hr, hne, _⟩ := he
  cases h with
  | leaf h => cases w <;> exact h.elim
  | mapping R _ hn => exact absurd hr hn
  | @record _ t' _ _ ks' vs' R _ hl hk =>
    refine ⟨⟨_, _, _, rfl, ⟨hr.1, fun k hk' => hr.2 k ((hk k).mpr hk')⟩, ?_, hl⟩, hk⟩
    rintro rfl
    obtain ⟨x, hx⟩ := List.exists_mem_of_ne_nil _ hne
    exact absurd ((hk x).mp hx) (by simp)

theorem Row.filled {S : Strategies} {e : Val} (h : Row S e) : Filled S e := by
  obtain ⟨t, ks, vs, rfl, hr, hne, hl⟩ := h
  refine ⟨hr, ?_⟩
  intro e
  have : (ks.zip vs).length = 0 := by
    have : ks.zip vs = [] := e
    rw [this]; rfl
  rw [List.length_zip] at this
  exact hne (List.length_eq_zero_iff.mp (by omega))

theorem mem_fieldsOf_keys {S : Strategies} {e : Val} (h : Row S e) {x : Key} : x ∈ fieldsOf e ↔ x ∈ mapKeys e ∧ x.hidden = false := by
  obtain ⟨t, ks, vs, rfl, _⟩ := h
  simp [fieldsOf, mapKeys, List.mem_filter]

theorem dissimilar_keys {S : Strategies} {a a' b b' : Val} (ha : ∀ x, x ∈ fieldsOf a ↔ x ∈ fieldsOf b) (ha' : ∀ x, x ∈ fieldsOf a' ↔ x ∈ fieldsOf b')
    (h : Dissimilar S a a') : Dissimilar S b b' := by
  have h1 : (sharedFields b b').length ≤ (sharedFields a a').length := by
    apply length_le_of_nodup_subset ((nodup_dedup _).filter _)
    intro x hx
    simp only [sharedFields, List.mem_filter, mem_dedup, List.contains_eq_mem, decide_eq_true_eq] at hx ⊢
    exact ⟨(ha x).mpr hx.1, (ha' x).mpr hx.2⟩
  have h2 : (allFields a a').length ≤ (allFields b b').length := by
    apply length_le_of_nodup_subset (nodup_dedup _)
    intro x hx
    simp only [allFields, mem_dedup, List.mem_append] at hx ⊢
    exact hx.imp (ha x).mp (ha' x).mp
  unfold Dissimilar at h ⊢
  have := Nat.mul_le_mul_left (S.merge - 1) h2
  omega

/-- Sequences of dictionaries that differ too much to be merged match only sequences of dictionaries with the keys of one of them. -/
theorem matches_rows {S : Strategies} {v w : Val} (h : Matches S v w) : ∀ {k : SeqKind} {t : Ty} {es : List Val}, v = .seq k t es →
    ¬ Placed S k → (∀ e ∈ es, Row S e) → (∃ a ∈ es, ∃ b ∈ es, Dissimilar S a b) → ∃ k' t' es', w = .seq k' t' es' ∧
      ∀ e' ∈ es', ∃ e ∈ es, ∃ t ks vs, e' = .map .dict t ks vs ∧ ∀ x, x ∈ mapKeys e ↔ x ∈ ks := by
  induction h with
  | leaf h => rintro k t es rfl; cases h
  | @swap a b w h1 h2 _ ih =>
    rintro k t es rfl hp hl ⟨a, ha, a', ha', hd⟩
    cases h1 with
    | leaf h => cases b <;> exact h.elim
    | tuple hS => exact absurd ⟨rfl, hS⟩ hp
    | @seq _ _ t2 _ es2 R _ hR hc =>
      have hl2 : ∀ e ∈ es2, Row S e := fun e he => by
        obtain ⟨e0, he0, hr⟩ := hc e he
        exact (covers_row (hl e0 he0) (hR _ _ hr)).1
      have hb : ∀ e ∈ es, ∃ e2 ∈ es2, ∀ x, x ∈ fieldsOf e ↔ x ∈ fieldsOf e2 := by
        intro e he
        cases h2 with
        | leaf h => exact h.elim
        | tuple hS => exact absurd ⟨rfl, hS⟩ hp
        | seq R' _ hR' hc' =>
          obtain ⟨e2, he2, hr⟩ := hc' e he
          have := covers_row (hl2 e2 he2) (hR' _ _ hr)
          exact ⟨e2, he2, fun x => by rw [mem_fieldsOf_keys (hl e he), mem_fieldsOf_keys (hl2 e2 he2), this.2]⟩
      obtain ⟨b, hb1, hb2⟩ := hb a ha
      obtain ⟨b', hb1', hb2'⟩ := hb a' ha'
      obtain ⟨k3, t3, es3, rfl, h3⟩ := ih rfl hp hl2 ⟨b, hb1, b', hb1', dissimilar_keys hb2 hb2' hd⟩
      refine ⟨_, _, _, rfl, ?_⟩
      intro e' he'
      obtain ⟨e, he, t', ks, vs, rfl, hk⟩ := h3 e' he'
      obtain ⟨e0, he0, hr⟩ := hc e he
      have := covers_row (hl e0 he0) (hR _ _ hr)
      exact ⟨e0, he0, _, _, _, rfl, fun x => (this.2 x).trans (hk x)⟩
  | noElements hk => rintro k t es e _ _ ⟨a, ha, _⟩; cases e; cases ha
  | tuple R hS => rintro k t es e hp; cases e; exact absurd ⟨rfl, hS⟩ hp
  | seq R hp hk hR hc =>
    rintro k t es e _ hl ⟨a, ha, a', ha', hd⟩
    cases e
    refine ⟨_, _, _, rfl, ?_⟩
    intro e' he'
    rcases hc e' he' with ⟨e, he, h⟩ | ⟨_, _, _, _, _, _, _, _, hs⟩
    · obtain ⟨t, ks, vs, rfl, hr, _⟩ := hl e he
      obtain ⟨t', ks', vs', rfl, hk', _⟩ := matches_record (hR _ _ h) rfl hr
      exact ⟨_, he, _, _, _, rfl, hk'⟩
    · exact absurd hd (hs a ha a' ha' (hl a ha).filled (hl a' ha').filled)
  | record => rintro k t es e; cases e
  | mapping => rintro k t es e; cases e
  | frame => rintro k t es e; cases e

end Verif
