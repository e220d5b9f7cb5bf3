import Verif.Spec.Coherent
import Verif.Lemmas.Fits
import Verif.Lemmas.HashEq
/-
Values with equal structural hashes cannot be told apart by their contents.
-/
namespace Verif
open Verif.Spec

/-! ### Covering -/

theorem sameLeaf_trans {u v w : Val} (h : SameLeaf u v) (h' : SameLeaf v w) : SameLeaf u w := by
  cases u <;> cases v <;> cases w <;> simp_all [SameLeaf]

theorem counted_hash {f g : FuncInfo} (hf : Counted f) (hg : Counted g) (h : funcHash f = funcHash g) : paramCount f = paramCount g := by
  have lenA : ∀ n, (join py!", " (List.replicate (n + 1) py!"Any")).length = 5 * n + 3 := by
    intro n
    induction n with
    | zero => rfl
    | succ n ih =>
      rw [List.replicate_succ] at ih
      rw [List.replicate_succ, List.replicate_succ, join_cons_cons]
      simp only [List.length_append, ih, List.length_cons, List.length_nil]
      omega
  have len0 : (join py!", " (List.replicate 0 py!"Any")).length = 0 := rfl
  unfold funcHash at h
  unfold paramCount
  rcases hf with h1 | ⟨l1, t1, n, h1⟩ <;> rcases hg with h2 | ⟨l2, t2, m, h2⟩
  · rw [h1, h2]
  · simp only [h1, h2, l2, if_true, H.str.injEq] at h
    have := congrArg List.length h
    simp only [List.length_append, List.length_cons, List.length_nil] at this
    omega
  · simp only [h1, h2, l1, if_true, H.str.injEq] at h
    have := congrArg List.length h
    simp only [List.length_append, List.length_cons, List.length_nil] at this
    omega
  · simp only [h1, h2, l1, l2, if_true, H.str.injEq] at h
    have := congrArg List.length h
    simp only [List.length_append] at this
    have hnm : n = m := by
      cases n with
      | zero =>
        cases m with
        | zero => rfl
        | succ m => rw [lenA, len0] at this; omega
      | succ n =>
        cases m with
        | zero => rw [lenA, len0] at this; omega
        | succ m => rw [lenA, lenA] at this; omega
    rw [h1, h2, hnm]

theorem counted_hash_str {f : FuncInfo} : ∃ s, funcHash f = .str s := by
  unfold funcHash
  split
  · split <;> exact ⟨_, rfl⟩
  · exact ⟨_, rfl⟩

theorem counted_hash_prefix {f : FuncInfo} (hf : Counted f) {s : Str} (h : funcHash f = .str s) : py!"Callable" <+: s := by
  unfold funcHash at h
  rcases hf with h1 | ⟨l1, t1, n, h1⟩
  · simp only [h1, H.str.injEq] at h
    subst h
    exact ⟨[], rfl⟩
  · simp only [h1, l1, if_true, H.str.injEq] at h
    subst h
    exact ⟨py!"[[" ++ join py!", " (List.replicate n py!"Any") ++ py!"], Any]", by simp⟩

theorem sameLeaf_refl {v : Val} (h : Leaf v) : SameLeaf v v := by
  cases v <;> simp_all [SameLeaf, Leaf]

theorem sameLeaf_seq {k t es w} (h : SameLeaf (.seq k t es) w) : False := by cases w <;> exact h.elim
theorem sameLeaf_map {k t ks vs w} (h : SameLeaf (.map k t ks vs) w) : False := by cases w <;> exact h.elim
theorem sameLeaf_seq' {k t es w} (h : SameLeaf w (.seq k t es)) : False := by cases w <;> exact h.elim
theorem sameLeaf_map' {k t ks vs w} (h : SameLeaf w (.map k t ks vs)) : False := by cases w <;> exact h.elim

theorem zip_trans {α} {as bs cs : List α} {P Q T : α → α → Prop} (h1 : as.length = bs.length) (h2 : bs.length = cs.length)
    (hp : ∀ p ∈ as.zip bs, P p.1 p.2) (hq : ∀ p ∈ bs.zip cs, Q p.1 p.2)
    (h : ∀ a b c, (a, b) ∈ as.zip bs → P a b → Q b c → T a c) : ∀ p ∈ as.zip cs, T p.1 p.2 := by
  rintro ⟨a, c⟩ hac
  rw [List.mem_iff_getElem] at hac
  obtain ⟨i, hi, e⟩ := hac
  simp only [List.length_zip] at hi
  simp only [List.getElem_zip, Prod.mk.injEq] at e
  have hi' : i < bs.length := by omega
  have hab : (a, bs[i]) ∈ as.zip bs := by
    rw [List.mem_iff_getElem]
    exact ⟨i, by simp only [List.length_zip]; omega, by simp [e.1]⟩
  have hbc : (bs[i], c) ∈ bs.zip cs := by
    rw [List.mem_iff_getElem]
    exact ⟨i, by simp only [List.length_zip]; omega, by simp [e.2]⟩
  exact h a _ c hab (hp _ hab) (hq _ hbc)

theorem Covers.trans {S : Strategies} {u v w : Val} (h : Covers S u v) (h' : Covers S v w) : Covers S u w := by
  induction h generalizing w with
  | @leaf u v h =>
    cases h' with
    | leaf h' => exact .leaf (sameLeaf_trans h h')
    | _ => first | exact (sameLeaf_seq' h).elim | exact (sameLeaf_map' h).elim
  | tuple hS hl _ ih =>
    cases h' with
    | leaf h' => exact (sameLeaf_seq h').elim
    | tuple _ hl' h2 =>
      exact .tuple hS (hl.trans hl') (zip_trans hl hl' (P := fun a b => ∀ {w}, Covers S b w → Covers S a w)
        (Q := Covers S) (fun p hp => ih p hp) h2 (fun a b c _ hp hq => hp hq))
    | seq _ hn => exact absurd ⟨rfl, hS⟩ hn
  | seq R hn _ h1 ih =>
    cases h' with
    | leaf h' => exact (sameLeaf_seq h').elim
    | tuple hS => exact absurd ⟨rfl, hS⟩ hn
    | seq R' _ r' h1' =>
      refine .seq (fun a c => ∃ b, R a b ∧ R' b c) hn ?_ ?_
      · rintro a c ⟨b, h3, h4⟩
        exact ih a b h3 (r' b c h4)
      · intro e'' he''
        obtain ⟨e', he', hr'⟩ := h1' e'' he''
        obtain ⟨e, he, hr⟩ := h1 e' he'
        exact ⟨e, he, e', hr, hr'⟩
  | record R hr l hk _ h1 ih =>
    cases h' with
    | leaf h' => exact (sameLeaf_map h').elim
    | record R' _ l' hk' r' h1' =>
      refine .record (fun a c => ∃ b, R a b ∧ R' b c) hr l' (fun k => (hk k).trans (hk' k)) ?_ ?_
      · rintro a c ⟨b, h3, h4⟩
        exact ih a b h3 (r' b c h4)
      · intro kw hkw
        obtain ⟨x, hx, hr'⟩ := h1' kw hkw
        obtain ⟨y, hy, hr⟩ := h1 _ hx
        exact ⟨y, hy, x, hr, hr'⟩
    | mapping R' _ hnr => exact absurd ⟨hr.1, fun k hkm => hr.2 k ((hk k).mpr hkm)⟩ hnr
  | frame R l hk _ h1 ih =>
    cases h' with
    | leaf h' => exact (sameLeaf_map h').elim
    | frame R' l' hk' r' h1' =>
      refine .frame (fun a c => ∃ b, R a b ∧ R' b c) l' (fun k => (hk k).trans (hk' k)) ?_ ?_
      · rintro a c ⟨b, h3, h4⟩
        exact ih a b h3 (r' b c h4)
      · intro kw hkw
        obtain ⟨x, hx, hr'⟩ := h1' kw hkw
        obtain ⟨y, hy, hr⟩ := h1 _ hx
        exact ⟨y, hy, x, hr, hr'⟩
    | mapping R' hL => rcases hL with e | e <;> cases e
  | mapping R hL hnr l _ h1 ih =>
    cases h' with
    | leaf h' => exact (sameLeaf_map h').elim
    | record R' _ l' hk' r' h1' =>
      refine .mapping (fun a c => ∃ b, R a b ∧ R' b c) hL hnr l' ?_ ?_
      · rintro a c ⟨b, h3, h4⟩
        exact ih a b h3 (r' b c h4)
      · intro kw hkw
        obtain ⟨x, hx, hr'⟩ := h1' kw hkw
        obtain ⟨y, hy, e, hr⟩ := h1 _ hx
        exact ⟨y, hy, e, x, hr, hr'⟩
    | frame => rcases hL with e | e <;> cases e
    | mapping R' _ _ l' r' h1' =>
      refine .mapping (fun a c => ∃ b, R a b ∧ R' b c) hL hnr l' ?_ ?_
      · rintro a c ⟨b, h3, h4⟩
        exact ih a b h3 (r' b c h4)
      · intro kw hkw
        obtain ⟨x, hx, e', hr'⟩ := h1' kw hkw
        obtain ⟨y, hy, e, hr⟩ := h1 _ hx
        exact ⟨y, hy, e.trans e', x.2, hr, hr'⟩

/-! ### Hashes of values -/

theorem All₂.get {α β} {R : α → β → Prop} {l : List α} {l' : List β} (h : All₂ R l l') : ∀ (i : Nat) (h1 : i < l.length)
    (h2 : i < l'.length), R l[i] l'[i] := by
  induction h with
  | nil => intro i h1; simp at h1
  | cons h _ ih =>
    intro i h1 h2
    cases i with
    | zero => exact h
    | succ i => exact ih i (by simpa using h1) (by simpa using h2)

/-- Hash of dictionaries merged from those among `es`. -/
def RecHash (S : Strategies) (R : H → Val → Prop) (es : List Val) (h : H) : Prop :=
  ∃ l, h = .set l ∧ l ≠ [] ∧ ∀ i ∈ l, ∃ k g x, i = .typed k g ∧ Holding S es k x ∧ R g x

/-- The hash describes the value, up to the kinds of collections and merging. -/
inductive HashOf (S : Strategies) : H → Val → Prop
  | leaf {v} : Leaf v → HashOf S (.ty v.ty) v
  | func {f s} : Counted f → funcHash f = .str s → HashOf S (.str s) (.func f)
  | empty {v} : Void S v → HashOf S (.set []) v
  | tuple {t es hs} (R : H → Val → Prop) : S.tuple = .fixed → (∀ h v, R h v → HashOf S h v) → hs.length = es.length →
      (∀ p ∈ hs.zip es, ¬ Filled S p.2 → R p.1 p.2) → (∀ p ∈ hs.zip es, Filled S p.2 → RecHash S R es p.1) →
      (∀ k x, Holding S es k x → ∃ l g, .set l ∈ hs ∧ .typed k g ∈ l) → HashOf S (.tup hs) (.seq .tuple t es)
  | seq {k t es hs} (R : H → Val → Prop) : ¬ Placed S k → (∀ h v, R h v → HashOf S h v) →
      (∀ e ∈ es, ¬ Filled S e → ∃ h ∈ hs, R h e) →
      (∀ h ∈ hs, (∃ e ∈ es, ¬ Filled S e ∧ R h e) ∨ RecHash S R es h) →
      (∀ k x, Holding S es k x → ∃ l g, .set l ∈ hs ∧ .typed k g ∈ l) → HashOf S (.set hs) (.seq k t es)
  | record {t ks vs hs} (R : H → Val → Prop) : IsRecord S (.map .dict t ks vs) → (∀ h v, R h v → HashOf S h v) → hs ≠ [] →
      (∀ kv ∈ ks.zip vs, ∃ g, .typed kv.1 g ∈ hs ∧ R g kv.2) →
      (∀ h ∈ hs, ∃ k g x, h = .typed k g ∧ (k, x) ∈ ks.zip vs ∧ R g x) → HashOf S (.set hs) (.map .dict t ks vs)
  | mapping {k t ks vs hs} (R : H → Val → Prop) : Lookup k → ¬ IsRecord S (.map k t ks vs) → (∀ h v, R h v → HashOf S h v) → hs ≠ [] →
      (∀ kv ∈ ks.zip vs, ∃ g, .mapping kv.1.ty g ∈ hs ∧ R g kv.2) →
      (∀ h ∈ hs, ∃ kv ∈ ks.zip vs, ∃ g, h = .mapping kv.1.ty g ∧ R g kv.2) → HashOf S (.set hs) (.map k t ks vs)
  | frame {i t ks vs s} : ¬ py!"Callable" <+: s → (S.pandas ≠ .none → s = i.columns) → HashOf S (.str s) (.map (.frame i) t ks vs)

theorem HashOf.plain {S : Strategies} {h : H} {v : Val} (hh : HashOf S h v) : plainH h := by
  cases hh <;> trivial

theorem eqv_typed {k : Key} {g i : H} (h : H.eqv (.typed k g) i = true) : ∃ g', i = .typed k g' ∧ H.eqv g g' = true := by
  cases i <;> simp [H.eqv] at h
  obtain ⟨rfl, h⟩ := h
  exact ⟨_, rfl, h⟩

theorem eqv_mapping {t : Ty} {g i : H} (h : H.eqv (.mapping t g) i = true) : ∃ g', i = .mapping t g' ∧ H.eqv g g' = true := by
  cases i <;> simp [H.eqv] at h
  obtain ⟨rfl, h⟩ := h
  exact ⟨_, rfl, h⟩

theorem eqv_to_set {l : List H} {g : H} (h : H.eqv (.set l) g = true) : ∃ l', g = .set l' ∧ (∀ x ∈ l, ∃ y ∈ l', H.eqv x y = true) ∧
    ∀ y ∈ l', ∃ x ∈ l, H.eqv x y = true := by
  cases g with
  | set l' => exact ⟨l', rfl, eqv_set.mp h⟩
  | _ => simp [H.eqv] at h

/-- Equal hashes describe the same values. -/
theorem HashOf.eqv {S : Strategies} {h : H} {v : Val} (hh : HashOf S h v) : ∀ {g : H}, H.eqv h g = true → HashOf S g v := by
  have rec_eqv : ∀ {R : H → Val → Prop} {es : List Val} {h g : H}, RecHash S R es h → H.eqv h g = true →
      RecHash S (fun g e => ∃ h, R h e ∧ H.eqv h g = true) es g := by
    rintro R es _ g ⟨l, rfl, hne, hl⟩ he
    obtain ⟨l', rfl, e1, e2⟩ := eqv_to_set he
    refine ⟨l', rfl, ?_, ?_⟩
    · rintro rfl
      obtain ⟨x, hx⟩ := List.exists_mem_of_ne_nil _ hne
      obtain ⟨y, hy, _⟩ := e1 x hx
      simp at hy
    · intro i hi
      obtain ⟨x, hx, hxi⟩ := e2 i hi
      obtain ⟨k, g, x, rfl, hh, hr⟩ := hl x hx
      obtain ⟨g', rfl, hg⟩ := eqv_typed hxi
      exact ⟨k, g', x, rfl, hh, g, hr, hg⟩
  have keys_eqv : ∀ {hs gs : List H} {k : Key}, (∀ x ∈ hs, ∃ y ∈ gs, H.eqv x y = true) → (∃ l g, .set l ∈ hs ∧ .typed k g ∈ l) →
      ∃ l g, H.set l ∈ gs ∧ H.typed k g ∈ l := by
    rintro hs gs k e1 ⟨l, g, hl, hg⟩
    obtain ⟨y, hy, he⟩ := e1 _ hl
    obtain ⟨l', rfl, e3, _⟩ := eqv_to_set he
    obtain ⟨i, hi, hgi⟩ := e3 _ hg
    obtain ⟨g', rfl, _⟩ := eqv_typed hgi
    exact ⟨l', g', hy, hi⟩
  induction hh with
  | leaf hl =>
    intro g he
    cases g <;> simp [H.eqv] at he
    subst he
    exact .leaf hl
  | func hc hs =>
    intro g he
    cases g <;> simp [H.eqv] at he
    subst he
    exact .func hc hs
  | frame h1 h2 =>
    intro g he
    cases g <;> simp [H.eqv] at he
    subst he
    exact .frame h1 h2
  | empty hv =>
    intro g he
    obtain ⟨gs, rfl, _, e2⟩ := eqv_to_set he
    have : gs = [] := by
      cases gs with
      | nil => rfl
      | cons y r =>
        obtain ⟨x, hx, _⟩ := e2 y (by simp)
        cases hx
    subst this
    exact .empty hv
  | @tuple t es hs R hS _ hl h1 h2 h3 ih =>
    intro g he
    cases g with
    | tup gs =>
      simp only [H.eqv] at he
      have ha := eqvList_iff.mp he
      have hlen : hs.length = gs.length := ha.length_eq
      have pair : ∀ g e, (g, e) ∈ gs.zip es → ∃ h, (h, e) ∈ hs.zip es ∧ H.eqv h g = true := by
        intro g e hm
        obtain ⟨i, hi, hp⟩ := List.mem_iff_getElem.mp hm
        simp only [List.length_zip] at hi
        simp only [List.getElem_zip, Prod.mk.injEq] at hp
        have hi1 : i < hs.length := by omega
        have hi2 : i < gs.length := by omega
        refine ⟨hs[i], ?_, ?_⟩
        · rw [List.mem_iff_getElem]
          exact ⟨i, by simp only [List.length_zip]; omega, by simp [hp.2]⟩
        · rw [← hp.1]
          exact ha.get i hi1 hi2
      refine .tuple (fun g e => ∃ h, R h e ∧ H.eqv h g = true) hS ?_ (hlen.symm.trans hl) ?_ ?_ ?_
      · rintro g e ⟨h, hr, he⟩
        exact ih h e hr he
      · rintro ⟨g, e⟩ hm hne
        obtain ⟨h, hh, hg⟩ := pair g e hm
        exact ⟨h, h1 _ hh hne, hg⟩
      · rintro ⟨g, e⟩ hm hre
        obtain ⟨h, hh, hg⟩ := pair g e hm
        exact rec_eqv (h2 _ hh hre) hg
      · intro k x hx
        refine keys_eqv ?_ (h3 k x hx)
        intro x hx
        obtain ⟨y, hy, hr⟩ := ha.mem_left x hx
        exact ⟨y, hy, hr⟩
    | _ => simp [H.eqv] at he
  | seq R hn _ h1 h2 h3 ih =>
    intro g he
    obtain ⟨gs, rfl, e1, e2⟩ := eqv_to_set he
    refine .seq (fun g e => ∃ h, R h e ∧ H.eqv h g = true) hn ?_ ?_ ?_ ?_
    · rintro g e ⟨h, hr, he⟩
      exact ih h e hr he
    · intro e he hne
      obtain ⟨h, hh, hr⟩ := h1 e he hne
      obtain ⟨g, hg, hhg⟩ := e1 h hh
      exact ⟨g, hg, h, hr, hhg⟩
    · intro g hg
      obtain ⟨h, hh, hhg⟩ := e2 g hg
      rcases h2 h hh with ⟨e, he, hne, hr⟩ | hr
      · exact .inl ⟨e, he, hne, h, hr, hhg⟩
      · exact .inr (rec_eqv hr hhg)
    · intro k x hx
      exact keys_eqv e1 (h3 k x hx)
  | record R hrc _ hne h1 h2 ih =>
    intro g he
    obtain ⟨gs, rfl, e1, e2⟩ := eqv_to_set he
    refine .record (fun g e => ∃ h, R h e ∧ H.eqv h g = true) hrc ?_ ?_ ?_ ?_
    · rintro g e ⟨h, hr, he⟩
      exact ih h e hr he
    · rintro rfl
      obtain ⟨x, hx⟩ := List.exists_mem_of_ne_nil _ hne
      obtain ⟨y, hy, _⟩ := e1 x hx
      simp at hy
    · intro kv hkv
      obtain ⟨g, hg, hr⟩ := h1 kv hkv
      obtain ⟨i, hi, hgi⟩ := e1 _ hg
      obtain ⟨g', rfl, hgg⟩ := eqv_typed hgi
      exact ⟨g', hi, g, hr, hgg⟩
    · intro i hi
      obtain ⟨x, hx, hxi⟩ := e2 i hi
      obtain ⟨k, g, y, rfl, hy, hr⟩ := h2 x hx
      obtain ⟨g', rfl, hgg⟩ := eqv_typed hxi
      exact ⟨k, g', y, rfl, hy, g, hr, hgg⟩
  | mapping R hL hrc _ hne h1 h2 ih =>
    intro g he
    obtain ⟨gs, rfl, e1, e2⟩ := eqv_to_set he
    refine .mapping (fun g e => ∃ h, R h e ∧ H.eqv h g = true) hL hrc ?_ ?_ ?_ ?_
    · rintro g e ⟨h, hr, he⟩
      exact ih h e hr he
    · rintro rfl
      obtain ⟨x, hx⟩ := List.exists_mem_of_ne_nil _ hne
      obtain ⟨y, hy, _⟩ := e1 x hx
      simp at hy
    · intro kv hkv
      obtain ⟨g, hg, hr⟩ := h1 kv hkv
      obtain ⟨i, hi, hgi⟩ := e1 _ hg
      obtain ⟨g', rfl, hgg⟩ := eqv_mapping hgi
      exact ⟨g', hi, g, hr, hgg⟩
    · intro i hi
      obtain ⟨x, hx, hxi⟩ := e2 i hi
      obtain ⟨kv, hkv, g, rfl, hr⟩ := h2 x hx
      obtain ⟨g', rfl, hgg⟩ := eqv_mapping hxi
      exact ⟨kv, hkv, g', rfl, g, hr, hgg⟩

/-- The empty hash belongs to empty collections. -/
theorem HashOf.void {S : Strategies} {v : Val} (hh : HashOf S (.set []) v) : Void S v := by
  cases hh with
  | empty h => exact h
  | @seq k t es _ R hn _ h1 _ h3 =>
    refine ⟨hn, ?_⟩
    cases es with
    | nil => rfl
    | cons e r =>
      by_cases hf : Filled S e
      · obtain ⟨kv, hkv⟩ := List.exists_mem_of_ne_nil _ hf.2
        obtain ⟨_, _, h, _⟩ := h3 kv.1 kv.2 ⟨e, by simp, hf.1, hkv⟩
        cases h
      · obtain ⟨_, h, _⟩ := h1 e (by simp) hf
        cases h
  | record _ _ _ hne => exact absurd rfl hne
  | mapping _ _ _ _ hne => exact absurd rfl hne

/-- A hash of a value that is no record is not the hash of merged dictionaries. -/
theorem HashOf.not_rec {S : Strategies} {R : H → Val → Prop} {es : List Val} {h g : H} {v : Val} (hh : HashOf S h v)
    (hv : ¬ Filled S v) (he : H.eqv h g = true) (hr : RecHash S R es g) : False := by
  obtain ⟨l, rfl, hne, hl⟩ := hr
  have hh := hh.eqv he
  obtain ⟨i, hi⟩ := List.exists_mem_of_ne_nil _ hne
  obtain ⟨k, g, x, rfl, _, _⟩ := hl i hi
  cases hh with
  | seq R' _ r' _ h2 _ =>
    rcases h2 _ hi with ⟨e, _, _, hr⟩ | ⟨l', e, _⟩
    · exact (r' _ _ hr).plain
    · cases e
  | empty => cases hi
  | record _ hrc _ _ _ h2 =>
    obtain ⟨_, _, _, _, hm, _⟩ := h2 _ hi
    exact hv ⟨hrc, List.ne_nil_of_mem hm⟩
  | mapping R' _ _ _ _ _ h2 =>
    obtain ⟨kv, _, g', e, _⟩ := h2 _ hi
    cases e

theorem eqv_swap {x y : H} (h : H.eqv x y = true) : H.eqv y x = true := eqv_symm _ _ h

/-- Values with equal hashes are alike. -/
theorem HashOf.alike {S : Strategies} {h : H} {v : Val} (hh : HashOf S h v) : ∀ {g : H} {w : Val}, HashOf S g w → H.eqv h g = true →
    Alike S v w := by
  -- entries of merged dictionaries
  have ents : ∀ {R R' : H → Val → Prop} {es es' : List Val} {hs gs : List H},
      (∀ h v, R h v → ∀ {g : H} {w : Val}, HashOf S g w → H.eqv h g = true → Alike S v w) → (∀ h v, R' h v → HashOf S h v) →
      (∀ h ∈ hs, ∀ l, h = .set l → ∀ k g, H.typed k g ∈ l → RecHash S R es h) →
      (∀ h ∈ gs, ∀ l, h = .set l → ∀ k g, H.typed k g ∈ l → RecHash S R' es' h) →
      (∀ x ∈ hs, ∃ y ∈ gs, H.eqv x y = true) → (∀ y ∈ gs, ∃ x ∈ hs, H.eqv x y = true) →
      (∀ k x, Holding S es k x → ∃ l g, .set l ∈ hs ∧ .typed k g ∈ l) →
      (∀ k x, Holding S es' k x → ∃ l g, .set l ∈ gs ∧ .typed k g ∈ l) →
      SameEntries S (fun a b => ∃ h g, R h a ∧ HashOf S g b ∧ H.eqv h g = true) es es' := by
    intro R R' es es' hs gs _ r' q q' e1 e2 k1 k2 k x hx
    obtain ⟨l, g, l', g', hl, hl', hg, hg', hgg⟩ : ∃ l g l' g', H.set l ∈ hs ∧ H.set l' ∈ gs ∧ H.typed k g ∈ l ∧ H.typed k g' ∈ l' ∧
        H.eqv g g' = true := by
      rcases hx with hx | hx
      · obtain ⟨l, g, hl, hg⟩ := k1 k x hx
        obtain ⟨y, hy, he⟩ := e1 _ hl
        obtain ⟨l', rfl, e3, _⟩ := eqv_to_set he
        obtain ⟨i, hi, hgi⟩ := e3 _ hg
        obtain ⟨g', rfl, hgg⟩ := eqv_typed hgi
        exact ⟨l, g, l', g', hl, hy, hg, hi, hgg⟩
      · obtain ⟨l, g, hl, hg⟩ := k2 k x hx
        obtain ⟨y, hy, he⟩ := e2 _ hl
        obtain ⟨l', rfl, e3, _⟩ := eqv_to_set (eqv_swap he)
        obtain ⟨i, hi, hgi⟩ := e3 _ hg
        obtain ⟨g', rfl, hgg⟩ := eqv_typed hgi
        exact ⟨l', g', l, g, hy, hl, hi, hg, eqv_swap hgg⟩
    obtain ⟨l1, el, _, a⟩ := q _ hl l rfl k g hg
    cases el
    obtain ⟨l2, el, _, a'⟩ := q' _ hl' l' rfl k g' hg'
    cases el
    obtain ⟨_, _, y, e, hy, ry⟩ := a _ hg
    cases e
    obtain ⟨_, _, y', e, hy', ry'⟩ := a' _ hg'
    cases e
    exact ⟨y, y', hy, hy', g, g', ry, r' _ _ ry', hgg⟩
  induction hh with
  | @leaf v hl =>
    intro g w hg he
    cases hg with
    | leaf hl' =>
      simp only [H.eqv, decide_eq_true_eq] at he
      exact .leaf hl hl' he
    | _ => simp [H.eqv] at he
  | func hc hs =>
    intro g w hg he
    cases hg with
    | func hc' hs' =>
      simp only [H.eqv, decide_eq_true_eq] at he
      subst he
      exact .func hc hc' (counted_hash hc hc' (hs.trans hs'.symm))
    | frame h1 =>
      simp only [H.eqv, decide_eq_true_eq] at he
      subst he
      exact absurd (counted_hash_prefix hc hs) h1
    | _ => simp [H.eqv] at he
  | frame h1 h2 =>
    intro g w hg he
    cases hg with
    | func hc hs =>
      simp only [H.eqv, decide_eq_true_eq] at he
      subst he
      exact absurd (counted_hash_prefix hc hs) h1
    | frame h1' h2' =>
      simp only [H.eqv, decide_eq_true_eq] at he
      subst he
      refine .frame ?_
      by_cases hp : S.pandas = .none
      · exact .inl hp
      · exact .inr ((h2 hp).symm.trans (h2' hp))
    | _ => simp [H.eqv] at he
  | empty hv =>
    intro g w hg he
    exact .empty hv (hg.eqv (eqv_swap he)).void
  | @tuple t es hs R hS r hl h1 h2 h3 ih =>
    intro g w hg he
    cases hg with
    | @tuple t' es' gs R' _ r' hl' h1' h2' h3' =>
      simp only [H.eqv] at he
      have ha := eqvList_iff.mp he
      have hlen : hs.length = gs.length := ha.length_eq
      have isrec : ∀ {R : H → Val → Prop} {es : List Val} {hs : List H}, (∀ h v, R h v → HashOf S h v) → hs.length = es.length →
          (∀ p ∈ hs.zip es, ¬ Filled S p.2 → R p.1 p.2) → (∀ p ∈ hs.zip es, Filled S p.2 → RecHash S R es p.1) →
          ∀ h ∈ hs, ∀ l, h = .set l → ∀ k g, H.typed k g ∈ l → RecHash S R es h := by
        rintro R es hs r hl h1 h2 _ hh l rfl k g hg
        obtain ⟨i, hi, e⟩ := List.mem_iff_getElem.mp hh
        have hm : (H.set l, es[i]'(by omega)) ∈ hs.zip es := by
          rw [List.mem_iff_getElem]
          exact ⟨i, by simp only [List.length_zip]; omega, by simp [e]⟩
        by_cases hrec : Filled S (es[i]'(by omega))
        · exact h2 _ hm hrec
        · have hh := r _ _ (h1 _ hm hrec)
          generalize es[i]'(by omega) = e at hh hrec
          dsimp only at hh
          exfalso
          cases hh with
          | seq R' _ r' _ h2 _ =>
            rcases h2 _ hg with ⟨e, _, _, hr⟩ | ⟨l', e, _⟩
            · exact (r' _ _ hr).plain
            · cases e
          | empty => cases hg
          | record _ hrc _ _ _ h2 =>
            obtain ⟨_, _, _, _, hm, _⟩ := h2 _ hg
            exact hrec ⟨hrc, List.ne_nil_of_mem hm⟩
          | mapping R' _ _ _ _ _ h2 =>
            obtain ⟨kv, _, g', e, _⟩ := h2 _ hg
            cases e
      refine .tuple (fun a b => ∃ h g, R h a ∧ HashOf S g b ∧ H.eqv h g = true) hS (by omega) ?_ ?_ ?_
      · rintro a b ⟨h, g, hr, hg, he⟩
        exact ih h a hr hg he
      · rintro ⟨a, b⟩ hab
        obtain ⟨i, hi, hp⟩ := List.mem_iff_getElem.mp hab
        simp only [List.length_zip] at hi
        simp only [List.getElem_zip, Prod.mk.injEq] at hp
        have hi1 : i < hs.length := by omega
        have hi2 : i < gs.length := by omega
        have m1 : (hs[i], a) ∈ hs.zip es := by
          rw [List.mem_iff_getElem]
          exact ⟨i, by simp only [List.length_zip]; omega, by simp [hp.1]⟩
        have m2 : (gs[i], b) ∈ gs.zip es' := by
          rw [List.mem_iff_getElem]
          exact ⟨i, by simp only [List.length_zip]; omega, by simp [hp.2]⟩
        have heq : H.eqv hs[i] gs[i] = true := ha.get i hi1 hi2
        by_cases hra : Filled S a
        · by_cases hrb : Filled S b
          · exact ⟨⟨fun _ => hrb, fun _ => hra⟩, fun h => absurd hra h⟩
          · exact ((r' _ _ (h1' _ m2 hrb)).not_rec hrb (eqv_swap heq) (h2 _ m1 hra)).elim
        · by_cases hrb : Filled S b
          · exact ((r _ _ (h1 _ m1 hra)).not_rec hra heq (h2' _ m2 hrb)).elim
          · exact ⟨⟨fun h => absurd h hra, fun h => absurd h hrb⟩, fun _ => ⟨_, _, h1 _ m1 hra, r' _ _ (h1' _ m2 hrb), heq⟩⟩
      · exact ents ih r' (isrec r hl h1 h2) (isrec r' hl' h1' h2') (fun x hx => ha.mem_left x hx) (fun y hy => ha.mem_right y hy) h3 h3'
    | _ => simp [H.eqv] at he
  | @seq k t es hs R hn r h1 h2 h3 ih =>
    intro g w hg he
    have isrec : ∀ {R : H → Val → Prop} {es : List Val} {hs : List H}, (∀ h v, R h v → HashOf S h v) →
        (∀ h ∈ hs, (∃ e ∈ es, ¬ Filled S e ∧ R h e) ∨ RecHash S R es h) →
        ∀ h ∈ hs, ∀ l, h = .set l → ∀ k g, H.typed k g ∈ l → RecHash S R es h := by
      rintro R es hs r h2 _ hh l rfl k g hg
      rcases h2 _ hh with ⟨e, _, hne, hr⟩ | hr
      · exfalso
        have hh := r _ _ hr
        cases hh with
        | seq R' _ r' _ h2 _ =>
          rcases h2 _ hg with ⟨e, _, _, hr⟩ | ⟨l', e, _⟩
          · exact (r' _ _ hr).plain
          · cases e
        | empty => cases hg
        | record _ hrc _ _ _ h2 =>
          obtain ⟨_, _, _, _, hm, _⟩ := h2 _ hg
          exact hne ⟨hrc, List.ne_nil_of_mem hm⟩
        | mapping R' _ _ _ _ _ h2 =>
          obtain ⟨kv, _, g', e, _⟩ := h2 _ hg
          cases e
      · exact hr
    have plain : ∀ h ∈ hs, plainH h := by
      intro h hh
      rcases h2 h hh with ⟨e, _, _, hr⟩ | ⟨l, rfl, _⟩
      · exact (r _ _ hr).plain
      · trivial
    cases hg with
    | leaf | func | frame => simp [H.eqv] at he
    | empty hv => exact .empty (HashOf.eqv (.seq (t := t) R hn r h1 h2 h3) he).void hv
    | tuple => simp [H.eqv] at he
    | @seq k' t' es' gs R' hn' r' h1' h2' h3' =>
      obtain ⟨e1, e2⟩ := eqv_set.mp he
      refine .seq (fun a b => ∃ h g, R h a ∧ HashOf S g b ∧ H.eqv h g = true) hn hn' ?_ ?_ ?_ ?_
      · rintro a b ⟨h, g, hr, hg, he⟩
        exact ih h a hr hg he
      · intro e he hne
        obtain ⟨h, hh, hr⟩ := h1 e he hne
        obtain ⟨g, hg, hhg⟩ := e1 h hh
        rcases h2' g hg with ⟨e', he', hne', hr'⟩ | hr'
        · exact ⟨e', he', hne', h, g, hr, r' _ _ hr', hhg⟩
        · exact ((r _ _ hr).not_rec hne hhg hr').elim
      · intro e he hne
        obtain ⟨h, hh, hr⟩ := h1' e he hne
        obtain ⟨g, hg, hhg⟩ := e2 h hh
        rcases h2 g hg with ⟨e', he', hne', hr'⟩ | hr'
        · exact ⟨e', he', hne', g, h, hr', r' _ _ hr, hhg⟩
        · exact ((r' _ _ hr).not_rec hne (eqv_swap hhg) hr').elim
      · exact ents ih r' (isrec r h2) (isrec r' h2') e1 e2 h3 h3'
    | record R' _ _ hne _ h2' =>
      exfalso
      obtain ⟨_, e2⟩ := eqv_set.mp he
      obtain ⟨i, hi⟩ := List.exists_mem_of_ne_nil _ hne
      obtain ⟨k, g, x, rfl, _⟩ := h2' i hi
      obtain ⟨x, hx, hxi⟩ := e2 _ hi
      exact plainH_eqv hxi (plain x hx)
    | mapping R' _ _ _ hne _ h2' =>
      exfalso
      obtain ⟨_, e2⟩ := eqv_set.mp he
      obtain ⟨i, hi⟩ := List.exists_mem_of_ne_nil _ hne
      obtain ⟨kv, _, g, rfl, _⟩ := h2' i hi
      obtain ⟨x, hx, hxi⟩ := e2 _ hi
      exact plainH_eqv hxi (plain x hx)
  | @record t ks vs hs R hrc r hne h1 h2 ih =>
    intro g w hg he
    cases hg with
    | leaf | func | frame => simp [H.eqv] at he
    | empty hv => exact .empty (HashOf.eqv (.record (t := t) R hrc r hne h1 h2) he).void hv
    | tuple => simp [H.eqv] at he
    | seq R' _ r' _ h2' _ =>
      exfalso
      obtain ⟨e1, _⟩ := eqv_set.mp he
      obtain ⟨i, hi⟩ := List.exists_mem_of_ne_nil _ hne
      obtain ⟨k, g, x, rfl, _⟩ := h2 i hi
      obtain ⟨y, hy, hiy⟩ := e1 _ hi
      obtain ⟨g', rfl, _⟩ := eqv_typed hiy
      rcases h2' _ hy with ⟨e, _, _, hr⟩ | ⟨l, e, _⟩
      · exact (r' _ _ hr).plain
      · cases e
    | record R' hrc' r' _ h1' h2' =>
      obtain ⟨e1, e2⟩ := eqv_set.mp he
      refine .record (fun a b => ∃ h g, R h a ∧ HashOf S g b ∧ H.eqv h g = true) hrc hrc' ?_ ?_ ?_
      · rintro a b ⟨h, g, hr, hg, he⟩
        exact ih h a hr hg he
      · intro kv hkv
        obtain ⟨g, hg, hr⟩ := h1 kv hkv
        obtain ⟨i, hi, hgi⟩ := e1 _ hg
        obtain ⟨g', rfl, hgg⟩ := eqv_typed hgi
        obtain ⟨k', g2, w, e, hw, hr'⟩ := h2' _ hi
        cases e
        exact ⟨w, hw, g, g', hr, r' _ _ hr', hgg⟩
      · intro kw hkw
        obtain ⟨g, hg, hr⟩ := h1' kw hkw
        obtain ⟨i, hi, hgi⟩ := e2 _ hg
        obtain ⟨g', rfl, hgg⟩ := eqv_typed (eqv_swap hgi)
        obtain ⟨k', g2, w, e, hw, hr'⟩ := h2 _ hi
        cases e
        exact ⟨w, hw, g', g, hr', r' _ _ hr, eqv_swap hgg⟩
    | mapping R' _ _ _ _ _ h2' =>
      exfalso
      obtain ⟨e1, _⟩ := eqv_set.mp he
      obtain ⟨i, hi⟩ := List.exists_mem_of_ne_nil _ hne
      obtain ⟨k, g, x, rfl, _⟩ := h2 i hi
      obtain ⟨y, hy, hiy⟩ := e1 _ hi
      obtain ⟨g', rfl, _⟩ := eqv_typed hiy
      obtain ⟨kv, _, _, e, _⟩ := h2' _ hy
      cases e
  | @mapping k t ks vs hs R hL hrc r hne h1 h2 ih =>
    intro g w hg he
    cases hg with
    | leaf | func | frame => simp [H.eqv] at he
    | empty hv => exact .empty (HashOf.eqv (.mapping (t := t) R hL hrc r hne h1 h2) he).void hv
    | tuple => simp [H.eqv] at he
    | seq R' _ r' _ h2' _ =>
      exfalso
      obtain ⟨e1, _⟩ := eqv_set.mp he
      obtain ⟨i, hi⟩ := List.exists_mem_of_ne_nil _ hne
      obtain ⟨kv, _, g, rfl, _⟩ := h2 i hi
      obtain ⟨y, hy, hiy⟩ := e1 _ hi
      obtain ⟨g', rfl, _⟩ := eqv_mapping hiy
      rcases h2' _ hy with ⟨e, _, _, hr⟩ | ⟨l, e, _⟩
      · exact (r' _ _ hr).plain
      · cases e
    | record R' _ _ _ _ h2' =>
      exfalso
      obtain ⟨e1, _⟩ := eqv_set.mp he
      obtain ⟨i, hi⟩ := List.exists_mem_of_ne_nil _ hne
      obtain ⟨kv, _, g, rfl, _⟩ := h2 i hi
      obtain ⟨y, hy, hiy⟩ := e1 _ hi
      obtain ⟨g', rfl, _⟩ := eqv_mapping hiy
      obtain ⟨_, _, _, e, _⟩ := h2' _ hy
      cases e
    | mapping R' hL' hrc' r' _ h1' h2' =>
      obtain ⟨e1, e2⟩ := eqv_set.mp he
      refine .mapping (fun a b => ∃ h g, R h a ∧ HashOf S g b ∧ H.eqv h g = true) hL hL' hrc hrc' ?_ ?_ ?_
      · rintro a b ⟨h, g, hr, hg, he⟩
        exact ih h a hr hg he
      · intro kv hkv
        obtain ⟨g, hg, hr⟩ := h1 kv hkv
        obtain ⟨i, hi, hgi⟩ := e1 _ hg
        obtain ⟨g', rfl, hgg⟩ := eqv_mapping hgi
        obtain ⟨kw, hkw, g2, e, hr'⟩ := h2' _ hi
        injection e with e e'
        subst e'
        exact ⟨kw, hkw, e, g, g', hr, r' _ _ hr', hgg⟩
      · intro kw hkw
        obtain ⟨g, hg, hr⟩ := h1' kw hkw
        obtain ⟨i, hi, hgi⟩ := e2 _ hg
        obtain ⟨g', rfl, hgg⟩ := eqv_mapping (eqv_swap hgi)
        obtain ⟨kv, hkv, g2, e, hr'⟩ := h2 _ hi
        injection e with e e'
        subst e'
        exact ⟨kv, hkv, e.symm, g', g, hr', r' _ _ hr, eqv_swap hgg⟩

end Verif
