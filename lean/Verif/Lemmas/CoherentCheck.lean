import Verif.Lemmas.Holds
/-
Coherence of given data by computation: a test that implies `Covers`, one that is implied by `Alike`, and with them a test
that implies `Coherent`.
-/
namespace Verif
open Verif.Spec

instance instDecIsRecord (S : Strategies) (v : Val) : Decidable (IsRecord S v) :=
  match v with
  | .map .dict _ _ _ => inferInstanceAs (Decidable (_ ∧ ∀ _ ∈ _, _))
  | .map .proxy _ _ _ | .map (.frame _) _ _ _ => inferInstanceAs (Decidable False)
  | .inst _ _ | .seq _ _ _ | .func _ | .cls _ _ | .module _ | .io _ | .ndarray _ _ => inferInstanceAs (Decidable False)

instance instDecPlainName (n : Str) : Decidable (PlainName n) := inferInstanceAs (Decidable (_ ∧ _))
instance instDecPlaced (S : Strategies) (k : SeqKind) : Decidable (Placed S k) := inferInstanceAs (Decidable (_ ∧ _))
instance instDecLookup (k : MapKind) : Decidable (Lookup k) := inferInstanceAs (Decidable (_ ∨ _))
instance instDecInspected (S : Strategies) (n : Nat) : Decidable (Inspected S n) := inferInstanceAs (Decidable (_ ∨ _))

def countedB (f : FuncInfo) : Bool :=
  match f.sig with
  | .valueError => true
  | .ok _ _ => f.isLambda
  | .typeError => false

theorem countedB_iff {f : FuncInfo} : countedB f = true ↔ Counted f := by
  unfold countedB Counted
  cases f.sig <;> simp

/-- Implies `Covers`. -/
def coversB (S : Strategies) : Nat → Val → Val → Bool
  | 0, _, _ => false
  | f + 1, v, w => match v, w with
    | .inst t _, .inst t' _ => decide (t = t')
    | .cls _ c, .cls _ c' => decide (c = c')
    | .module _, .module _ | .io _, .io _ => true
    | .ndarray _ d, .ndarray _ d' => decide (d = d')
    | .func g, .func g' => countedB g && countedB g' && decide (paramCount g = paramCount g')
    | .seq k _ es, .seq k' _ es' => decide (k = k') && (if Placed S k then
        decide (es.length = es'.length) && (es.zip es').all (fun p => coversB S f p.1 p.2)
      else es'.all (fun e' => es.any (fun e => coversB S f e e')))
    | .map (.frame _) _ ks vs, .map (.frame _) _ ks' vs' => decide (ks'.length = vs'.length) &&
        decide (∀ x ∈ ks, x ∈ ks') && decide (∀ x ∈ ks', x ∈ ks) &&
        (ks'.zip vs').all (fun kw => (ks.zip vs).any (fun kv => decide (kv.1 = kw.1) && coversB S f kv.2 kw.2))
    | .map k t ks vs, .map k' _ ks' vs' => decide (k = k') && decide (Lookup k) && decide (ks'.length = vs'.length) &&
      (if IsRecord S (.map k t ks vs) then decide (∀ x ∈ ks, x ∈ ks') && decide (∀ x ∈ ks', x ∈ ks) &&
        (ks'.zip vs').all (fun kw => (ks.zip vs).any (fun kv => decide (kv.1 = kw.1) && coversB S f kv.2 kw.2))
      else (ks'.zip vs').all (fun kw => (ks.zip vs).any (fun kv => decide (kv.1.ty = kw.1.ty) && coversB S f kv.2 kw.2)))
    | _, _ => false

theorem coversB_sound {S : Strategies} : ∀ {f : Nat} {v w : Val}, coversB S f v w = true → Covers S v w
  | 0, _, _, h => by simp [coversB] at h
  | f + 1, v, w, h => by
    unfold coversB at h
    split at h
    · exact .leaf (show _ = _ from decide_eq_true_eq.mp h)
    · exact .leaf (show _ = _ from decide_eq_true_eq.mp h)
    · exact .leaf trivial
    · exact .leaf trivial
    · exact .leaf (show _ = _ from decide_eq_true_eq.mp h)
    · rw [Bool.and_eq_true, Bool.and_eq_true, countedB_iff, countedB_iff, decide_eq_true_eq] at h
      exact .leaf ⟨h.1.1, h.1.2, h.2⟩
    · rename_i k t es k' t' es'
      rw [Bool.and_eq_true, decide_eq_true_eq] at h
      obtain ⟨rfl, h⟩ := h
      split at h
      · rename_i hp
        rw [Bool.and_eq_true, decide_eq_true_eq, List.all_eq_true] at h
        obtain ⟨rfl, hS⟩ := hp
        exact .tuple hS h.1 (fun p hp => coversB_sound (h.2 p hp))
      · rename_i hp
        refine .seq (fun a b => coversB S f a b = true) hp (fun a b h => coversB_sound h) ?_
        rw [List.all_eq_true] at h
        intro e' he'
        obtain ⟨e, he, h⟩ := List.any_eq_true.mp (h e' he')
        exact ⟨e, he, h⟩
    · simp only [Bool.and_eq_true, decide_eq_true_eq, List.all_eq_true, List.any_eq_true] at h
      refine .frame (fun a b => coversB S f a b = true) h.1.1.1 (fun x => ⟨h.1.1.2 x, h.1.2 x⟩) (fun a b h => coversB_sound h) ?_
      intro kw hkw
      obtain ⟨⟨k1, v1⟩, hm, e, h⟩ := h.2 kw hkw
      dsimp only at e h
      subst e
      exact ⟨v1, hm, h⟩
    · rename_i k t ks vs k' t' ks' vs' _
      simp only [Bool.and_eq_true, decide_eq_true_eq] at h
      obtain ⟨⟨⟨rfl, hk⟩, hl⟩, h⟩ := h
      split at h
      · rename_i hr
        simp only [Bool.and_eq_true, decide_eq_true_eq, List.all_eq_true, List.any_eq_true] at h
        have : k = .dict := by
          rcases hk with rfl | rfl
          · rfl
          · exact hr.elim
        subst this
        refine .record (fun a b => coversB S f a b = true) hr hl (fun x => ⟨h.1.1 x, h.1.2 x⟩) (fun a b h => coversB_sound h) ?_
        intro kw hkw
        obtain ⟨⟨k1, v1⟩, hm, e, h⟩ := h.2 kw hkw
        dsimp only at e h
        subst e
        exact ⟨v1, hm, h⟩
      · rename_i hr
        simp only [Bool.and_eq_true, decide_eq_true_eq, List.all_eq_true, List.any_eq_true] at h
        exact .mapping (fun a b => coversB S f a b = true) hk hr hl (fun a b h => coversB_sound h) h
    · cases h

/-- The items of the dictionaries among `es` that are described by TypedDicts. -/
def holdings (S : Strategies) (es : List Val) : List (Key × Val) := (es.filter (fun e => decide (IsRecord S e))).flatMap Val.items

theorem mem_holdings {S : Strategies} {es : List Val} {k : Key} {x : Val} : (k, x) ∈ holdings S es ↔ Holding S es k x := by
  simp only [holdings, List.mem_flatMap, List.mem_filter, decide_eq_true_eq, Holding, and_assoc]

def leafB : Val → Bool
  | .inst _ _ | .cls _ _ | .module _ | .io _ | .ndarray _ _ => true
  | _ => false

def sameEntriesB (S : Strategies) (r : Val → Val → Bool) (es es' : List Val) : Bool :=
  (holdings S es ++ holdings S es').all (fun kx => (holdings S es).any (fun ky => decide (ky.1 = kx.1) &&
    (holdings S es').any (fun kz => decide (kz.1 = kx.1) && r ky.2 kz.2)))

theorem sameEntriesB_of {S : Strategies} {R : Val → Val → Prop} {r : Val → Val → Bool} (hr : ∀ a b, R a b → r a b = true)
    {es es' : List Val} (h : SameEntries S R es es') : sameEntriesB S r es es' = true := by
  unfold sameEntriesB
  rw [List.all_eq_true]
  rintro ⟨k, x⟩ hx
  rw [List.mem_append, mem_holdings, mem_holdings] at hx
  obtain ⟨y, y', h1, h2, h3⟩ := h k x hx
  rw [List.any_eq_true]
  refine ⟨(k, y), mem_holdings.mpr h1, ?_⟩
  simp only [decide_true, Bool.true_and]
  rw [List.any_eq_true]
  exact ⟨(k, y'), mem_holdings.mpr h2, by simp [hr _ _ h3]⟩

instance instDecFilled (S : Strategies) (v : Val) : Decidable (Filled S v) :=
  decidable_of_iff (IsRecord S v ∧ v.items.isEmpty = false) (by simp [Filled])

/-- Implied by `Void`. -/
def voidB : Val → Bool
  | .seq _ _ es => es.isEmpty
  | .map k t ks vs => (Val.map k t ks vs).items.isEmpty
  | _ => false

theorem voidB_of {S : Strategies} {v : Val} (h : Void S v) : voidB v = true := by
  cases v with
  | seq k t es => simp [voidB, h.2]
  | map k t ks vs =>
    unfold voidB
    dsimp only
    rw [h.2]
    rfl
  | _ => exact h.elim

/-- Implied by `Alike`. -/
def alikeB (S : Strategies) : Nat → Val → Val → Bool
  | 0, _, _ => true
  | f + 1, v, w => (voidB v && voidB w) || match v, w with
    | .seq k _ es, .seq k' _ es' => decide (Placed S k ↔ Placed S k') && sameEntriesB S (alikeB S f) es es' && (if Placed S k then
        decide (es.length = es'.length) && (es.zip es').all (fun p => decide (Filled S p.1 ↔ Filled S p.2) &&
          (decide (Filled S p.1) || alikeB S f p.1 p.2))
      else es.all (fun e => decide (Filled S e) || es'.any (fun e' => alikeB S f e e')) &&
        es'.all (fun e' => decide (Filled S e') || es.any (fun e => alikeB S f e e')))
    | .map (.frame i) _ _ _, .map (.frame i') _ _ _ => decide (S.pandas = .none ∨ i.columns = i'.columns)
    | .map k t ks vs, .map k' t' ks' vs' => decide (IsRecord S (.map k t ks vs) ↔ IsRecord S (.map k' t' ks' vs')) &&
      (if IsRecord S (.map k t ks vs) then
        (ks.zip vs).all (fun kv => (ks'.zip vs').any (fun kw => decide (kv.1 = kw.1) && alikeB S f kv.2 kw.2)) &&
        (ks'.zip vs').all (fun kw => (ks.zip vs).any (fun kv => decide (kv.1 = kw.1) && alikeB S f kv.2 kw.2))
      else (ks.zip vs).all (fun kv => (ks'.zip vs').any (fun kw => decide (kv.1.ty = kw.1.ty) && alikeB S f kv.2 kw.2)) &&
        (ks'.zip vs').all (fun kw => (ks.zip vs).any (fun kv => decide (kv.1.ty = kw.1.ty) && alikeB S f kv.2 kw.2)))
    | .func g, .func g' => decide (paramCount g = paramCount g')
    | v, w => leafB v && leafB w && decide (v.ty = w.ty)

theorem alikeB_of {S : Strategies} : ∀ {f : Nat} {v w : Val}, Alike S v w → alikeB S f v w = true
  | 0, _, _, _ => rfl
  | f + 1, v, w, h => by
    cases h with
    | leaf h1 h2 h3 =>
      cases v <;> first | exact h1.elim | cases w <;> first | exact h2.elim | simp_all [alikeB, leafB]
    | func _ _ h => simp [alikeB, h]
    | empty h1 h2 =>
      unfold alikeB
      rw [voidB_of h1, voidB_of h2]
      rfl
    | @tuple t t' es es' R hS hl hR hz he =>
      rw [alikeB, Bool.or_eq_true]
      right
      simp only [sameEntriesB_of (fun a b h => alikeB_of (hR a b h)) he, Bool.and_true, iff_self, decide_true, Bool.true_and]
      rw [if_pos ⟨rfl, hS⟩, Bool.and_eq_true, decide_eq_true_eq, List.all_eq_true]
      refine ⟨hl, fun p hp => ?_⟩
      have := hz p hp
      rw [Bool.and_eq_true, decide_eq_true_eq, Bool.or_eq_true, decide_eq_true_eq]
      refine ⟨this.1, ?_⟩
      by_cases hr : Filled S p.1
      · exact .inl hr
      · exact .inr (alikeB_of (hR _ _ (this.2 hr)))
    | @seq k k' t t' es es' R hp hp' hR h1 h2 he =>
      rw [alikeB, Bool.or_eq_true]
      right
      simp only [sameEntriesB_of (fun a b h => alikeB_of (hR a b h)) he, Bool.and_true]
      rw [if_neg hp]
      simp only [Bool.and_eq_true, decide_eq_true_eq, List.all_eq_true, Bool.or_eq_true, List.any_eq_true]
      refine ⟨iff_of_false hp hp', fun e hm => ?_, fun e hm => ?_⟩
      · by_cases hr : Filled S e
        · exact .inl hr
        · obtain ⟨e', h1, _, h3⟩ := h1 e hm hr
          exact .inr ⟨e', h1, alikeB_of (hR _ _ h3)⟩
      · by_cases hr : Filled S e
        · exact .inl hr
        · obtain ⟨e', h1, _, h3⟩ := h2 e hm hr
          exact .inr ⟨e', h1, alikeB_of (hR _ _ h3)⟩
    | @record t t' ks vs ks' vs' R hr hr' hR h1 h2 =>
      rw [alikeB.eq_def, Bool.or_eq_true]
      right
      dsimp only
      rw [if_pos hr]
      simp only [Bool.and_eq_true, decide_eq_true_eq, List.all_eq_true, List.any_eq_true]
      refine ⟨iff_of_true hr hr', fun kv hkv => ?_, fun kv hkv => ?_⟩
      · obtain ⟨w, hw, h⟩ := h1 kv hkv
        exact ⟨_, hw, rfl, alikeB_of (hR _ _ h)⟩
      · obtain ⟨w, hw, h⟩ := h2 kv hkv
        exact ⟨_, hw, rfl, alikeB_of (hR _ _ h)⟩
    | frame h =>
      rw [alikeB, Bool.or_eq_true]
      exact .inr (decide_eq_true h)
    | @mapping k k' t t' ks vs ks' vs' R hk _ hr hr' hR h1 h2 =>
      rw [alikeB.eq_def, Bool.or_eq_true]
      right
      have hk2 : ∀ i, k ≠ .frame i := by
        rintro i rfl
        rcases hk with e | e <;> cases e
      cases k with
      | frame i => exact absurd rfl (hk2 i)
      | _ =>
      dsimp only
      rw [if_neg hr]
      simp only [Bool.and_eq_true, decide_eq_true_eq, List.all_eq_true, List.any_eq_true]
      refine ⟨iff_of_false hr hr', fun kv hkv => ?_, fun kv hkv => ?_⟩
      · obtain ⟨w, hw, e, h⟩ := h1 kv hkv
        exact ⟨_, hw, e, alikeB_of (hR _ _ h)⟩
      · obtain ⟨w, hw, e, h⟩ := h2 kv hkv
        exact ⟨_, hw, e, alikeB_of (hR _ _ h)⟩

def sameKindB : Val → Val → Bool
  | .inst _ _, .inst _ _ | .cls _ _, .cls _ _ | .module _, .module _ | .io _, .io _ | .ndarray _ _, .ndarray _ _
  | .func _, .func _ => true
  | .seq k _ _, .seq k' _ _ => decide (k = k' ∨ ((k = .set ∨ k = .frozenset) ∧ (k' = .set ∨ k' = .frozenset)))
  | .map k _ _ _, .map k' _ _ _ => decide (k = k' ∨ (¬ Lookup k ∧ ¬ Lookup k'))
  | _, _ => false

theorem sameKindB_of {v w : Val} (h : SameKind v w) : sameKindB v w = true := by
  cases v <;> cases w <;> first | exact h.elim | rfl | exact decide_eq_true h

def toldApartB (S : Strategies) (f : Nat) (x y : Val) : Bool := !sameKindB x y || !alikeB S f x y || coversB S f x y

theorem toldApartB_sound {S : Strategies} {f : Nat} {x y : Val} (h : toldApartB S f x y = true) (hk : SameKind x y) (ha : Alike S x y) :
    Covers S x y := by
  unfold toldApartB at h
  rw [sameKindB_of hk, alikeB_of ha] at h
  exact coversB_sound h

instance instDecPlainLabel (k : Key) : Decidable (PlainLabel k) :=
  match k with
  | .str s => inferInstanceAs (Decidable (∀ c ∈ s, _))
  | .none | .other _ _ => inferInstanceAs (Decidable False)

instance instDecLabelled (k : MapKind) (ks : List Key) : Decidable (Labelled k ks) :=
  match k with
  | .frame _ => inferInstanceAs (Decidable (_ ∧ _ ∧ ∀ k ∈ ks, _))
  | .dict | .proxy => inferInstanceAs (Decidable True)

def coherentAtB (S : Strategies) (f : Nat) : Val → Bool
  | .seq _ _ es => decide (Inspected S es.length) && es.all (fun x => es.all (fun y => toldApartB S f x y)) &&
      (holdings S es).all (fun x => (holdings S es).all (fun y => toldApartB S f x.2 y.2)) &&
      (holdings S es).all (fun x => (holdings S es).all (fun y => decide (x.1 ≠ y.1) || coversB S f x.2 y.2))
  | .map k t ks vs => decide (Labelled k ks) && decide (t.name = py!"mappingproxy" ↔ k = .proxy) && decide ks.Nodup &&
      decide (ks.length = vs.length) && decide (Key.none ∉ ks) && decide (∀ k ∈ ks, k.hidden = false) &&
      decide ((k = .dict ∧ S.dict = .typedDict) ∨ Inspected S ks.length ∨ ¬ Lookup k) && decide (S.keyDoc = [] ∨ Key.str S.keyDoc ∉ ks) &&
      (decide (¬ Lookup k) || vs.all (fun x => vs.all (fun y => toldApartB S f x y)))
  | .inst _ _ | .module _ | .io _ => true
  | .cls _ n | .ndarray _ n => decide (PlainName n)
  | .func f => countedB f

theorem coherentAtB_sound {S : Strategies} {f : Nat} {v : Val} (h : coherentAtB S f v = true) : CoherentAt S v := by
  unfold coherentAtB at h
  split at h
  · simp only [Bool.and_eq_true, decide_eq_true_eq, List.all_eq_true, Bool.or_eq_true] at h
    obtain ⟨⟨⟨h1, h2⟩, h3⟩, h4⟩ := h
    refine ⟨h1, fun x hx y hy => toldApartB_sound (h2 x hx y hy), ?_, ?_⟩
    · intro k x k' y hx hy
      exact toldApartB_sound (h3 _ (mem_holdings.mpr hx) _ (mem_holdings.mpr hy))
    · intro k x y hx hy
      rcases h4 _ (mem_holdings.mpr hx) _ (mem_holdings.mpr hy) with h | h
      · exact absurd rfl h
      · exact coversB_sound h
  · simp only [Bool.and_eq_true, decide_eq_true_eq, List.all_eq_true, Bool.or_eq_true] at h
    obtain ⟨⟨⟨⟨⟨⟨⟨⟨h1, h2⟩, h3⟩, h4⟩, h5⟩, h6⟩, h7⟩, h8⟩, h9⟩ := h
    exact ⟨h1, h2, h3, h4, h5, h6, h7, fun _ => h8, fun hL x hx y hy =>
      toldApartB_sound ((h9.resolve_left (fun h => h hL)) x hx y hy)⟩
  · trivial
  · trivial
  · trivial
  · rw [decide_eq_true_eq] at h; exact h
  · rw [decide_eq_true_eq] at h; exact h
  · exact countedB_iff.mp h

mutual
def coherentB (S : Strategies) (f : Nat) : Val → Bool
  | .seq k t es => coherentAtB S f (.seq k t es) && coherentsB S f es
  | .map k t ks vs => coherentAtB S f (.map k t ks vs) && coherentsB S f vs
  | v => coherentAtB S f v
def coherentsB (S : Strategies) (f : Nat) : List Val → Bool
  | [] => true
  | v :: r => coherentB S f v && coherentsB S f r
end

mutual
/-- The test implies coherence. -/
theorem coherentB_sound {S : Strategies} {f : Nat} : ∀ {v : Val}, coherentB S f v = true → Coherent S v
  | .inst _ _, _ => trivial
  | .seq k t es, h => by
    rw [coherentB, Bool.and_eq_true] at h
    exact ⟨coherentAtB_sound h.1, coherentsB_sound h.2⟩
  | .map k t ks vs, h => by
    rw [coherentB, Bool.and_eq_true] at h
    exact ⟨coherentAtB_sound h.1, coherentsB_sound h.2⟩
  | .func f, h => by
    rw [coherentB] at h
    · exact coherentAtB_sound (v := .func f) h
    all_goals simp
  | .cls m n, h => by
    rw [coherentB] at h
    · exact coherentAtB_sound (v := .cls m n) h
    all_goals simp
  | .module _, _ => trivial
  | .io _, _ => trivial
  | .ndarray t d, h => by
    rw [coherentB] at h
    · exact coherentAtB_sound (v := .ndarray t d) h
    all_goals simp
theorem coherentsB_sound {S : Strategies} {f : Nat} : ∀ {l : List Val}, coherentsB S f l = true → EveryList (CoherentAt S) l
  | [], _ => trivial
  | v :: r, h => by
    rw [coherentsB, Bool.and_eq_true] at h
    exact ⟨coherentB_sound h.1, coherentsB_sound h.2⟩
end

mutual
def valAllB (p : Ty → Bool) (q : Key → Bool) : Val → Bool
  | .inst t _ => p t
  | .seq _ t es => p t && valAllsB p q es
  | .map _ t ks vs => p t && ks.all q && valAllsB p q vs
  | .cls t _ | .module t | .io t | .ndarray t _ => p t
  | .func f => p f.ty
def valAllsB (p : Ty → Bool) (q : Key → Bool) : List Val → Bool
  | [] => true
  | v :: r => valAllB p q v && valAllsB p q r
end

mutual
theorem valAllB_sound {p : Ty → Bool} {q : Key → Bool} {P : Ty → Prop} {Q : Key → Prop} (hp : ∀ t, p t = true → P t)
    (hq : ∀ k, q k = true → Q k) : ∀ {v : Val}, valAllB p q v = true → ValAll P Q (fun _ => True) v
  | .inst t _, h => hp t (by simpa [valAllB] using h)
  | .seq k t es, h => by
    rw [valAllB, Bool.and_eq_true] at h
    exact ⟨hp _ h.1, valAllsB_sound hp hq h.2⟩
  | .map k t ks vs, h => by
    rw [valAllB, Bool.and_eq_true, Bool.and_eq_true, List.all_eq_true] at h
    exact ⟨hp _ h.1.1, fun k hk => hq k (h.1.2 k hk), valAllsB_sound hp hq h.2⟩
  | .func f, h => ⟨hp f.ty (by simpa [valAllB] using h), trivial⟩
  | .cls t _, h => hp t (by simpa [valAllB] using h)
  | .module t, h => hp t (by simpa [valAllB] using h)
  | .io t, h => hp t (by simpa [valAllB] using h)
  | .ndarray t _, h => hp t (by simpa [valAllB] using h)
theorem valAllsB_sound {p : Ty → Bool} {q : Key → Bool} {P : Ty → Prop} {Q : Key → Prop} (hp : ∀ t, p t = true → P t)
    (hq : ∀ k, q k = true → Q k) : ∀ {l : List Val}, valAllsB p q l = true → ValAllList P Q (fun _ => True) l
  | [], _ => trivial
  | v :: r, h => by
    rw [valAllsB, Bool.and_eq_true] at h
    exact ⟨valAllB_sound hp hq h.1, valAllsB_sound hp hq h.2⟩
end

end Verif
