import Verif.Spec.Rows
import Verif.Lemmas.Merge
import Verif.Lemmas.Matches
import Verif.Lemmas.HoldsBuild
/-
C100: what the hint of a sequence of rows stands for.
-/
namespace Verif
open Verif.Spec

/-- A type that admits an instance admits everything that belongs to the class of the instance. -/
theorem admits_class {t : TExpr} {v w : Val} (h : Admits [] t v) : ∀ {c : Ty} {x}, v = .inst c x → Admits [] (.name c.name) w →
    Admits [] t w := by
  induction h with
  | any v hd => intro _ _ _ _; exact .any w hd
  | object v h1 h2 => intro _ _ _ _; exact .object w h1 h2
  | cls v hd => rintro c x rfl h; exact h
  | promote v hd hi =>
    rintro c x rfl h
    have hi : c.name = py!"int" := hi
    rw [hi] at h
    refine .promote w hd ?_
    generalize he : TExpr.name py!"int" = t at h
    cases h with
    | cls _ _ => injection he with he; exact he.symm
    | alias hdf => exact absurd hdf (by simp [Defines])
    | record hdf => exact absurd hdf (by simp [Defines])
    | frame hdf => exact absurd hdf (by simp [Defines])
    | _ => first | (injection he with he; revert he; decide) | cases he
  | quoted v _ ih => rintro c x rfl h; exact .quoted w (ih rfl h)
  | alias hdf _ ih => rintro c x rfl h; exact .alias hdf (ih rfl h)
  | union h1 h2 _ ih => rintro c x rfl h; exact .union h1 h2 (ih rfl h)
  | _ => rintro c x e; cases e

/-- A node that stands for an instance stands for everything that belongs to its class. -/
theorem means_class {S : Strategies} {n : Node} {c : Ty} {x : Option Str} {w : Val} (h : Means S n (.inst c x))
    (hw : Admits [] (.name c.name) w) : Means S n w := by
  cases h with
  | leaf a b => exact .leaf a (admits_class b rfl hw)

/-- What a dictionary that matches a record has under its keys. -/
theorem matches_fields {S : Strategies} {v w : Val} (h : Matches S v w) : ∀ {t : Ty} {ks : List Key} {vs : List Val},
    v = .map .dict t ks vs → IsRecord S v → ∃ t' ks' vs', w = .map .dict t' ks' vs' ∧
      ∀ kw ∈ ks'.zip vs', ∃ x, (kw.1, x) ∈ ks.zip vs ∧ ∀ t, leafType x = some t → Admits [] t kw.2 := by
  induction h with
  | leaf h => rintro t ks vs rfl; cases h
  | swap h1 _ _ ih =>
    rintro t ks vs rfl hr
    obtain ⟨k', t', ks', vs', rfl, e, _, hrec, hk⟩ := covers_map h1
    cases e (.inl rfl)
    obtain ⟨t2, ks2, vs2, rfl, hz⟩ := ih rfl (hrec hr)
    refine ⟨_, _, _, rfl, ?_⟩
    intro kw hkw
    obtain ⟨y, hy, hs⟩ := hz kw hkw
    cases h1 with
    | leaf h => exact h.elim
    | mapping R _ hn => exact absurd hr hn
    | record R _ _ _ hR hzz =>
      obtain ⟨x, hx, hxy⟩ := hzz _ hy
      exact ⟨x, hx, fun t ht => hs t (covers_leafType (hR _ _ hxy) ht)⟩
  | noElements => rintro t ks vs e; cases e
  | tuple => rintro t ks vs e; cases e
  | seq => rintro t ks vs e; cases e
  | record R hr hk hR hz =>
    rintro t ks vs e _
    cases e
    refine ⟨_, _, _, rfl, ?_⟩
    intro kw hkw
    obtain ⟨x, hx, hxw⟩ := hz kw hkw
    exact ⟨x, hx, fun t ht => matches_leaf (hR _ _ hxw) ht⟩
  | mapping R _ hn => rintro t ks vs e hr; exact absurd hr hn
  | frame => rintro t ks vs e; cases e

/-- Rows that belong together: the values under a key have one class, and no key is hidden. -/
structure RowTable (S : Strategies) (ds : List Dct) : Prop where
  rows : ∀ d ∈ ds, IsRow d
  agree : Agree ds
  shown : ∀ d ∈ ds, Spec.shown d = d.map (·.1)
  typed : S.dict = .typedDict

theorem coherent_table {S : Strategies} {k : SeqKind} {t : Ty} {ds : List Dct} (hS : S.dict = .typedDict) (hr : ∀ d ∈ ds, IsRow d)
    (hc : Coherent S (.seq k t (ds.map dictOf))) : RowTable S ds := by
  obtain ⟨⟨_, _, _, h4⟩, hd⟩ := hc
  have hd := everyList_iff.mp hd
  have hh : ∀ d ∈ ds, ∀ kv ∈ d, Holding S (ds.map dictOf) (.str kv.1) kv.2 := by
    intro d hd' kv hkv
    refine ⟨dictOf d, List.mem_map_of_mem hd', ⟨hS, ?_⟩, ?_⟩
    · intro x hx
      obtain ⟨_, _, rfl⟩ := List.mem_map.mp hx
      rfl
    · rw [show (dictOf d).items = _ from dictOf_items d]
      exact List.mem_map.mpr ⟨kv, hkv, rfl⟩
  refine ⟨hr, ?_, ?_, hS⟩
  · intro d hd' e he x hx y hy exy
    have := h4 _ _ _ (hh d hd' x hx) (exy ▸ hh e he y hy)
    obtain ⟨c, a, e1, _⟩ := (hr d hd').2.2 x hx
    obtain ⟨c', a', e2, _⟩ := (hr e he).2.2 y hy
    rw [e1, e2] at this ⊢
    cases this with
    | leaf h => exact h
  · intro d hd'
    have := (coherent_at (hd _ (List.mem_map_of_mem hd'))).2.2.2.2.2.1
    unfold Spec.shown visible
    rw [List.filter_eq_self]
    intro s hs
    obtain ⟨kv, hkv, rfl⟩ := List.mem_map.mp hs
    have := this (.str kv.1) (List.mem_map.mpr ⟨kv, hkv, rfl⟩)
    simpa [Key.hidden] using this

theorem str_key_mem {d : Dct} {s : Str} : Key.str s ∈ d.map (fun kv => Key.str kv.1) ↔ s ∈ d.map (·.1) := by
  simp only [List.mem_map, Key.str.injEq]

theorem RowTable.mem_all {S : Strategies} {ds ds0 : List Dct} (ht : RowTable S ds) (hsub : ∀ d ∈ ds0, d ∈ ds) {s : Str} :
    s ∈ allKeys ds0 ↔ ∃ d ∈ ds0, s ∈ d.map (·.1) := by
  rw [mem_allKeys]
  constructor
  · rintro ⟨d, hd, h⟩
    exact ⟨d, hd, ht.shown d (hsub d hd) ▸ h⟩
  · rintro ⟨d, hd, h⟩
    exact ⟨d, hd, (ht.shown d (hsub d hd)).symm ▸ h⟩

theorem RowTable.mem_common {S : Strategies} {ds ds0 : List Dct} (ht : RowTable S ds) (hsub : ∀ d ∈ ds0, d ∈ ds) (hne : ds0 ≠ []) {s : Str} :
    s ∈ commonKeys ds0 ↔ ∀ d ∈ ds0, s ∈ d.map (·.1) := by
  rw [mem_commonKeys hne]
  constructor
  · intro h d hd
    exact ht.shown d (hsub d hd) ▸ h d hd
  · intro h d hd
    exact (ht.shown d (hsub d hd)).symm ▸ h d hd

/-- The class of the values under a key. -/
theorem RowTable.class_eq {S : Strategies} {ds : List Dct} (ht : RowTable S ds) {s : Str} {c c' : Ty} (h : Entered ds s c) (h' : Entered ds s c') :
    c = c' := by
  obtain ⟨d, hd, x, hx⟩ := h
  obtain ⟨d', hd', x', hx'⟩ := h'
  exact ht.agree d hd d' hd' _ hx _ hx' rfl

theorem RowTable.entered {S : Strategies} {ds : List Dct} (ht : RowTable S ds) {d : Dct} (hd : d ∈ ds) {s : Str} {v : Val} (h : (s, v) ∈ d) :
    ∃ c x, v = .inst c x ∧ c ≠ .noneType ∧ Entered ds s c := by
  obtain ⟨c, x, e, hc⟩ := (ht.rows d hd).2.2 _ h
  exact ⟨c, x, e, hc, d, hd, x, by rw [← e]; exact h⟩

theorem leafType_inst {c : Ty} {x : Option Str} (h : c ≠ .noneType) : leafType (.inst c x) = some (.name c.name) := by
  simp only [leafType, if_neg h]

theorem mem_items {d : Dct} {k : Key} {v : Val} : (k, v) ∈ (dictOf d).items ↔ ∃ s, k = .str s ∧ (s, v) ∈ d := by
  rw [show (dictOf d).items = _ from dictOf_items d, List.mem_map]
  constructor
  · rintro ⟨kv, h, e⟩
    injection e with e1 e2
    exact ⟨kv.1, e1.symm, e2 ▸ h⟩
  · rintro ⟨s, rfl, h⟩
    exact ⟨_, h, rfl⟩

theorem RowTable.record {S : Strategies} {ds : List Dct} (ht : RowTable S ds) (d : Dct) : IsRecord S (dictOf d) := by
  refine ⟨ht.typed, ?_⟩
  intro x hx
  obtain ⟨_, _, rfl⟩ := List.mem_map.mp hx
  rfl

theorem RecNode.means_record {E : Env} {ds0 : List Dct} {m : Node} (hn : RecNode E ds0 m) {e : Val} (hS : E.S.dict = .typedDict)
    (h : Means E.S m e) : ∃ t ks vs, e = .map .dict t ks vs ∧ (∀ s ∈ commonKeys ds0, Key.str s ∈ ks) ∧
      (∀ k ∈ ks, ∃ s ∈ allKeys ds0, k = .str s) ∧
      ∀ kw ∈ ks.zip vs, ∃ n, (kw.1, n) ∈ (m.hdr.slots.map (·.key)).zip m.kids ∧ Means E.S n kw.2 := by
  obtain ⟨data, mm, hk, hstr, hreq⟩ := hn.info
  obtain ⟨K, hK, hp⟩ := hn.slots
  obtain ⟨hd, kids⟩ := m
  have hk : hd.kind = .dict data mm := hk
  have hty : mm.isTyped E.S = true := by
    unfold DMeta.isTyped allStr
    rw [Bool.and_eq_true, List.all_eq_true, decide_eq_true_eq]
    refine ⟨fun kv hkv => ?_, hS⟩
    obtain ⟨s, e⟩ := hstr kv hkv
    rw [e]
    rfl
  have hK : hd.slots.map (·.key) = K.map Key.str := hK
  cases h with
  | leaf a b => simp [nodeType, hk] at a
  | noElements a b =>
    have hk : hd.kind = .dict data mm := hk
    rw [hk] at a
    cases a
  | tuple a b => rw [hk] at a; cases a
  | seq R a b => rw [hk] at a; cases a
  | frame R a => rw [hk] at a; cases a
  | mapping R a =>
    rcases a with a | ⟨_, _, _, a, b⟩
    · rw [hk] at a; cases a.1
    · rw [hk] at a; cases a
      rw [hty] at b; cases b
  | record R a b c r1 r2 r3 =>
    rw [hk] at a; cases a
    refine ⟨_, _, _, rfl, ?_, ?_, ?_⟩
    · intro s hs
      have ha : s ∈ allKeys ds0 := (List.mem_filter.mp hs).1
      have hs' : Key.str s ∈ hd.slots.map (·.key) := by
        rw [hK]
        exact List.mem_map_of_mem (hp.mem_iff.mpr ha)
      obtain ⟨sl, hsl, e⟩ := List.mem_map.mp hs'
      rw [← e]
      refine r1 sl hsl ?_
      rw [e, hreq s ha, decide_eq_true hs]
      rfl
    · intro k hk'
      have := r2 k hk'
      rw [hK] at this
      obtain ⟨s, hs, rfl⟩ := List.mem_map.mp this
      exact ⟨s, hp.mem_iff.mp hs, rfl⟩
    · intro kw hkw
      obtain ⟨n, h1, h2⟩ := r3 kw hkw
      exact ⟨n, h1, c _ _ h2⟩

/-- What a child for some of the rows stands for belongs to their table. -/
theorem RecNode.inTable {E : Env} {ds ds0 : List Dct} {m : Node} (hn : RecNode E ds0 m) (ht : RowTable E.S ds) (hsub : ∀ d ∈ ds0, d ∈ ds)
    (hne : ds0 ≠ [])
    (honly : (∃ v ∈ ds.map dictOf, ∀ w, Means E.S m w → Matches E.S v w) ∨ ∀ w, Means E.S m w → Assembled E.S (Matches E.S) (ds.map dictOf) w)
    {e : Val} (h : Means E.S m e) : InTable ds0 e := by
  obtain ⟨t, ks, vs, rfl, h1, h2, _⟩ := hn.means_record ht.typed h
  refine ⟨t, ks, vs, rfl, ?_, ?_, ?_⟩
  · intro k hk
    obtain ⟨s, hs, rfl⟩ := h2 k hk
    obtain ⟨d, hd, hs⟩ := (ht.mem_all hsub).mp hs
    exact ⟨d, hd, str_key_mem.mpr hs⟩
  · intro k hk
    obtain ⟨d, hd⟩ := List.exists_mem_of_ne_nil _ hne
    obtain ⟨kv, _, rfl⟩ := List.mem_map.mp (hk d hd)
    exact h1 kv.1 ((ht.mem_common hsub hne).mpr fun d hd => str_key_mem.mp (hk d hd))
  · intro kw hkw s c e hs
    have hs : Entered ds s c := by
      obtain ⟨d, hd, x, hx⟩ := hs
      exact ⟨d, hsub d hd, x, hx⟩
    have fin : ∀ {x : Val} {d : Dct}, d ∈ ds → (kw.1, x) ∈ (dictOf d).items → (∀ t, leafType x = some t → Admits [] t kw.2) →
        Admits [] (.name c.name) kw.2 := by
      intro x d hd hx hl
      obtain ⟨s', e', hx⟩ := mem_items.mp hx
      rw [e] at e'
      cases e'
      obtain ⟨c', x', rfl, hc, hs'⟩ := ht.entered hd hx
      cases ht.class_eq hs hs'
      exact hl _ (leafType_inst hc)
    rcases honly with ⟨v, hv, hm⟩ | hm
    · obtain ⟨d, hd, rfl⟩ := List.mem_map.mp hv
      obtain ⟨t', ks', vs', e', hz⟩ := matches_fields (hm _ h) rfl (ht.record d)
      cases e'
      obtain ⟨x, hx, hl⟩ := hz kw hkw
      exact fin hd hx hl
    · obtain ⟨t', ks', vs', e', _, hz, _⟩ := hm _ h
      cases e'
      obtain ⟨x, ⟨v, hv, _, hx⟩, hl⟩ := hz kw hkw
      obtain ⟨d, hd, rfl⟩ := List.mem_map.mp hv
      exact fin hd hx (fun t ht => matches_leaf hl ht)

/-- What belongs to the table of some rows is meant by a child for them. -/
theorem RecNode.of_inTable {E : Env} {ds ds0 : List Dct} {m : Node} (hn : RecNode E ds0 m) (ht : RowTable E.S ds) (hsub : ∀ d ∈ ds0, d ∈ ds)
    (hne : ds0 ≠ []) (hx : ∀ s ∈ allKeys ds0, ∃ d ∈ ds, s ∈ d.map (·.1) ∧ Means E.S m (dictOf d)) {e : Val} (h : InTable ds0 e) :
    Means E.S m e := by
  obtain ⟨t, ks, vs, rfl, h1, h2, h3⟩ := h
  have hx' : ∀ kw ∈ ks.zip vs, ∃ n, (kw.1, n) ∈ (m.hdr.slots.map (·.key)).zip m.kids ∧ Means E.S n kw.2 := by
    intro kw hkw
    obtain ⟨d, hd, hk⟩ := h1 kw.1 (List.of_mem_zip (show (kw.1, kw.2) ∈ _ from hkw)).1
    obtain ⟨kv, hkv, e⟩ := List.mem_map.mp hk
    have hall : kv.1 ∈ allKeys ds0 := (ht.mem_all hsub).mpr ⟨d, hd, List.mem_map_of_mem hkv⟩
    obtain ⟨c, x, _, _, _⟩ := ht.entered (hsub d hd) (s := kv.1) (v := kv.2) hkv
    have hent : Entered ds0 kv.1 c := ⟨d, hd, x, by rename_i e' _ _; rw [← e']; exact hkv⟩
    have hy := h3 kw hkw kv.1 c e.symm hent
    obtain ⟨d', hd', hs', hm⟩ := hx kv.1 hall
    obtain ⟨kv', hkv', e'⟩ := List.mem_map.mp hs'
    obtain ⟨c', x', ev, _, hc'⟩ := ht.entered hd' (s := kv'.1) (v := kv'.2) hkv'
    have hcc : c' = c := by
      refine ht.class_eq hc' ?_
      rw [e']
      obtain ⟨d0, hd0, x0, hx0⟩ := hent
      exact ⟨d0, hsub d0 hd0, x0, hx0⟩
    obtain ⟨t1, ks1, vs1, e1, _, _, hz⟩ := hn.means_record ht.typed hm
    have hmem : (Key.str kv'.1, kv'.2) ∈ ks1.zip vs1 := by
      have : (Key.str kv'.1, kv'.2) ∈ (dictOf d').items := mem_items.mpr ⟨_, rfl, hkv'⟩
      rw [e1] at this
      exact this
    obtain ⟨n, hn1, hn2⟩ := hz _ hmem
    refine ⟨n, ?_, ?_⟩
    · rw [← e, ← e']
      exact hn1
    · rw [ev, hcc] at hn2
      exact means_class hn2 hy
  obtain ⟨data, mm, hk, hstr, hreq⟩ := hn.info
  obtain ⟨K, hK, hp⟩ := hn.slots
  obtain ⟨hd, kids⟩ := m
  have hk : hd.kind = .dict data mm := hk
  have hK : hd.slots.map (·.key) = K.map Key.str := hK
  have hty : mm.isTyped E.S = true := by
    unfold DMeta.isTyped allStr
    rw [Bool.and_eq_true, List.all_eq_true, decide_eq_true_eq]
    refine ⟨fun kv hkv => ?_, ht.typed⟩
    obtain ⟨s, e⟩ := hstr kv hkv
    rw [e]
    rfl
  refine .record (Means E.S) hk hty (fun _ _ h => h) ?_ ?_ hx'
  · intro sl hsl hr
    have hs : sl.key ∈ hd.slots.map (·.key) := List.mem_map_of_mem hsl
    rw [hK] at hs
    obtain ⟨s, hs, e⟩ := List.mem_map.mp hs
    have ha := hp.mem_iff.mp hs
    rw [← e, hreq s ha, Option.getD_some, decide_eq_true_eq] at hr
    rw [← e]
    exact h2 _ (fun d hd => str_key_mem.mpr ((ht.mem_common hsub hne).mp hr d hd))
  · intro k hk'
    obtain ⟨d, hd, hk2⟩ := h1 k hk'
    obtain ⟨kv, hkv, rfl⟩ := List.mem_map.mp hk2
    rw [hK]
    exact List.mem_map_of_mem (hp.mem_iff.mpr ((ht.mem_all hsub).mpr ⟨d, hd, List.mem_map_of_mem hkv⟩))

/-- What the tree of a sequence of rows stands for, if they are merged and if they are not. -/
theorem rows_means {E : Env} (hE : E.Fair) (hm : 0 < E.S.merge) {name : Str} {k : SeqKind} {t : Ty} {ds : List Dct} {n : Node}
    (hp : ¬ Placed E.S k) (hne : ds ≠ []) (ht : RowTable E.S ds) (hc : Coherent E.S (.seq k t (ds.map dictOf))) {f : Nat} {root : Bool}
    (h : build E f root name (.seq k t (ds.map dictOf)) = .ok n) (hself : Means E.S n (.seq k t (ds.map dictOf))) :
    (E.S.merge ≤ percentSimilarity (commonKeys ds).length (allKeys ds).length →
      ∀ w, Means E.S n w ↔ SequenceOf E.S k (InTable ds) w) ∧
    (¬ E.S.merge ≤ percentSimilarity (commonKeys ds).length (allKeys ds).length →
      ∀ w, Means E.S n w ↔ SequenceOf E.S k (fun e => ∃ d ∈ ds, InTable [d] e) w) := by
  cases f with
  | zero => cases h
  | succ f =>
    rw [build_seq, if_neg (c := k = .tuple ∧ E.S.tuple = .fixed) hp] at h
    split at h
    case isFalse => cases h
    cases hs : setChildren E (build E f false) name (ds.map dictOf) with
    | error e => rw [hs] at h; cases h
    | ok r =>
      obtain ⟨slots, kids⟩ := r
      rw [hs] at h
      injection h with h
      subst h
      obtain ⟨_, hK⟩ := setChildren_for hE hm (fun nm v n => build_for hE hm f false nm v n) hc hs
      have hK : SetKids E.S (ds.map dictOf) kids := hK
      have hl : limit E.S.checkMax (ds.map dictOf) = ds.map dictOf := inspected_limit (coherent_at hc).1
      obtain ⟨_, _, _, _, b, hb, hcase⟩ := dictSeq_children hE ht.typed hm hne (fun d hd => (ht.rows d hd).1) hl hs
      have hb := hb ht.agree
      have hkne : kids ≠ [] := by
        obtain ⟨d, hd⟩ := List.exists_mem_of_ne_nil _ hne
        obtain ⟨k, hk, _⟩ := hK.holds _ (List.mem_map_of_mem hd)
        exact List.ne_nil_of_mem hk
      -- sequences of what the children stand for
      have hseq : ∀ w, Means E.S (.mk ⟨.seq k, name, root, t, slots⟩ kids) w ↔ SequenceOf E.S k (fun e => ∃ c ∈ kids, Means E.S c e) w := by
        intro w
        constructor
        · intro hw
          cases hw with
          | leaf a b => simp [nodeType] at a
          | noElements a b => exact absurd rfl hkne
          | tuple a b => cases a; exact absurd ⟨rfl, b⟩ hp
          | seq R a b c d e =>
            cases a
            refine ⟨_, _, _, rfl, c, fun x hx => ?_⟩
            obtain ⟨n, h1, h2⟩ := e x hx
            exact ⟨n, h1, d _ _ h2⟩
          | record R a => cases a
          | mapping R a => simp [MapNode] at a
          | frame R a => cases a
        · rintro ⟨k', t', es, rfl, h1, h2⟩
          exact .seq (Means E.S) rfl hp h1 (fun _ _ h => h) h2
      have hrow : ∀ d ∈ ds, ∃ c ∈ kids, Means E.S c (dictOf d) := by
        obtain ⟨_, _, _, e, _, h⟩ := (hseq _).mp hself
        cases e
        exact fun d hd => h _ (List.mem_map_of_mem hd)
      have lift : ∀ {P Q : Val → Prop}, (∀ e, P e ↔ Q e) → ∀ w, SequenceOf E.S k P w ↔ SequenceOf E.S k Q w := by
        intro P Q h w
        constructor
        · rintro ⟨k', t', es, e, h1, h2⟩
          exact ⟨k', t', es, e, h1, fun x hx => (h x).mp (h2 x hx)⟩
        · rintro ⟨k', t', es, e, h1, h2⟩
          exact ⟨k', t', es, e, h1, fun x hx => (h x).mpr (h2 x hx)⟩
      constructor
      · intro hsim w
        rw [decide_eq_true hsim] at hb
        rw [if_pos hb] at hcase
        obtain ⟨m, rfl, hr⟩ := hcase
        rw [hseq]
        refine lift (fun e => ⟨?_, fun he => ?_⟩) w
        · rintro ⟨c, hc', he⟩
          rw [List.mem_singleton.mp hc'] at he
          exact hr.inTable ht (fun _ h => h) hne (hK.only m (by simp)) he
        · refine ⟨m, by simp, hr.of_inTable ht (fun _ h => h) hne ?_ he⟩
          intro s hs
          obtain ⟨d, hd, hs⟩ := (ht.mem_all (fun _ h => h)).mp hs
          obtain ⟨c, hc', h⟩ := hrow d hd
          rw [List.mem_singleton.mp hc'] at h
          exact ⟨d, hd, hs, h⟩
      · intro hsim w
        rw [decide_eq_false hsim] at hb
        rw [if_neg (by rw [hb]; simp)] at hcase
        rw [hseq]
        refine lift (fun e => ⟨?_, ?_⟩) w
        · rintro ⟨c, hc', he⟩
          obtain ⟨d, hd, hr⟩ := hcase.1 c hc'
          exact ⟨d, hd, (hr.recNode (ht.rows d hd).1).inTable ht (by simpa using hd) (by simp) (hK.only c hc') he⟩
        · rintro ⟨d, hd, he⟩
          obtain ⟨c, hc', hcd⟩ := hrow d hd
          obtain ⟨d', hd', hr⟩ := hcase.1 c hc'
          have hr := hr.recNode (ht.rows d' hd').1
          -- the child has the keys of the row
          have hsame : ∀ s, s ∈ d.map (·.1) ↔ s ∈ d'.map (·.1) := by
            obtain ⟨t1, ks1, vs1, e1, k1, k2, _⟩ := hr.inTable ht (by simpa using hd') (by simp) (hK.only c hc') hcd
            cases e1
            intro s
            constructor
            · intro hs
              obtain ⟨d2, hd2, h⟩ := k1 (.str s) (str_key_mem.mpr hs)
              rw [List.mem_singleton.mp hd2] at h
              exact str_key_mem.mp h
            · intro hs
              exact str_key_mem.mp (k2 (.str s) (fun d2 hd2 => by rw [List.mem_singleton.mp hd2]; exact str_key_mem.mpr hs))
          have he' : InTable [d'] e := by
            obtain ⟨t1, ks1, vs1, rfl, k1, k2, k3⟩ := he
            refine ⟨t1, ks1, vs1, rfl, ?_, ?_, ?_⟩
            · intro x hx
              obtain ⟨d2, hd2, h⟩ := k1 x hx
              rw [List.mem_singleton.mp hd2] at h
              obtain ⟨kv, hkv, rfl⟩ := List.mem_map.mp h
              exact ⟨d', by simp, str_key_mem.mpr ((hsame _).mp (List.mem_map_of_mem hkv))⟩
            · intro x hx
              have := hx d' (by simp)
              obtain ⟨kv, hkv, rfl⟩ := List.mem_map.mp this
              refine k2 _ (fun d2 hd2 => ?_)
              rw [List.mem_singleton.mp hd2]
              exact str_key_mem.mpr ((hsame _).mpr (List.mem_map_of_mem hkv))
            · intro kw hkw s c e hs
              obtain ⟨d2, hd2, x2, hx2⟩ := hs
              rw [List.mem_singleton.mp hd2] at hx2
              obtain ⟨kv, hkv, e3⟩ := List.mem_map.mp ((hsame s).mpr (List.mem_map_of_mem (f := (·.1)) hx2))
              obtain ⟨c3, x3, e4, _, hc3⟩ := ht.entered hd (s := kv.1) (v := kv.2) hkv
              have e3 : kv.1 = s := e3
              rw [e3] at hc3
              cases ht.class_eq hc3 ⟨d', hd', x2, hx2⟩
              exact k3 kw hkw s c e ⟨d, by simp, x3, by rw [← e4, ← e3]; exact hkv⟩
          refine ⟨c, hc', hr.of_inTable ht (by simpa using hd') (by simp) ?_ he'⟩
          intro s hs
          obtain ⟨d2, hd2, hs⟩ := (ht.mem_all (by simpa using hd')).mp hs
          rw [List.mem_singleton.mp hd2] at hs
          exact ⟨d, hd, (hsame s).mpr hs, hcd⟩

end Verif
