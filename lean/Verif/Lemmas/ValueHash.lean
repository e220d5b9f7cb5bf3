import Verif.Lemmas.HashEq
import Verif.Lemmas.FitsBuild
import Verif.Lemmas.Silent
import Verif.Props.Frames
/-
The hash of a tree as a function of the value.
-/
namespace Verif
open Verif.Spec

mutual
/-- What the hash of the tree of a value is equal to. -/
def vh (S : Strategies) : Val → H
  | .inst t _ => .ty t
  | .cls m n => .ty (Val.cls m n).ty
  | .module t => .ty t
  | .io t => .ty t
  | .ndarray t _ => .ty t
  | .func f => funcHash f
  | .seq k _ es => if k = .tuple ∧ S.tuple = .fixed then .tup (limit S.checkMax (vhList S es)) else .set (limit S.checkMax (vhList S es))
  | .map .dict _ ks vs =>
    if (DMeta.ofData (dictData S (ks.zip vs))).isTyped S then
      .set (((ks.zip (vhList S vs)).filter (fun kh => !kh.1.hidden)).map fun kh => .typed kh.1 kh.2)
    else .set ((((if S.dict = .typedDict then ks.zip (vhList S vs) else limit S.checkMax (ks.zip (vhList S vs))).filter
      (fun kh => !kh.1.hidden))).map fun kh => .mapping kh.1.ty kh.2)
  | .map .proxy _ ks vs =>
    .set (((limit S.checkMax (ks.zip (vhList S vs))).filter (fun kh => !kh.1.hidden)).map fun kh => .mapping kh.1.ty kh.2)
  | .map (.frame i) _ _ _ => if S.pandas = .none then .str py!"pd.DataFrame" else .str i.columns
def vhList (S : Strategies) : List Val → List H
  | [] => []
  | v :: r => vh S v :: vhList S r
end

theorem vhList_eq {S : Strategies} : ∀ l : List Val, vhList S l = l.map (vh S)
  | [] => by simp [vhList]
  | v :: r => by simp [vhList, vhList_eq r]

theorem zip_map_snd {α β γ} {f : β → γ} {l : List α} {l' : List β} : l.zip (l'.map f) = (l.zip l').map (fun p => (p.1, f p.2)) := by
  induction l generalizing l' with
  | nil => simp
  | cons a l ih => cases l' with
    | nil => simp
    | cons b l' => simp [ih]

theorem isTyped_iff {S : Strategies} {d : List (Key × Val)} :
    (DMeta.ofData d).isTyped S = true ↔ S.dict = .typedDict ∧ ∀ kv ∈ d, kv.1.isStr = true := by
  simp [DMeta.isTyped, DMeta.ofData, allStr, and_comm]

theorem filter_map_snd {S : Strategies} {f : Val → H} {l : List (Key × Val)} :
    (l.map (fun p => (p.1, f p.2))).filter (fun kh => !kh.1.hidden) = (visibleItems l).map (fun p => (p.1, f p.2)) := by
  rw [visibleItems, List.filter_map]
  rfl

/-- Hash entry of a key. -/
def hentry (typed : Bool) (k : Key) (h : H) : H := if typed then .typed k h else .mapping k.ty h

theorem hentry_eqv {b : Bool} {k : Key} {x y : H} (h : H.eqv x y = true) : H.eqv (hentry b k x) (hentry b k y) = true := by
  cases b <;> simp [hentry, H.eqv, h]

theorem vh_dict {S : Strategies} {t : Ty} {ks : List Key} {vs : List Val} :
    vh S (.map .dict t ks vs) = .set ((visibleItems (dictData S (ks.zip vs))).map fun kv =>
      hentry ((DMeta.ofData (dictData S (ks.zip vs))).isTyped S) kv.1 (vh S kv.2)) := by
  simp only [vh, vhList_eq, zip_map_snd, limit_map]
  by_cases h : (DMeta.ofData (dictData S (ks.zip vs))).isTyped S = true
  · have hS := (isTyped_iff.mp h).1
    simp only [h, if_true, hentry]
    rw [filter_map_snd (S := S), List.map_map]
    simp only [dictData, hS, if_true]
    rfl
  · rw [if_neg h]
    have hb : (DMeta.ofData (dictData S (ks.zip vs))).isTyped S = false := by simpa using h
    rw [hb]
    have : (if S.dict = .typedDict then (ks.zip vs).map (fun p => (p.1, vh S p.2)) else
        (limit S.checkMax (ks.zip vs)).map (fun p => (p.1, vh S p.2))) = (dictData S (ks.zip vs)).map (fun p => (p.1, vh S p.2)) := by
      unfold dictData
      split <;> rfl
    rw [this, filter_map_snd (S := S), List.map_map]
    rfl

theorem vh_proxy {S : Strategies} {t : Ty} {ks : List Key} {vs : List Val} :
    vh S (.map .proxy t ks vs) = .set ((visibleItems (limit S.checkMax (ks.zip vs))).map fun kv => hentry false kv.1 (vh S kv.2)) := by
  simp only [vh, vhList_eq, zip_map_snd, limit_map]
  rw [filter_map_snd (S := S), List.map_map]
  rfl

theorem vh_seq {S : Strategies} {k : SeqKind} {t : Ty} {es : List Val} :
    vh S (.seq k t es) = if k = .tuple ∧ S.tuple = .fixed then .tup ((limit S.checkMax es).map (vh S))
      else .set ((limit S.checkMax es).map (vh S)) := by
  simp only [vh, vhList_eq, limit_map]

theorem set_all₂ {α β} {R : α → β → Prop} {f : α → H} {g : β → H} (hR : ∀ a b, R a b → H.eqv (f a) (g b) = true) {l : List α} {l' : List β}
    (h : All₂ R l l') : H.eqv (.set (l.map f)) (.set (l'.map g)) = true := by
  rw [eqv_set]
  constructor
  · intro x hx
    obtain ⟨a, ha, rfl⟩ := List.mem_map.mp hx
    obtain ⟨b, hb, hab⟩ := h.mem_left a ha
    exact ⟨_, List.mem_map_of_mem hb, hR _ _ hab⟩
  · intro x hx
    obtain ⟨b, hb, rfl⟩ := List.mem_map.mp hx
    obtain ⟨a, ha, hab⟩ := h.mem_right b hb
    exact ⟨_, List.mem_map_of_mem ha, hR _ _ hab⟩

theorem All₂.of_zip {α β} {R : α → β → Prop} : ∀ {l : List α} {l' : List β}, l.length = l'.length → (∀ p ∈ l.zip l', R p.1 p.2) → All₂ R l l'
  | [], [], _, _ => .nil
  | [], _ :: _, h, _ => by simp at h
  | _ :: _, [], h, _ => by simp at h
  | a :: l, b :: l', h, hR => .cons (hR (a, b) (by simp)) (All₂.of_zip (by simpa using h) (fun p hp => hR p (by simp [hp])))

theorem All₂.to_zip {α β} {R : α → β → Prop} {l : List α} {l' : List β} (h : All₂ R l l') : ∀ p ∈ l.zip l', R p.1 p.2 := by
  induction h with
  | nil => simp
  | cons h _ ih =>
    intro p hp
    simp only [List.zip_cons_cons, List.mem_cons] at hp
    rcases hp with rfl | hp
    · exact h
    · exact ih p hp

theorem All₂.take {α β} {R : α → β → Prop} {l : List α} {l' : List β} (h : All₂ R l l') (n : Nat) : All₂ R (l.take n) (l'.take n) := by
  induction h generalizing n with
  | nil => simp; exact .nil
  | cons h _ ih => cases n with
    | zero => simp; exact .nil
    | succ n => simp; exact .cons h (ih n)

theorem All₂.limit {α β} {R : α → β → Prop} {l : List α} {l' : List β} (h : All₂ R l l') (n : Nat) : All₂ R (limit n l) (limit n l') := by
  unfold Verif.limit
  split
  · exact h
  · exact h.take n

theorem All₂.dictData {R : Key × Val → Key × Val → Prop} {S : Strategies} {l l' : List (Key × Val)} (h : All₂ R l l') :
    All₂ R (dictData S l) (dictData S l') := by
  unfold Verif.dictData
  split
  · exact h
  · exact h.limit _

/-- The values of like data have equal hashes. -/
theorem like_vh {S : Strategies} {v w : Val} (h : Like S v w) : H.eqv (vh S v) (vh S w) = true := by
  induction h with
  | inst => simp [vh, H.eqv]
  | cls => exact eqv_refl _
  | func => exact eqv_refl _
  | module => exact eqv_refl _
  | io => exact eqv_refl _
  | ndarray => exact eqv_refl _
  | tuple hS hl _ ih =>
    rw [vh_seq, vh_seq, if_pos ⟨rfl, hS⟩, if_pos ⟨rfl, hS⟩]
    simp only [H.eqv]
    rw [eqvList_iff]
    exact All₂.map (f := vh S) (g := vh S) (fun _ _ h => h) ((All₂.of_zip (R := fun a b => H.eqv (vh S a) (vh S b) = true) hl ih).limit S.checkMax)
  | seq R hk _ h1 h2 ih =>
    rw [vh_seq, vh_seq, if_neg hk, if_neg hk, eqv_set]
    constructor
    · intro x hx
      obtain ⟨a, ha, rfl⟩ := List.mem_map.mp hx
      obtain ⟨b, hb, hab⟩ := h1 a ha
      exact ⟨_, List.mem_map_of_mem hb, ih _ _ hab⟩
    · intro x hx
      obtain ⟨a, ha, rfl⟩ := List.mem_map.mp hx
      obtain ⟨b, hb, hab⟩ := h2 a ha
      exact ⟨_, List.mem_map_of_mem hb, ih _ _ hab⟩
  | @map k t ks vs vs' hl _ ih =>
    have hz := (All₂.of_zip (R := fun a b => H.eqv (vh S a) (vh S b) = true) hl ih).zip ks
    have vis : ∀ {l l' : List (Key × Val)}, All₂ (fun x y => x.1 = y.1 ∧ H.eqv (vh S x.2) (vh S y.2) = true) l l' →
        ∀ b, H.eqv (.set ((visibleItems l).map fun kv => hentry b kv.1 (vh S kv.2)))
          (.set ((visibleItems l').map fun kv => hentry b kv.1 (vh S kv.2))) = true := by
      intro l l' h b
      refine set_all₂ ?_ (h.filter (p := fun kv => !kv.1.hidden) (q := fun kv => !kv.1.hidden) (fun x y hxy => by rw [hxy.1]))
      intro x y hxy
      rw [hxy.1]
      exact hentry_eqv hxy.2
    cases k with
    | dict =>
      rw [vh_dict, vh_dict]
      have ht : (DMeta.ofData (dictData S (ks.zip vs))).isTyped S = (DMeta.ofData (dictData S (ks.zip vs'))).isTyped S := by
        simp only [DMeta.isTyped, DMeta.ofData, allStr]
        rw [(hz.dictData (S := S)).all_eq (p := fun kv => kv.1.isStr) (q := fun kv => kv.1.isStr) (fun x y hxy => by rw [hxy.1])]
      rw [ht]
      exact vis hz.dictData _
    | proxy =>
      rw [vh_proxy, vh_proxy]
      exact vis (hz.limit _) _
    | frame i => simp only [vh]; exact eqv_refl _

/-! ### Trees of values -/

theorem isTypedDict_eq {S : Strategies} {n : Node} : isTypedDict S n = (match n.hdr.kind with | .dict _ m => m.isTyped S | _ => false) := by
  cases n with
  | mk h kids => rfl

/-- A TypedDict describes the value. -/
def isRec (S : Strategies) (v : Val) : Bool := match kindOf S v with
  | .dict _ m => m.isTyped S
  | _ => false

/-- The entries of a mapping. -/
def itemsOf : Val → List (Key × Val)
  | .map _ _ ks vs => ks.zip vs
  | _ => []

/-- The node is the tree of the value, up to names. -/
structure Src (S : Strategies) (e : Val) (k : Node) : Prop where
  tag : k.hdr.kind.tag = (kindOf S e).tag
  hash : H.eqv (k.hash S) (vh S e) = true
  typed : isTypedDict S k = isRec S e
  data : isTypedDict S k = true → ∃ m, k.hdr.kind = .dict (itemsOf e) m ∧ m.data = itemsOf e

theorem isRec_dict {S : Strategies} {v : Val} (h : isRec S v = true) : ∃ t ks vs, v = .map .dict t ks vs ∧ S.dict = .typedDict := by
  cases v with
  | map k t ks vs =>
    cases k with
    | dict =>
      simp only [isRec, kindOf] at h
      exact ⟨t, ks, vs, rfl, (isTyped_iff.mp h).1⟩
    | _ => simp [isRec, kindOf] at h
  | _ => simp [isRec, kindOf] at h

theorem isRec_iff {S : Strategies} {v : Val} (hl : Steady S v) : isRec S v = true ↔ IsRecord S v := by
  cases v with
  | map k t ks vs =>
    cases k with
    | dict =>
      have hl : ks.length = vs.length := hl.1.2
      simp only [isRec, kindOf, isTyped_iff, IsRecord]
      refine and_congr_right ?_
      intro hS
      simp only [dictData, hS, if_true]
      constructor
      · intro h k hk
        obtain ⟨v, hz⟩ := mem_zip_left hl hk
        exact h _ hz
      · intro h kv hkv
        exact h _ (List.of_mem_zip hkv).1
    | _ => simp [isRec, kindOf, IsRecord]
  | _ => simp [isRec, kindOf, IsRecord]

theorem src_of {E : Env} (hE : E.Fair) {f : Nat} {root : Bool} {name : Str} {v : Val} {n : Node} (h : build E f root name v = .ok n)
    (hf : v.depth < f) (hh : H.eqv (n.hash E.S) (vh E.S v) = true) : Src E.S v n := by
  obtain ⟨_, _, hk, _⟩ := build_facts hE h hf
  refine ⟨by rw [hk], hh, by rw [isTypedDict_eq, hk]; rfl, ?_⟩
  intro ht
  rw [isTypedDict_eq, hk] at ht
  obtain ⟨t, ks, vs, rfl, hS⟩ := isRec_dict ht
  refine ⟨_, by rw [hk]; simp only [kindOf, dictData, hS, if_true, itemsOf]; rfl, ?_⟩
  simp [DMeta.ofData, itemsOf]

theorem hash_tag_rename {new : Str} {n : Node} : (n.rename new).hdr.kind.tag = n.hdr.kind.tag := by rw [kind_rename]

theorem src_rename {S : Strategies} {e : Val} {k : Node} {new : Str} (h : Src S e k) : Src S e (k.rename new) := by
  refine ⟨by rw [kind_rename]; exact h.tag, by rw [hash_rename]; exact h.hash, by rw [typed_rename]; exact h.typed, ?_⟩
  rw [typed_rename, kind_rename]
  exact h.data

theorem updateNode_facts {S : Strategies} {k c : Node} (hc : isTypedDict S c = true) :
    (updateNode k c).hash S = k.hash S ∧ (updateNode k c).hdr.kind.tag = k.hdr.kind.tag ∧ isTypedDict S (updateNode k c) = isTypedDict S k := by
  cases k with
  | mk h1 k1 =>
    cases c with
    | mk h2 k2 =>
      simp only [updateNode]
      split
      · rename_i d m d' m' e1 e2
        simp only [isTypedDict, e2] at hc
        have ht : (m.update m').isTyped S = m.isTyped S := by
          rw [Bool.eq_iff_iff]
          simp only [DMeta.isTyped, Bool.and_eq_true, allStr, List.all_eq_true] at hc ⊢
          refine and_congr_left fun _ => ?_
          constructor
          · intro h kv hkv
            exact h kv (by simp [DMeta.update, hkv])
          · intro h kv hkv
            rcases mem_update_data hkv with h' | h'
            · exact h kv h'
            · exact hc.1 kv h'
        refine ⟨?_, by simp [Node.hdr, e1, NKind.tag], ?_⟩
        · simp only [Node.hash, hashOf, e1, ht]
        · simp only [isTypedDict, e1, ht]
      · exact ⟨rfl, rfl, rfl⟩

theorem update_data_same {m m' : DMeta} (h : ∀ x ∈ m'.data.map (·.1), x ∈ m.data.map (·.1)) : (m.update m').data = m.data := by
  have : m'.data.filter (fun kv => (lookupKey kv.1 m.data).isNone) = [] := by
    rw [List.filter_eq_nil_iff]
    intro kv hkv
    have := lookupKey_isSome.mpr (h kv.1 (List.mem_map_of_mem hkv))
    rw [← Option.ne_none_iff_isSome] at this
    simpa using this
  simp [DMeta.update, this]

theorem src_update {S : Strategies} {e0 e : Val} {k c : Node} (hk : Src S e0 k) (hc : Src S e c) (ht : isTypedDict S c = true)
    (hs : isRec S e0 = true → ∀ x ∈ (itemsOf e).map (·.1), x ∈ (itemsOf e0).map (·.1)) : Src S e0 (updateNode k c) := by
  obtain ⟨a1, a2, a3⟩ := updateNode_facts (k := k) ht
  refine ⟨by rw [a2]; exact hk.tag, by rw [a1]; exact hk.hash, by rw [a3]; exact hk.typed, ?_⟩
  rw [a3]
  intro h3
  obtain ⟨m, b1, b2⟩ := hk.data h3
  obtain ⟨m', c1, c2⟩ := hc.data ht
  have hd : (m.update m').data = itemsOf e0 := by
    rw [update_data_same, b2]
    rw [b2, c2]
    exact hs (by rw [← hk.typed]; exact h3)
  cases k with
  | mk h1 k1 =>
    cases c with
    | mk h2 k2 =>
      simp only [Node.hdr] at b1 c1
      refine ⟨m.update m', ?_, hd⟩
      simp only [updateNode, b1, c1, Node.hdr, hd]

/-! ### Elements of a sequence -/

/-- What the loop over the elements of a sequence leaves: every child comes from an element, every element has a child equal
to its tree, and no two children are equal. -/
theorem setFold_src {E : Env} {rec : Str → Val → Except Err Node} {parent : Str} {elems : List Val} {P : Val → Node → Prop}
    (hrec : ∀ e ∈ limit E.S.checkMax elems, ∀ nm n, rec nm e = .ok n → P e n)
    (hupd : ∀ e0 ∈ limit E.S.checkMax elems, ∀ e ∈ limit E.S.checkMax elems, ∀ k c, P e0 k → P e c → isTypedDict E.S c = true →
      nodeEq E.S c k = true → P e0 (updateNode k c))
    {r : List Node × List Str} (h : foldE (setStep E rec parent) ([], []) (limit E.S.checkMax elems) = .ok r) :
    (∀ k ∈ r.1, ∃ e ∈ limit E.S.checkMax elems, P e k) ∧
    (∀ e ∈ limit E.S.checkMax elems, ∃ nm n, rec nm e = .ok n ∧ ∃ k ∈ r.1, nodeEq E.S n k = true) ∧
    r.1.Pairwise (fun a b => nodeEq E.S b a = false) := by
  have key := foldE_split (f := setStep E rec parent) (Q := fun _ => True) (l := limit E.S.checkMax elems)
    (fun done acc => (∀ k ∈ acc.1, ∃ e ∈ limit E.S.checkMax elems, P e k) ∧
      (∀ e ∈ done, ∃ nm n, rec nm e = .ok n ∧ ∃ k ∈ acc.1, nodeEq E.S n k = true) ∧
      acc.1.Pairwise (fun a b => nodeEq E.S b a = false)) (by
    rintro pre e post ⟨kids, names⟩ hsplit ⟨I1, I2, I3⟩
    dsimp only at I1 I2 I3
    have he : e ∈ limit E.S.checkMax elems := by rw [hsplit]; simp
    unfold setStep Ens
    dsimp only
    cases hb : rec (freshName (parent ++ E.U.capitalize e.ty.name) names) e with
    | error x => trivial
    | ok c =>
      have hc := hrec e he _ _ hb
      simp only [bind, Except.bind]
      by_cases ha : kids.any (nodeEq E.S c) = true
      · obtain ⟨k0, hk0, heq⟩ := List.any_eq_true.mp ha
        rw [if_pos ha]
        by_cases ht : isTypedDict E.S c = true
        · rw [if_pos ht]
          simp only [pure, Except.pure]
          have hsame : ∀ a b, nodeEq E.S a (if nodeEq E.S c b then updateNode b c else b) = nodeEq E.S a b := by
            intro a b
            split
            · obtain ⟨x1, x2, _⟩ := updateNode_facts (k := b) ht
              simp only [nodeEq, x1, x2]
            · rfl
          have hsame' : ∀ a b, nodeEq E.S (if nodeEq E.S c b then updateNode b c else b) a = nodeEq E.S b a := by
            intro a b
            split
            · obtain ⟨x1, x2, _⟩ := updateNode_facts (k := b) ht
              simp only [nodeEq, x1, x2]
            · rfl
          refine ⟨?_, ?_, ?_⟩
          · intro k hk
            obtain ⟨k', hk', rfl⟩ := List.mem_map.mp hk
            obtain ⟨e', he', hp⟩ := I1 k' hk'
            refine ⟨e', he', ?_⟩
            split
            · rename_i hck
              exact hupd _ he' _ he _ _ hp hc ht hck
            · exact hp
          · intro e' he'
            have cov : ∀ n, (∃ k ∈ kids, nodeEq E.S n k = true) →
                ∃ k ∈ kids.map (fun k => if nodeEq E.S c k then updateNode k c else k), nodeEq E.S n k = true := by
              rintro n ⟨k, hk, h⟩
              exact ⟨_, List.mem_map_of_mem hk, by rw [hsame]; exact h⟩
            rcases List.mem_append.mp he' with he' | he'
            · obtain ⟨nm, n, h1, h2⟩ := I2 e' he'
              exact ⟨nm, n, h1, cov n h2⟩
            · simp only [List.mem_singleton] at he'
              subst he'
              exact ⟨_, c, hb, cov c ⟨k0, hk0, heq⟩⟩
          · rw [List.pairwise_map]
            refine I3.imp ?_
            intro a b hab
            rw [hsame, hsame']
            exact hab
        · rw [if_neg ht]
          refine ⟨I1, ?_, I3⟩
          intro e' he'
          rcases List.mem_append.mp he' with he' | he'
          · exact I2 e' he'
          · simp only [List.mem_singleton] at he'
            subst he'
            exact ⟨_, c, hb, k0, hk0, heq⟩
      · rw [if_neg ha]
        refine ⟨?_, ?_, ?_⟩
        · intro k hk
          rcases List.mem_append.mp hk with hk | hk
          · exact I1 k hk
          · simp only [List.mem_singleton] at hk
            subst hk
            exact ⟨e, he, hc⟩
        · intro e' he'
          rcases List.mem_append.mp he' with he' | he'
          · obtain ⟨nm, n, h1, k, hk, h2⟩ := I2 e' he'
            exact ⟨nm, n, h1, k, by simp [hk], h2⟩
          · simp only [List.mem_singleton] at he'
            subst he'
            exact ⟨_, c, hb, c, by simp, nodeEq_refl c⟩
        · rw [List.pairwise_append]
          refine ⟨I3, by simp, ?_⟩
          intro a ha' b hb'
          simp only [List.mem_singleton] at hb'
          subst hb'
          simp only [List.any_eq_true, not_exists, not_and, Bool.not_eq_true] at ha
          exact ha a ha')
    [] (limit E.S.checkMax elems) ([], []) rfl ⟨by simp, by simp, by simp⟩
  rw [h] at key
  exact key

theorem like_itemKeys {S : Strategies} {v w : Val} (h : Like S v w) : (itemsOf v).map (·.1) = (itemsOf w).map (·.1) := by
  cases h with
  | map hl _ => 
    simp only [itemsOf]
    exact (All₂.zip (All₂.of_zip (R := fun _ _ => True) hl (fun _ _ => trivial)) _).map_eq (fun _ _ h => h.1)
  | _ => rfl

theorem setKey_present {α} {k : Key} {v : α} : ∀ {d e : List (Key × α)} {w : α}, k ∉ d.map (·.1) →
    setKey k v (d ++ (k, w) :: e) = d ++ (k, v) :: e
  | [], e, w, _ => by simp [setKey]
  | (k', v') :: d, e, w, h => by
    simp only [List.map_cons, List.mem_cons, not_or] at h
    simp only [List.cons_append, setKey, if_neg (Ne.symm h.1)]
    rw [setKey_present h.2]

theorem updateDict_same {α} : ∀ {e d pre : List (Key × α)}, d.map (·.1) = e.map (·.1) → (pre.map (·.1) ++ e.map (·.1)).Nodup →
    updateDict (pre ++ d) e = pre ++ e
  | [], d, pre, h, _ => by
    simp only [List.map_nil, List.map_eq_nil_iff] at h
    subst h
    rfl
  | (k, v) :: e, d, pre, h, hn => by
    cases d with
    | nil => simp at h
    | cons kw d =>
      obtain ⟨k', w⟩ := kw
      simp only [List.map_cons, List.cons.injEq] at h
      obtain ⟨rfl, h⟩ := h
      have hk : k' ∉ pre.map (·.1) := by
        rw [List.nodup_append] at hn
        intro hk
        exact hn.2.2 k' hk k' (by simp) rfl
      show updateDict (setKey k' v (pre ++ (k', w) :: d)) e = _
      rw [setKey_present hk]
      have := updateDict_same (e := e) (d := d) (pre := pre ++ [(k', v)]) h (by simpa using hn)
      simpa using this

theorem updateDict_nil {α} : ∀ {e pre : List (Key × α)}, (pre.map (·.1) ++ e.map (·.1)).Nodup → updateDict pre e = pre ++ e
  | [], pre, _ => by simp [updateDict]
  | (k, v) :: e, pre, hn => by
    have hk : k ∉ pre.map (·.1) := by
      rw [List.nodup_append] at hn
      intro hk
      exact hn.2.2 k hk k (by simp) rfl
    have hs : ∀ {d : List (Key × α)}, k ∉ d.map (·.1) → setKey k v d = d ++ [(k, v)] := by
      intro d
      induction d with
      | nil => simp [setKey]
      | cons a d ih =>
        intro h
        simp only [List.map_cons, List.mem_cons, not_or] at h
        obtain ⟨a1, a2⟩ := a
        simp only [setKey, if_neg (Ne.symm h.1), ih h.2, List.cons_append]
    show updateDict (setKey k v pre) e = _
    rw [hs hk, updateDict_nil (by simpa using hn)]
    simp

/-- Dictionaries with the same keys: the last one determines the merged data. -/
theorem merged_last {α} {g : α → List (Key × Val)} {K : List Key} (hK : K.Nodup) : ∀ {l : List α} {d : List (Key × Val)},
    (∀ x ∈ l, (g x).map (·.1) = K) → (d = [] ∨ d.map (·.1) = K) → l ≠ [] → ∃ x ∈ l, l.foldl (fun acc n => updateDict acc (g n)) d = g x
  | [], _, _, _, h => absurd rfl h
  | x :: l, d, h, hd, _ => by
    have hx := h x (by simp)
    have e : updateDict d (g x) = g x := by
      rcases hd with rfl | hd
      · have := updateDict_nil (e := g x) (pre := []) (by simpa [hx] using hK)
        simpa using this
      · have := updateDict_same (e := g x) (d := d) (pre := []) (by rw [hd, hx]) (by simpa [hx] using hK)
        simpa using this
    simp only [List.foldl_cons, e]
    cases l with
    | nil => exact ⟨x, by simp, rfl⟩
    | cons y l =>
      obtain ⟨z, hz, h'⟩ := merged_last hK (l := y :: l) (d := g x) (fun w hw => h w (List.mem_cons_of_mem _ hw)) (.inr hx) (by simp)
      exact ⟨z, List.mem_cons_of_mem _ hz, h'⟩

end Verif
