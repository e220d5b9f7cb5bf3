import Verif.Lemmas.RowComments
import Verif.Spec.InnerRows
/-
The declarations of sequences of dictionaries inside dictionaries.
-/
namespace Verif
open Verif.Spec

/-- The child for a key of a dictionary, if no value before it has an equal tree. -/
theorem followed_child {E : Env} (hS : E.S.dict = .typedDict) {t : Ty} {keys : List Key} {vals : List Val} {before after : List (Key × Val)}
    {k : Key} {w : Val} (hl : keys.length = vals.length) (hnd : keys.Nodup) (hno : Key.none ∉ keys)
    (hz : keys.zip vals = before ++ (k, w) :: after) (hk : k.hidden = false) {f : Nat} {root : Bool} {name : Str} {n : Node}
    (h : build E (f + 1) root name (.map .dict t keys vals) = .ok n)
    (apart : ∀ nm n1 k2 v2 nm2 m, (k2, v2) ∈ before → k2.hidden = false → build E f false nm w = .ok n1 →
      build E f false nm2 v2 = .ok m → nodeEq E.S n1 m = true → False) :
    ∃ nm n1 x c, build E f false nm w = .ok n1 ∧ (c = n1 ∨ c = n1.rename x) ∧ c ∈ iterate n.hdr.slots n.kids := by
  obtain ⟨kids, hm, rfl⟩ := build_dict h
  have hd : dictData E.S (keys.zip vals) = keys.zip vals := by simp [dictData, hS]
  rw [hd] at hm ⊢
  have hkeys : kids.map (·.1) = keys.filter (fun k => !k.hidden) := by rw [mapKids_keys hm, visible_keys_of hl]
  have hkn : (kids.map (·.1)).Nodup := by rw [hkeys]; exact hnd.filter _
  have hkno : Key.none ∉ kids.map (·.1) := by rw [hkeys]; exact fun h => hno (List.mem_filter.mp h).1
  have hall := mapKids_all₂ (R := fun v n => ∃ nm, build E f false nm v = .ok n) (fun kv _ nm n h => ⟨nm, h⟩) hm
  rw [hz] at hall
  have e : visibleItems (before ++ (k, w) :: after) = visibleItems before ++ (k, w) :: visibleItems after := by
    simp [visibleItems, List.filter_cons, hk]
  rw [e] at hall
  obtain ⟨a, ⟨k1, n1⟩, b, ek, ha, e1, nm, hb⟩ := all₂_split hall
  dsimp only at e1 hb
  subst e1
  obtain ⟨n, hn, m, hm1, hm2⟩ := shareEqual_first (E := E) (parent := name) hkn ek
  have hmn : n1 = m := by
    rcases hm1 with rfl | ⟨k2, hk2, heq⟩
    · rfl
    · exfalso
      obtain ⟨⟨k3, v2⟩, hv2, e3, nm2, hb2⟩ := ha.mem_right _ hk2
      dsimp only at e3 hb2
      subst e3
      obtain ⟨hv2, hvis⟩ := List.mem_filter.mp hv2
      exact apart nm n1 _ v2 nm2 m hv2 (by simpa using hvis) hb hb2 heq
  subst hmn
  have hit : n ∈ iterate (shareEqual E name kids).1 (shareEqual E name kids).2 := by
    rw [← shareEqual_keys (E := E) (parent := name)] at hn hkno
    exact kid_iterated hn hkno
  rcases hm2 with h | ⟨x, h⟩
  · exact ⟨nm, n1, [], n, hb, .inl h, hit⟩
  · exact ⟨nm, n1, x, n, hb, .inr h, hit⟩

theorem apart_dicts {E : Env} (hS : E.S.dict = .typedDict) {t' : Ty} {before : List (Key × Val)} {ks' : List Str} {vs' : List Val}
    (hl' : ks'.length = vs'.length)
    (hsep : ∀ k2 t2 keys2 vals2, (k2, Val.map .dict t2 keys2 vals2) ∈ before → k2.hidden = false →
        keys2.length = vals2.length ∧ ¬ SameVisibleKeys keys2 (ks'.map .str)) {f : Nat} :
    ∀ nm n1 k2 v2 nm2 m, (k2, v2) ∈ before → k2.hidden = false → build E f false nm (.map .dict t' (ks'.map .str) vs') = .ok n1 →
      build E f false nm2 v2 = .ok m → nodeEq E.S n1 m = true → False := by
  intro nm n1 k2 v2 nm2 m hv2 hvis hb hb2 heq
  obtain ⟨x1, x2, x3⟩ := build_dict_keys hS (by simpa using hl') hb
  have htag : m.hdr.kind.tag = .dict := by
    have := (nodeEq_iff.mp heq).1
    rw [x1] at this
    exact this.symm
  obtain ⟨t2, keys2, vals2, rfl⟩ := build_kind_dict hb2 htag
  obtain ⟨hl2, hne⟩ := hsep _ _ _ _ hv2 hvis
  obtain ⟨y1, y2, y3⟩ := build_dict_keys hS hl2 hb2
  have hty : (DMeta.ofData ((ks'.map Key.str).zip vs')).isTyped E.S = true := by
    simp [DMeta.isTyped, DMeta.ofData, allStr_strs, hS]
  have hsame := nodeEq_same_keys x1 y1 hty (by omega) (by omega) heq
  rw [x2, y2] at hsame
  refine hne fun k hk => ?_
  have := hsame k
  simp only [List.mem_filter, hk, Bool.not_false, and_true] at this
  exact this.symm

/-! ### Sequences of scalars -/

theorem build_scalar {E : Env} {f : Nat} {root : Bool} {name : Str} {ty : Ty} {x : Option Str} {n : Node} (h : build E f root name (.inst ty x) = .ok n) :
    n.hdr.kind = .inst := by
  cases f with
  | zero => cases h
  | succ f =>
    simp only [build] at h
    split at h
    · injection h with h; subst h; rfl
    · cases h

theorem scalar_not_typed {S : Strategies} {n : Node} (h : n.hdr.kind = .inst) : isTypedDict S n = false := by
  obtain ⟨hd, kids⟩ := n
  have h : hd.kind = .inst := h
  simp [isTypedDict, h]

theorem setStep_scalars {E : Env} {f : Nat} {parent : Str} : ∀ {es : List Val} {acc r : List Node × List Str},
    (∀ e ∈ es, ∃ ty x, e = .inst ty x) → (∀ k ∈ acc.1, k.hdr.kind = .inst) →
    foldE (setStep E (build E f false) parent) acc es = .ok r → ∀ k ∈ r.1, k.hdr.kind = .inst
  | [], acc, r, _, I, h => by
    simp only [foldE] at h
    injection h with h
    subst h
    exact I
  | e :: es, acc, r, hes, I, h => by
    simp only [foldE] at h
    cases hs : setStep E (build E f false) parent acc e with
    | error e => rw [hs] at h; cases h
    | ok b =>
      rw [hs] at h
      dsimp only at h
      refine setStep_scalars (fun e he => hes e (by simp [he])) ?_ h
      obtain ⟨ty, x, rfl⟩ := hes e (by simp)
      unfold setStep at hs
      obtain ⟨c, hc, hs⟩ := bind_ok hs
      have hk := build_scalar hc
      split at hs
      · rw [scalar_not_typed hk] at hs
        simp only [Bool.false_eq_true, if_false, pure, Except.pure] at hs
        injection hs with hs
        subst hs
        exact I
      · simp only [pure, Except.pure] at hs
        injection hs with hs
        subst hs
        intro k hk'
        rcases List.mem_append.mp hk' with hk' | hk'
        · exact I k hk'
        · simp only [List.mem_singleton] at hk'
          subst hk'
          exact hk

theorem setChildren_scalars {E : Env} (hE : E.Fair) {f : Nat} {parent : Str} {es : List Val} {slots : List Slot} {kids : List Node}
    (hes : ∀ e ∈ es, ∃ ty x, e = .inst ty x) (h : setChildren E (build E f false) parent es = .ok (slots, kids)) :
    ∀ k ∈ kids, k.hdr.kind = .inst := by
  unfold setChildren at h
  obtain ⟨⟨ks, names⟩, hf, h⟩ := bind_ok h
  have I := setStep_scalars (fun e he => hes e (limit_subset he)) (acc := ([], [])) (by simp) hf
  have hnil : ∀ i, (E.order i ks).filter (isTypedDict E.S) = [] := by
    intro i
    rw [List.filter_eq_nil_iff]
    intro k hk
    rw [scalar_not_typed (I k ((hE i ks).mem_iff.mp hk))]
    simp
  simp only [hnil] at h
  split at h
  · cases h
  simp only [pure, Except.pure] at h
  injection h with h
  injection h with h1 h2
  subst h2
  exact fun k hk => I k ((hE 0 ks).mem_iff.mp hk)

theorem scalar_hash {S : Strategies} {n : Node} (h : n.hdr.kind = .inst) : ∃ t, n.hash S = .ty t := by
  obtain ⟨hd, kids⟩ := n
  have h : hd.kind = .inst := h
  exact ⟨hd.ty, by simp [Node.hash, hashOf, h]⟩

theorem hashList_map {S : Strategies} (l : List Node) : hashList S l = l.map (Node.hash S) := by
  induction l with
  | nil => rfl
  | cons a l ih => simp [hashList, ih]

theorem row_hash {S : Strategies} {ds : List Dct} {n : Node} {m : DMeta} (hS : S.dict = .typedDict) (h : RowNode ds n m) : ∃ l, n.hash S = .set l := by
  obtain ⟨data, hk⟩ := h.kind
  obtain ⟨hd, kids⟩ := n
  have hk : hd.kind = .dict data m := hk
  simp only [Node.hash, hashOf, hk]
  split
  · exact ⟨_, rfl⟩
  · exact ⟨_, rfl⟩

theorem build_kind_seq {E : Env} {f : Nat} {root : Bool} {name : Str} {v : Val} {n : Node} {k : SeqKind} (h : build E f root name v = .ok n)
    (ht : n.hdr.kind.tag = (NKind.seq k).tag) : ∃ kd t es, v = .seq kd t es ∧ n.hdr.kind = .seq kd := by
  cases f with
  | zero => cases h
  | succ f =>
    have leaf : ∀ {k : NKind} {t : Ty}, (if nameOk E.U name = true then (Except.ok (.mk { kind := k, name, root, ty := t, slots := [] } []) : Except Err Node)
        else .error (.badName name)) = .ok n → n.hdr.kind = k := by
      intro k t h
      split at h
      · injection h with h; subst h; rfl
      · cases h
    have node : ∀ {k : NKind} {t : Ty} {c : Except Err (List Slot × List Node)}, (match c with
        | .ok (slots, kids) => (.ok (.mk { kind := k, name, root, ty := t, slots } kids) : Except Err Node)
        | .error e => .error e) = .ok n → n.hdr.kind = k := by
      intro k t c h
      split at h
      · injection h with h; subst h; rfl
      · cases h
    cases v with
    | inst => simp only [build] at h; rw [leaf h] at ht; cases k <;> cases ht
    | cls => simp only [build] at h; rw [leaf h] at ht; cases k <;> cases ht
    | module => simp only [build] at h; rw [leaf h] at ht; cases k <;> cases ht
    | io => simp only [build] at h; rw [leaf h] at ht; cases k <;> cases ht
    | ndarray => simp only [build] at h; rw [leaf h] at ht; cases k <;> cases ht
    | func g =>
      simp only [build] at h
      split at h
      · cases h
      · rename_i n' hl
        split at h
        · cases h
        · injection h with h
          subst h
          rw [leaf hl] at ht
          cases k <;> cases ht
    | seq kd t es =>
      simp only [build] at h
      split at h
      · exact ⟨kd, t, es, rfl, node h⟩
      · cases h
    | map mk t ks vs =>
      cases mk with
      | dict =>
        obtain ⟨kids, _, rfl⟩ := build_dict h
        cases k <;> cases ht
      | proxy =>
        simp only [build] at h
        split at h
        · rw [node h] at ht; cases k <;> cases ht
        · cases h
      | frame i =>
        simp only [build] at h
        split at h
        · rw [node h] at ht; cases k <;> cases ht
        · cases h

theorem tag_tuple {k : SeqKind} (h : (NKind.seq k).tag = (NKind.seq .tuple).tag) : k = .tuple := by
  cases k <;> first | rfl | cases h

/-- The tree of a sequence that is no tuple of a fixed size. -/
theorem build_set_seq {E : Env} {f : Nat} {root : Bool} {name : Str} {k : SeqKind} {t : Ty} {es : List Val} {n : Node}
    (hk : k = .tuple → E.S.tuple ≠ .fixed) (h : build E (f + 1) root name (.seq k t es) = .ok n) :
    ∃ slots kids, setChildren E (build E f false) name es = .ok (slots, kids) ∧ n = .mk ⟨.seq k, name, root, t, slots⟩ kids := by
  rw [build_seq] at h
  by_cases hnm : nameOk E.U name = true
  case neg => rw [if_neg hnm] at h; cases h
  rw [if_pos hnm, if_neg (fun h => hk h.1 h.2)] at h
  split at h
  case h_2 => cases h
  rename_i slots kids hset
  injection h with h
  exact ⟨slots, kids, hset, h.symm⟩

theorem set_seq_hash {E : Env} {h : Hdr} {kids : List Node} {k : SeqKind} (hk : k = .tuple → E.S.tuple ≠ .fixed) (e : h.kind = .seq k) :
    (Node.mk h kids).hash E.S = .set (kids.map (Node.hash E.S)) := by
  simp only [Node.hash, hashOf, e, hashList_map]
  cases k with
  | tuple =>
    have := hk rfl
    cases ht : E.S.tuple with
    | fixed => exact absurd ht this
    | anySize => simp
  | _ => rfl

theorem limit_again {α} (n : Nat) (l : List α) : limit n (limit n l) = limit n l := by
  unfold limit
  split
  · rfl
  · simp [List.take_take]

theorem setChildren_limited {E : Env} {f : Nat} {parent : Str} {es : List Val} :
    setChildren E (build E f false) parent (limit E.S.checkMax es) = setChildren E (build E f false) parent es := by
  unfold setChildren
  rw [limit_again]

/-- The children of a sequence of dictionaries, of which some may not be inspected. -/
theorem limited_rows_children {E : Env} (hE : E.Fair) (hS : E.S.dict = .typedDict) {ds : List Dct} {f : Nat} {parent : Str}
    {slots : List Slot} {kids : List Node} (hd : ∀ d ∈ ds, IsDict d)
    (h : setChildren E (build E f false) parent (ds.map dictOf) = .ok (slots, kids)) :
    slots = kids.map (fun _ => Slot.seq 1) ∧ (∀ k ∈ kids, ∃ m, RowNode (limit E.S.checkMax ds) k m) ∧
    ∀ d ∈ limit E.S.checkMax ds, ∃ k ∈ kids, ∃ m, RowNode (limit E.S.checkMax ds) k m ∧ HoldsRow d k m := by
  rw [← setChildren_limited, limit_map] at h
  exact rows_children hE hS (fun d hd' => hd d (limit_subset hd')) (by rw [← limit_map, limit_again]) h

theorem apart_rows {E : Env} (hE : E.Fair) (hS : E.S.dict = .typedDict) {t' : Ty} {before : List (Key × Val)} {k : SeqKind} {ds : List Dct}
    (hk : k = .tuple → E.S.tuple ≠ .fixed) (hne : ds ≠ []) (hd : ∀ d ∈ ds, IsDict d)
    (hsep : ∀ k2 kd t2 es, (k2, Val.seq kd t2 es) ∈ before → k2.hidden = false → ∀ e ∈ es, ∃ ty x, e = .inst ty x) {f : Nat} :
    ∀ nm n1 k2 v2 nm2 m, (k2, v2) ∈ before → k2.hidden = false → build E f false nm (.seq k t' (ds.map dictOf)) = .ok n1 →
      build E f false nm2 v2 = .ok m → nodeEq E.S n1 m = true → False := by
  intro nm n1 k2 v2 nm2 m hv2 hvis hb hb2 heq
  cases f with
  | zero => cases hb
  | succ f =>
    obtain ⟨slots, kids, hset, rfl⟩ := build_set_seq hk hb
    obtain ⟨ht, hh⟩ := nodeEq_iff.mp heq
    obtain ⟨kd, t2, es, rfl, hkd⟩ := build_kind_seq hb2 ht.symm
    have hkt : kd = .tuple → E.S.tuple ≠ .fixed := by
      rintro rfl
      rw [hkd] at ht
      exact hk (tag_tuple ht)
    obtain ⟨slots2, kids2, hset2, rfl⟩ := build_set_seq hkt hb2
    have hsc := setChildren_scalars hE (hsep _ _ _ _ hv2 hvis) hset2
    obtain ⟨_, _, hcov⟩ := limited_rows_children hE hS hd hset
    have hlim : ∃ d, d ∈ limit E.S.checkMax ds := by
      cases ds with
      | nil => exact absurd rfl hne
      | cons d ds =>
        unfold limit
        split
        · exact ⟨d, by simp⟩
        · rename_i h0
          refine ⟨d, ?_⟩
          cases hc : E.S.checkMax with
          | zero => simp [hc] at h0
          | succ c => simp
    obtain ⟨d, hdm⟩ := hlim
    obtain ⟨c, hc, mm, hrow, _⟩ := hcov d hdm
    rw [set_seq_hash hk rfl, set_seq_hash hkt rfl] at hh
    obtain ⟨a, _⟩ := eqv_set.mp hh
    obtain ⟨y, hy, hyy⟩ := a _ (List.mem_map_of_mem hc)
    obtain ⟨c2, hc2, rfl⟩ := List.mem_map.mp hy
    obtain ⟨ty, e2⟩ := scalar_hash (S := E.S) (hsc c2 hc2)
    obtain ⟨l, e1⟩ := row_hash hS hrow
    rw [e1, e2] at hyy
    simp [H.eqv] at hyy

/-- The trees of the elements of a sequence that is found by following keys. -/
theorem inner_rows_nodes {E : Env} (hE : E.Fair) (hS : E.S.dict = .typedDict) {v : Val} {k : SeqKind} {ds : List Dct} (hi : InnerRows v k ds)
    (hk : k = .tuple → E.S.tuple ≠ .fixed) :
    ∀ {f : Nat} {root : Bool} {name : Str} {n : Node}, build E f root name v = .ok n →
    ∃ f0 nm0 slots kids, setChildren E (build E f0 false) nm0 (ds.map dictOf) = .ok (slots, kids) ∧
      ∀ c ∈ iterate slots kids, ∃ c', SameTexts c c' ∧ VisitedBelow n c' := by
  induction hi with
  | here k t ds =>
    intro f root name n h
    cases f with
    | zero => cases h
    | succ f =>
      obtain ⟨slots, kids, hset, rfl⟩ := build_set_seq hk h
      exact ⟨f, name, slots, kids, hset, fun c hc => ⟨c, ⟨rfl, rfl, rfl⟩, .child hc⟩⟩
  | last hl hnd hno hz hkey hne hd hsep =>
    intro f root name n h
    cases f with
    | zero => cases h
    | succ f =>
      obtain ⟨nm, n1, x, c, hb, hc, hit⟩ := followed_child hS hl hnd hno hz hkey h (apart_rows hE hS hk hne hd hsep)
      cases f with
      | zero => cases hb
      | succ f =>
        obtain ⟨slots, kids, hset, rfl⟩ := build_set_seq hk hb
        refine ⟨f, nm, slots, kids, hset, fun c0 hc0 => ?_⟩
        obtain ⟨m', h1, h2⟩ := visitedBelow_sameTexts hc (.child hc0)
        obtain ⟨hd, ks⟩ := n
        exact ⟨m', h2, .deeper hit h1⟩
  | step hl hnd hno hz hkey hl' hsep _ ih =>
    intro f root name n h
    cases f with
    | zero => cases h
    | succ f =>
      obtain ⟨nm, n1, x, c, hb, hc, hit⟩ := followed_child hS hl hnd hno hz hkey h (apart_dicts hS hl' hsep)
      obtain ⟨f0, nm0, slots, kids, hset, hall⟩ := ih hk hb
      refine ⟨f0, nm0, slots, kids, hset, fun c0 hc0 => ?_⟩
      obtain ⟨c', hs, hv⟩ := hall c0 hc0
      obtain ⟨m', h1, h2⟩ := visitedBelow_sameTexts hc hv
      obtain ⟨hd, ks⟩ := n
      exact ⟨m', hs.trans h2, .deeper hit h1⟩

theorem rowNode_sameTexts {ds : List Dct} {n n' : Node} {m : DMeta} (h : RowNode ds n m) (ha : SameTexts n n') : RowNode ds n' m := by
  obtain ⟨a1, a2, a3⟩ := ha
  exact ⟨by rw [a1]; exact h.kind, h.src, by rw [a2]; exact h.slots, by rw [a2, a3]; exact h.len⟩

end Verif
