import Verif.Lemmas.Fits
import Verif.Lemmas.Clean
/-
The tree built from tame data stands for all values of the same shape.
-/
namespace Verif
open Verif.Spec

/-- The node stands for all values of the shape of `v`. -/
def Stands (S : Strategies) (κ : SeqKind) (v : Val) (n : Node) : Prop := ∀ w, SameShape v w → Fits κ (n.hash S) w

/-- What construction gives for tame data. -/
structure GoodN (S : Strategies) (κ : SeqKind) (v : Val) (n : Node) : Prop where
  tidy : Tidy S κ n
  stands : Stands S κ v n
  typed : isTypedDict S n = true ↔ IsRecord S v
  data : isTypedDict S n = true → nodeData n = v.items ∧ ∃ m, nodeMeta n = some m ∧ m.data = nodeData n

def RecGood (S : Strategies) (κ : SeqKind) (rec : Str → Val → Except Err Node) : Prop :=
  ∀ nm v n, Tame S κ v → rec nm v = .ok n → GoodN S κ v n

theorem inspected_limit {S : Strategies} {α} {l : List α} (h : Inspected S l.length) : limit S.checkMax l = l := by
  unfold limit
  split
  · rfl
  · rename_i h0
    exact List.take_of_length_le (h.resolve_left h0)

theorem tidy_plainH {S : Strategies} {κ : SeqKind} {n : Node} (h : Tidy S κ n) : plainH (n.hash S) := by
  cases n with
  | mk hd kids =>
    have h := h.1
    unfold TidyHdr at h
    simp only [Node.hash]
    cases hk : hd.kind with
    | inst => simp [hashOf, hk, plainH]
    | seq k =>
      cases k with
      | tuple => simp only [hashOf, hk]; split <;> trivial
      | _ => simp [hashOf, hk, plainH]
    | dict d m => simp only [hashOf, hk]; split <;> trivial
    | _ => rw [hk] at h; exact h.elim

theorem dict_hash {S : Strategies} {κ : SeqKind} {n : Node} {d : List (Key × Val)} {m : DMeta} (hk : n.hdr.kind = .dict d m) :
    n.hash S = if isTypedDict S n then
      .set (((n.hdr.slots.map (·.key)).zip (n.kids.map (fun k => k.hash S))).map fun kh => .typed kh.1 kh.2)
    else .set (((n.hdr.slots.map (·.key)).zip (n.kids.map (fun k => k.hash S))).map fun kh => .mapping kh.1.ty kh.2) := by
  cases n with
  | mk hd kids =>
    simp only [Node.hdr] at hk
    simp only [Node.hash, hashOf, hk, isTypedDict, Node.hdr, Node.kids, hashList_eq_map]

theorem tidy_items_ne {S : Strategies} {κ : SeqKind} {n : Node} {d : List (Key × Val)} {m : DMeta} (ht : Tidy S κ n)
    (hk : n.hdr.kind = .dict d m) : (n.hdr.slots.map (·.key)).zip (n.kids.map (fun k => k.hash S)) ≠ [] := by
  cases n with
  | mk hd kids =>
    simp only [Node.hdr, Node.kids] at hk ⊢
    obtain ⟨h1, h2, _⟩ := ht
    unfold TidyHdr at h1
    rw [hk] at h1
    cases hs : hd.slots with
    | nil => exact absurd hs h1.1
    | cons s ss =>
      rw [hs] at h2
      cases kids with
      | nil => simp at h2
      | cons k ks => simp

theorem isTypedDict_kind {S : Strategies} {n : Node} (h : isTypedDict S n = true) : ∃ d m, n.hdr.kind = .dict d m ∧ m.isTyped S = true := by
  cases n with
  | mk hd kids =>
    simp only [isTypedDict] at h
    simp only [Node.hdr]
    cases hk : hd.kind with
    | dict d m => rw [hk] at h; exact ⟨d, m, rfl, h⟩
    | _ => rw [hk] at h; simp at h

theorem tag_dict {n : Node} (h : n.hdr.kind.tag = .dict) : ∃ d m, n.hdr.kind = .dict d m := by
  cases hk : n.hdr.kind with
  | dict d m => exact ⟨d, m, rfl⟩
  | seq k => rw [hk] at h; cases k <;> cases h
  | _ => rw [hk] at h; cases h

/-- Equal nodes are both TypedDicts or neither. -/
theorem nodeEq_typed {S : Strategies} {κ : SeqKind} {a b : Node} (ta : Tidy S κ a) (tb : Tidy S κ b) (h : nodeEq S a b = true) :
    isTypedDict S a = isTypedDict S b := by
  unfold nodeEq at h
  rw [Bool.and_eq_true, decide_eq_true_eq] at h
  obtain ⟨ht, he⟩ := h
  by_cases hd : a.hdr.kind.tag = .dict
  · obtain ⟨d, m, ha⟩ := tag_dict hd
    obtain ⟨d', m', hb⟩ := tag_dict (ht ▸ hd)
    rw [dict_hash (κ := κ) ha, dict_hash (κ := κ) hb] at he
    have na := tidy_items_ne ta ha
    generalize (a.hdr.slots.map (·.key)).zip (a.kids.map (fun k => k.hash S)) = la at na he
    generalize (b.hdr.slots.map (·.key)).zip (b.kids.map (fun k => k.hash S)) = lb at he
    obtain ⟨x, r, rfl⟩ : ∃ x r, la = x :: r := by
      cases la with
      | nil => exact absurd rfl na
      | cons x r => exact ⟨x, r, rfl⟩
    cases h1 : isTypedDict S a <;> cases h2 : isTypedDict S b <;> try rfl
    all_goals
      rw [h1, h2] at he
      simp only [if_true, if_false, Bool.false_eq_true, eqv_set] at he
      obtain ⟨y, hy, e⟩ := he.1 _ (List.mem_map_of_mem (List.mem_cons_self ..))
      obtain ⟨z, _, rfl⟩ := List.mem_map.mp hy
      simp [H.eqv] at e
  · have h1 : isTypedDict S a = false := by
      rw [Bool.eq_false_iff]
      intro h
      obtain ⟨d, m, hk, _⟩ := isTypedDict_kind h
      rw [hk] at hd; exact hd rfl
    have h2 : isTypedDict S b = false := by
      rw [Bool.eq_false_iff]
      intro h
      obtain ⟨d, m, hk, _⟩ := isTypedDict_kind h
      rw [ht, hk] at hd; exact hd rfl
    rw [h1, h2]

/-! ### Updating a TypedDict node -/

theorem update_typed {S : Strategies} {m m' : DMeta} (h : m.isTyped S = true) (h' : m'.isTyped S = true) :
    (m.update m').isTyped S = true := by
  unfold DMeta.isTyped allStr at *
  rw [Bool.and_eq_true, List.all_eq_true] at *
  refine ⟨?_, h.2⟩
  intro x hx
  rcases mem_update_data hx with hx | hx
  · exact h.1 x hx
  · exact h'.1 x hx

theorem keys_update {m m' : DMeta} {x : Key} : x ∈ (m.update m').data.map (·.1) ↔ x ∈ m.data.map (·.1) ∨ x ∈ m'.data.map (·.1) := by
  constructor
  · intro h
    obtain ⟨kv, hkv, rfl⟩ := List.mem_map.mp h
    rcases mem_update_data hkv with h | h
    · exact .inl (List.mem_map_of_mem h)
    · exact .inr (List.mem_map_of_mem h)
  · rintro (h | h)
    · obtain ⟨kv, hkv, rfl⟩ := List.mem_map.mp h
      exact List.mem_map_of_mem (by simp [DMeta.update, hkv])
    · obtain ⟨kv, hkv, rfl⟩ := List.mem_map.mp h
      by_cases hl : (lookupKey kv.1 m.data).isNone = true
      · exact List.mem_map_of_mem (by simp only [DMeta.update, List.mem_append, List.mem_filter]; exact .inr ⟨hkv, hl⟩)
      · have : kv.1 ∈ m.data.map (·.1) := by
          clear h hkv
          generalize kv.1 = k at hl
          generalize m.data = d at hl
          induction d with
          | nil => simp [lookupKey] at hl
          | cons p r ih =>
            obtain ⟨a, b⟩ := p
            simp only [lookupKey] at hl
            by_cases e : a = k
            · simp [e]
            · rw [if_neg e] at hl
              simp [ih hl]
        obtain ⟨kv', hkv', e⟩ := List.mem_map.mp this
        rw [← e]
        exact List.mem_map_of_mem (by simp [DMeta.update, hkv'])

structure Updated (S : Strategies) (κ : SeqKind) (k c n : Node) : Prop where
  tidy : Tidy S κ n
  hash : n.hash S = k.hash S
  typed : isTypedDict S n = true
  data : ∀ kv ∈ nodeData n, kv ∈ nodeData k ∨ kv ∈ nodeData c
  keys : ∀ x, x ∈ (nodeData k).map (·.1) → x ∈ (nodeData n).map (·.1)
  info : ∃ m, nodeMeta n = some m ∧ m.data = nodeData n

theorem updateNode_spec {S : Strategies} {κ : SeqKind} {k c : Node} (hk : Tidy S κ k) (hc : Tidy S κ c)
    (tk : isTypedDict S k = true) (tc : isTypedDict S c = true)
    (dk : ∃ m, nodeMeta k = some m ∧ m.data = nodeData k) (dc : ∃ m, nodeMeta c = some m ∧ m.data = nodeData c) :
    Updated S κ k c (updateNode k c) := by
  obtain ⟨d, m, ek, hm⟩ := isTypedDict_kind tk
  obtain ⟨d', m', ec, hm'⟩ := isTypedDict_kind tc
  cases k with
  | mk h kids =>
    cases c with
    | mk h' kids' =>
      simp only [Node.hdr] at ek ec
      simp only [nodeMeta, nodeData, ek, Option.some.injEq] at dk
      simp only [nodeMeta, nodeData, ec, Option.some.injEq] at dc
      obtain ⟨_, rfl, dk⟩ := dk
      obtain ⟨_, rfl, dc⟩ := dc
      have hu := update_typed hm hm'
      have e : updateNode (.mk h kids) (.mk h' kids') =
          .mk { h with kind := .dict (m.update m').data (m.update m') } kids := by
        simp only [updateNode, ek, ec]
      rw [e]
      obtain ⟨t1, t2, t3⟩ := hk
      unfold TidyHdr at t1
      rw [ek] at t1
      have t1' := hc.1
      unfold TidyHdr at t1'
      rw [ec] at t1'
      obtain ⟨a1, a2, a3, a4, a5⟩ := t1
      obtain ⟨_, _, _, b4, b5⟩ := t1'
      constructor
      · refine ⟨?_, t2, t3⟩
        unfold TidyHdr
        refine ⟨a1, a2, fun s hs => ⟨(a3 s hs).1, keys_update.mpr (.inl (a3 s hs).2)⟩, ?_, ?_, a5.2⟩
        · intro kv hkv
          rcases mem_update_data hkv with h | h
          · exact a4 kv (dk ▸ h)
          · exact b4 kv (dc ▸ h)
        · intro kv hkv
          rcases mem_update_data hkv with h | h
          · exact a5.1 kv h
          · exact b5.1 kv h
      · simp only [Node.hash, hashOf, ek, hm, hu]
      · simp only [isTypedDict, hu]
      · intro kv hkv
        simp only [nodeData, ek, ec] at hkv ⊢
        rcases mem_update_data hkv with h | h
        · exact .inl (dk ▸ h)
        · exact .inr (dc ▸ h)
      · intro x hx
        simp only [nodeData, ek] at hx ⊢
        exact keys_update.mpr (.inl (dk ▸ hx))
      · exact ⟨_, rfl, rfl⟩

/-! ### Sets and sequences -/

theorem foldE_inv {α β} {f : β → α → Except Err β} {I : List α → β → Prop}
    (step : ∀ done a b b', I done b → f b a = .ok b' → I (done ++ [a]) b') : ∀ (l done : List α) (b b' : β), I done b →
    foldE f b l = .ok b' → I (done ++ l) b'
  | [], done, b, b', h, hf => by
    simp only [foldE, Except.ok.injEq] at hf
    subst hf
    simpa using h
  | a :: r, done, b, b', h, hf => by
    simp only [foldE] at hf
    cases hs : f b a with
    | error e => rw [hs] at hf; cases hf
    | ok b1 =>
      rw [hs] at hf
      have := foldE_inv step r (done ++ [a]) b1 b' (step done a b b1 h hs) hf
      simpa using this

/-- As `foldE_inv`, for steps that use membership in the list. -/
theorem foldE_inv_mem {α β} {f : β → α → Except Err β} {I : List α → β → Prop} {l : List α} {b b' : β} (h0 : I [] b)
    (step : ∀ done a b b', a ∈ l → I done b → f b a = .ok b' → I (done ++ [a]) b') (hf : foldE f b l = .ok b') : I l b' := by
  have key : ∀ (r done : List α) (b : β), (∀ a ∈ r, a ∈ l) → I done b → foldE f b r = .ok b' → I (done ++ r) b' := by
    intro r
    induction r with
    | nil =>
      intro done b _ h hf
      simp only [foldE, Except.ok.injEq] at hf
      subst hf
      simpa using h
    | cons a r ih =>
      intro done b hr h hf
      simp only [foldE] at hf
      cases hs : f b a with
      | error e => rw [hs] at hf; cases hf
      | ok b1 =>
        rw [hs] at hf
        have := ih (done ++ [a]) b1 (fun a ha => hr a (by simp [ha])) (step done a b b1 (hr a (by simp)) h hs) hf
        simpa using this
  simpa using key l [] b (fun a ha => ha) h0 hf

/-- Data of a TypedDict node that stands for some of the processed records. -/
structure FromRecords (S : Strategies) (done : List Val) (k : Node) : Prop where
  sub : ∀ kv ∈ nodeData k, ∃ d ∈ done, IsRecord S d ∧ kv ∈ d.items
  keys : ∃ d ∈ done, IsRecord S d ∧ ∀ kv ∈ d.items, kv.1 ∈ (nodeData k).map (·.1)
  info : ∃ m, nodeMeta k = some m ∧ m.data = nodeData k

theorem FromRecords.mono {S : Strategies} {done done' : List Val} {k : Node} (h : FromRecords S done k)
    (hs : ∀ v ∈ done, v ∈ done') : FromRecords S done' k := by
  obtain ⟨h1, ⟨d, hd, h2⟩, h3⟩ := h
  refine ⟨fun kv hkv => ?_, ⟨d, hs d hd, h2⟩, h3⟩
  obtain ⟨d, hd, h⟩ := h1 kv hkv
  exact ⟨d, hs d hd, h⟩

structure SetInv (S : Strategies) (κ : SeqKind) (done : List Val) (kids : List Node) : Prop where
  tidy : ∀ k ∈ kids, Tidy S κ k
  stands : ∀ e ∈ done, ∃ k ∈ kids, (isTypedDict S k = true ↔ IsRecord S e) ∧ Stands S κ e k
  data : ∀ k ∈ kids, isTypedDict S k = true → FromRecords S done k

theorem fromRecords_good {S : Strategies} {κ : SeqKind} {done : List Val} {v : Val} {n : Node} (hg : GoodN S κ v n)
    (ht : isTypedDict S n = true) (hv : v ∈ done) : FromRecords S done n := by
  have hr := hg.typed.mp ht
  obtain ⟨h1, h2⟩ := hg.data ht
  refine ⟨fun kv hkv => ⟨v, hv, hr, h1 ▸ hkv⟩, ⟨v, hv, hr, fun kv hkv => ?_⟩, h2⟩
  rw [h1]
  exact List.mem_map_of_mem hkv

theorem setStep_inv {E : Env} {κ : SeqKind} {rec : Str → Val → Except Err Node} (hrec : RecGood E.S κ rec) {parent : Str}
    {done : List Val} {a : Val} (ha : Tame E.S κ a) {b b' : List Node × List Str} (h : SetInv E.S κ done b.1)
    (hs : setStep E rec parent b a = .ok b') : SetInv E.S κ (done ++ [a]) b'.1 := by
  unfold setStep at hs
  cases hr : rec (freshName (parent ++ E.U.capitalize a.ty.name) b.2) a with
  | error e => simp only [hr] at hs; cases hs
  | ok c =>
    have hg := hrec _ _ _ ha hr
    simp only [hr] at hs
    by_cases he : b.1.any (nodeEq E.S c) = true
    · obtain ⟨k0, hk0, hk0e⟩ := List.any_eq_true.mp he
      have ty0 := nodeEq_typed hg.tidy (h.tidy k0 hk0) hk0e
      cases ht : isTypedDict E.S c with
      | true =>
        have hb : b'.1 = b.1.map (fun k => if nodeEq E.S c k then updateNode k c else k) := by
          have : (Except.ok (b.1.map (fun k => if nodeEq E.S c k then updateNode k c else k), b.2) : Except Err _) = .ok b' := by
            rw [← hs]
            show _ = (if b.1.any (nodeEq E.S c) then _ else _)
            rw [if_pos he, ht]; rfl
          injection this with this
          rw [← this]
        have up : ∀ k ∈ b.1, nodeEq E.S c k = true → Updated E.S κ k c (updateNode k c) := by
          intro k hk hek
          have tk : isTypedDict E.S k = true := by rw [← nodeEq_typed hg.tidy (h.tidy k hk) hek, ht]
          exact updateNode_spec (h.tidy k hk) hg.tidy tk ht (h.data k hk tk).info (hg.data ht).2
        rw [hb]
        constructor
        · intro k hk
          obtain ⟨k', hk', rfl⟩ := List.mem_map.mp hk
          try dsimp only
          split
          · rename_i hek; exact (up k' hk' hek).tidy
          · exact h.tidy k' hk'
        · intro e hme
          rcases List.mem_append.mp hme with hme | hme
          · obtain ⟨k, hk, hty, hst⟩ := h.stands e hme
            refine ⟨_, List.mem_map_of_mem hk, ?_⟩
            try dsimp only
            split
            · rename_i hek
              have u := up k hk hek
              have tk : isTypedDict E.S k = true := by rw [← nodeEq_typed hg.tidy (h.tidy k hk) hek, ht]
              refine ⟨by rw [← hty, u.typed, tk], ?_⟩
              intro w hw
              rw [u.hash]
              exact hst w hw
            · exact ⟨hty, hst⟩
          · simp only [List.mem_singleton] at hme
            subst hme
            refine ⟨_, List.mem_map_of_mem hk0, ?_⟩
            try dsimp only
            rw [if_pos hk0e]
            have u := up k0 hk0 hk0e
            refine ⟨by rw [← hg.typed, u.typed, ht], ?_⟩
            intro w hw
            rw [u.hash]
            exact nodeEq_fits hk0e (hg.stands w hw)
        · intro k hk htk
          obtain ⟨k', hk', rfl⟩ := List.mem_map.mp hk
          by_cases hek : nodeEq E.S c k' = true
          · rw [if_pos hek] at htk ⊢
            have u := up k' hk' hek
            have tk : isTypedDict E.S k' = true := by rw [← nodeEq_typed hg.tidy (h.tidy k' hk') hek, ht]
            have f := h.data k' hk' tk
            refine ⟨?_, ?_, u.info⟩
            · intro kv hkv
              rcases u.data kv hkv with h1 | h1
              · obtain ⟨d, hd, h2⟩ := f.sub kv h1
                exact ⟨d, by simp [hd], h2⟩
              · rw [(hg.data ht).1] at h1
                exact ⟨a, by simp, hg.typed.mp ht, h1⟩
            · obtain ⟨d, hd, h1, h2⟩ := f.keys
              exact ⟨d, by simp [hd], h1, fun kv hkv => u.keys _ (h2 kv hkv)⟩
          · rw [if_neg hek] at htk ⊢
            exact (h.data k' hk' htk).mono (fun v hv => by simp [hv])
      | false =>
        have hb : b' = b := by
          have : (Except.ok b : Except Err _) = .ok b' := by
            rw [← hs]
            show _ = (if b.1.any (nodeEq E.S c) then _ else _)
            rw [if_pos he, ht]; rfl
          injection this with this
          exact this.symm
        rw [hb]
        refine ⟨h.tidy, ?_, fun k hk htk => (h.data k hk htk).mono (fun v hv => by simp [hv])⟩
        intro e hme
        rcases List.mem_append.mp hme with hme | hme
        · exact h.stands e hme
        · simp only [List.mem_singleton] at hme
          subst hme
          exact ⟨k0, hk0, by rw [← ty0]; exact hg.typed, fun w hw => nodeEq_fits hk0e (hg.stands w hw)⟩
    · have hb : b'.1 = b.1 ++ [c] := by
        have : (Except.ok (b.1 ++ [c], b.2 ++ [freshName (parent ++ E.U.capitalize a.ty.name) b.2]) : Except Err _) = .ok b' := by
          rw [← hs]
          show _ = (if b.1.any (nodeEq E.S c) then _ else _)
          rw [if_neg he]; rfl
        injection this with this
        rw [← this]
      rw [hb]
      constructor
      · intro k hk
        rcases List.mem_append.mp hk with hk | hk
        · exact h.tidy k hk
        · simp only [List.mem_singleton] at hk; subst hk; exact hg.tidy
      · intro e hme
        rcases List.mem_append.mp hme with hme | hme
        · obtain ⟨k, hk, h'⟩ := h.stands e hme
          exact ⟨k, by simp [hk], h'⟩
        · simp only [List.mem_singleton] at hme
          subst hme
          exact ⟨c, by simp, hg.typed, hg.stands⟩
      · intro k hk htk
        rcases List.mem_append.mp hk with hk | hk
        · exact (h.data k hk htk).mono (fun v hv => by simp [hv])
        · simp only [List.mem_singleton] at hk
          subst hk
          exact fromRecords_good hg htk (by simp)

/-! ### Dictionaries of the same shape -/

theorem dict_shape {t t' : Ty} {ks ks' : List Key} {vs vs' : List Val} (h : SameShape (.map .dict t ks vs) (.map .dict t' ks' vs')) :
    ks.length = vs.length ∧ ks'.length = vs'.length ∧
    (∀ kv ∈ ks.zip vs, ∃ w, (kv.1, w) ∈ ks'.zip vs' ∧ SameShape kv.2 w) ∧
    (∀ kw ∈ ks'.zip vs', ∃ v, (kw.1, v) ∈ ks.zip vs ∧ SameShape v kw.2) := by
  cases h with
  | dict R l1 l2 hR h1 h2 =>
    refine ⟨l1, l2, ?_, ?_⟩
    · intro kv hkv
      obtain ⟨w, hw, r⟩ := h1 kv hkv
      exact ⟨w, hw, hR _ _ r⟩
    · intro kv hkv
      obtain ⟨w, hw, r⟩ := h2 kv hkv
      exact ⟨w, hw, hR _ _ r⟩

theorem seq_shape {k : SeqKind} {t : Ty} {es : List Val} {w : Val} (h : SameShape (.seq k t es) w) :
    ∃ t' es', w = .seq k t' es' ∧ ∀ e' ∈ es', ∃ e ∈ es, SameShape e e' := by
  cases h with
  | tuple hl hp =>
    rename_i t' es'
    refine ⟨t', es', rfl, ?_⟩
    intro e' he'
    obtain ⟨i, hi, rfl⟩ := List.mem_iff_getElem.mp he'
    have hi' : i < es.length := by omega
    refine ⟨es[i], List.getElem_mem _, hp (es[i], es'[i]) ?_⟩
    rw [List.mem_iff_getElem]
    exact ⟨i, by simp only [List.length_zip]; omega, by simp⟩
  | seq R hk hR h1 h2 =>
    rename_i t' es'
    refine ⟨t', es', rfl, ?_⟩
    intro e' he'
    obtain ⟨e, he, r⟩ := h2 e' he'
    exact ⟨e, he, hR _ _ r⟩

theorem tuple_shape {t : Ty} {es : List Val} {w : Val} (h : SameShape (.seq .tuple t es) w) :
    ∃ t' es', w = .seq .tuple t' es' ∧ es.length = es'.length ∧ ∀ p ∈ es.zip es', SameShape p.1 p.2 := by
  cases h with
  | tuple hl hp => exact ⟨_, _, rfl, hl, hp⟩
  | seq R hk => exact absurd rfl hk

theorem dict_shape' {t : Ty} {ks : List Key} {vs : List Val} {w : Val} (h : SameShape (.map .dict t ks vs) w) :
    ∃ t' ks' vs', w = .map .dict t' ks' vs' := by
  cases h with
  | dict => exact ⟨_, _, _, rfl⟩

theorem record_dict {S : Strategies} {v : Val} (h : IsRecord S v) : ∃ t ks vs, v = .map .dict t ks vs ∧ S.dict = .typedDict ∧
    ∀ k ∈ ks, k.isStr = true := by
  cases v with
  | map k t ks vs =>
    cases k with
    | dict => exact ⟨t, ks, vs, rfl, h⟩
    | _ => exact h.elim
  | _ => exact h.elim

theorem tame_seq {S : Strategies} {κ k : SeqKind} {t : Ty} {es : List Val} (h : Tame S κ (.seq k t es)) :
    (k = κ ∨ (k = .tuple ∧ S.tuple = .fixed)) ∧ Inspected S es.length ∧
    (∀ d ∈ es, ∀ e ∈ es, IsRecord S d → IsRecord S e → SameShape d e) ∧ ∀ e ∈ es, Tame S κ e :=
  ⟨h.1.1, h.1.2.1, h.1.2.2, everyList_iff.mp h.2⟩

theorem tame_dict {S : Strategies} {κ : SeqKind} {t : Ty} {ks : List Key} {vs : List Val} (h : Tame S κ (.map .dict t ks vs)) :
    (ks ≠ [] ∧ ks.Nodup ∧ ks.length = vs.length ∧ Key.none ∉ ks ∧ (∀ k ∈ ks, k.hidden = false) ∧
        (S.dict = .typedDict ∨ Inspected S ks.length) ∧ (S.keyDoc = [] ∨ Key.str S.keyDoc ∉ ks) ∧ t.name ≠ py!"mappingproxy") ∧ ∀ e ∈ vs, Tame S κ e :=
  ⟨h.1, everyList_iff.mp h.2⟩

theorem tame_kind {S : Strategies} {κ : SeqKind} {v : Val} (h : Tame S κ v) :
    (∃ t x, v = .inst t x) ∨ (∃ k t es, v = .seq k t es) ∨ ∃ t ks vs, v = .map .dict t ks vs := by
  have hs := every_self h
  cases v with
  | inst t x => exact .inl ⟨t, x, rfl⟩
  | seq k t es => exact .inr (.inl ⟨k, t, es, rfl⟩)
  | map k t ks vs =>
    cases k with
    | dict => exact .inr (.inr ⟨t, ks, vs, rfl⟩)
    | _ => exact hs.elim
  | _ => exact hs.elim

mutual
theorem tame_refl {S : Strategies} {κ : SeqKind} : ∀ (v : Val), Tame S κ v → SameShape v v
  | .inst _ _, _ => .inst
  | .seq k t es, h => by
    have ih := tameList_refl (S := S) (κ := κ) es h.2
    by_cases hk : k = .tuple
    · subst hk
      refine .tuple rfl ?_
      intro p hp
      obtain ⟨i, hi, rfl⟩ := List.mem_iff_getElem.mp hp
      simp only [List.getElem_zip]
      exact ih _ (List.getElem_mem _)
    · refine .seq (fun a b => a = b ∧ SameShape a a) hk (fun a b r => r.1 ▸ r.2) ?_ ?_
      all_goals
        intro e he
        exact ⟨e, he, rfl, ih e he⟩
  | .map .dict t ks vs, h => by
    have ih := tameList_refl (S := S) (κ := κ) vs h.2
    have hl := h.1.2.2.1
    refine .dict (fun a b => a = b ∧ SameShape a a) hl hl (fun a b r => r.1 ▸ r.2) ?_ ?_
    all_goals
      intro kv hkv
      exact ⟨kv.2, hkv, rfl, ih _ (List.of_mem_zip hkv).2⟩
  | .map .proxy _ _ _, h => h.1.elim
  | .map (.frame _) _ _ _, h => h.1.elim
  | .func _, h => h.elim
  | .cls _ _, h => h.elim
  | .module _, h => h.elim
  | .io _, h => h.elim
  | .ndarray _ _, h => h.elim
theorem tameList_refl {S : Strategies} {κ : SeqKind} : ∀ (l : List Val), EveryList (fun w => match w with
    | .inst _ _ => True
    | .seq k _ es => (k = κ ∨ (k = .tuple ∧ S.tuple = .fixed)) ∧ Inspected S es.length ∧
        ∀ d ∈ es, ∀ e ∈ es, IsRecord S d → IsRecord S e → SameShape d e
    | .map .dict t ks vs => ks ≠ [] ∧ ks.Nodup ∧ ks.length = vs.length ∧ Key.none ∉ ks ∧ (∀ k ∈ ks, k.hidden = false) ∧
        (S.dict = .typedDict ∨ Inspected S ks.length) ∧ (S.keyDoc = [] ∨ Key.str S.keyDoc ∉ ks) ∧
        t.name ≠ py!"mappingproxy"
    | _ => False) l → ∀ v ∈ l, SameShape v v
  | [], _ => by simp
  | v :: l, h => by
    intro w hw
    rcases List.mem_cons.mp hw with e | hw
    · rw [e]
      exact tame_refl (S := S) (κ := κ) v h.1
    · exact tameList_refl (S := S) (κ := κ) l h.2 w hw
end

/-! ### Merging -/

theorem keys_foldl_updateDict {x : Key} : ∀ {ns : List Node} {d : List (Key × Val)},
    x ∈ (ns.foldl (fun acc n => updateDict acc (nodeData n)) d).map (·.1) ↔ x ∈ d.map (·.1) ∨ ∃ n ∈ ns, x ∈ (nodeData n).map (·.1)
  | [], d => by simp
  | n :: ns, d => by
    simp only [List.foldl_cons]
    rw [keys_foldl_updateDict, keys_updateDict]
    simp only [List.mem_cons, exists_eq_or_imp]
    exact or_assoc

theorem nodup_foldl_updateDict : ∀ {ns : List Node} {d : List (Key × Val)}, (d.map (·.1)).Nodup →
    ((ns.foldl (fun acc n => updateDict acc (nodeData n)) d).map (·.1)).Nodup
  | [], d, h => by simpa using h
  | n :: ns, d, h => by
    simp only [List.foldl_cons]
    exact nodup_foldl_updateDict (nodup_updateDict h)

theorem keys_foldl_update {x : Key} : ∀ {ms : List DMeta} {m : DMeta},
    x ∈ (ms.foldl DMeta.update m).data.map (·.1) ↔ x ∈ m.data.map (·.1) ∨ ∃ o ∈ ms, x ∈ o.data.map (·.1)
  | [], m => by simp
  | o :: ms, m => by
    simp only [List.foldl_cons]
    rw [keys_foldl_update, keys_update]
    simp only [List.mem_cons, exists_eq_or_imp]
    exact or_assoc

/-- The data of merged dictionaries, and the values that the merged node stands for. -/
theorem mergeDicts_core {S : Strategies} {κ : SeqKind} {rec : Str → Val → Except Err Node} (hrec : RecGood S κ rec)
    {done : List Val} (hd : ∀ e ∈ done, Tame S κ e) {ds : List Node}
    (hf : ∀ n ∈ ds, FromRecords S done n) {n : Node} (h : mergeDicts rec ds = .ok n) :
    Tidy S κ n ∧ isTypedDict S n = true ∧ ds ≠ [] ∧ ∃ D : List (Key × Val), (D.map (·.1)).Nodup ∧
      (∀ kv ∈ D, ∃ e ∈ done, IsRecord S e ∧ kv ∈ e.items) ∧
      (∀ k ∈ ds, ∀ kv ∈ nodeData k, kv.1 ∈ D.map (·.1)) ∧ Stands S κ (.dict D) n := by
  cases ds with
  | nil => simp [mergeDicts] at h
  | cons d ds =>
    have hdata : ∀ kv ∈ (d :: ds).foldl (fun acc n => updateDict acc (nodeData n)) [],
        ∃ e ∈ done, IsRecord S e ∧ kv ∈ e.items := by
      intro kv hkv
      rcases mem_foldl_updateDict hkv with h | ⟨n, hn, h⟩
      · cases h
      · exact (hf n hn).sub kv h
    have hinfo : ∀ kv ∈ (((d :: ds).filterMap nodeMeta).foldl DMeta.update ((nodeMeta d).getD (DMeta.ofData []))).data,
        ∃ e ∈ done, IsRecord S e ∧ kv ∈ e.items := by
      have : ∀ n ∈ d :: ds, ∀ m, nodeMeta n = some m → ∀ kv ∈ m.data, ∃ e ∈ done, IsRecord S e ∧ kv ∈ e.items := by
        intro n hn m hm kv hkv
        obtain ⟨m', hm', e⟩ := (hf n hn).info
        rw [hm] at hm'
        cases hm'
        exact (hf n hn).sub kv (e ▸ hkv)
      intro kv hkv
      rcases mem_foldl_update_data hkv with h | ⟨o, ho, h⟩
      · obtain ⟨m', hm', e⟩ := (hf d (by simp)).info
        rw [hm', Option.getD_some] at h
        exact this d (by simp) m' hm' kv h
      · obtain ⟨n, hn, hm⟩ := List.mem_filterMap.mp ho
        exact this n hn o hm kv h
    have hkeys : ∀ x, x ∈ ((d :: ds).foldl (fun acc n => updateDict acc (nodeData n)) []).map (·.1) →
        x ∈ (((d :: ds).filterMap nodeMeta).foldl DMeta.update ((nodeMeta d).getD (DMeta.ofData []))).data.map (·.1) := by
      intro x hx
      rcases keys_foldl_updateDict.mp hx with h | ⟨n, hn, h⟩
      · simp at h
      · obtain ⟨m, hm, e⟩ := (hf n hn).info
        exact keys_foldl_update.mpr (.inr ⟨m, List.mem_filterMap.mpr ⟨n, hn, hm⟩, e ▸ h⟩)
    have hnd : (((d :: ds).foldl (fun acc n => updateDict acc (nodeData n)) []).map (·.1)).Nodup :=
      nodup_foldl_updateDict (by simp)
    have hall : ∀ k ∈ d :: ds, ∀ kv ∈ nodeData k, kv.1 ∈ ((d :: ds).foldl (fun acc n => updateDict acc (nodeData n)) []).map (·.1) :=
      fun k hk kv hkv => keys_foldl_updateDict.mpr (.inr ⟨k, hk, List.mem_map_of_mem hkv⟩)
    have hfirst := hall d (by simp)
    unfold mergeDicts at h
    dsimp only at h
    generalize hD : (d :: ds).foldl (fun acc n => updateDict acc (nodeData n)) [] = D at *
    generalize ((d :: ds).filterMap nodeMeta).foldl DMeta.update ((nodeMeta d).getD (DMeta.ofData [])) = I at *
    obtain ⟨d0, hd0, rd0, kd0⟩ := (hf d (by simp)).keys
    -- the keys of every record
    have rkeys : ∀ e ∈ done, IsRecord S e → ∀ kv ∈ e.items,
        kv.1 ≠ .none ∧ kv.1.hidden = false ∧ kv.1.isStr = true ∧ (S.keyDoc = [] ∨ kv.1 ≠ .str S.keyDoc) ∧ Tame S κ kv.2 := by
      intro e he hre kv hkv
      obtain ⟨t, ks, vs, rfl, _, hstr⟩ := record_dict hre
      obtain ⟨⟨_, _, _, h4, h5, _, h7, _⟩, hv⟩ := tame_dict (hd _ he)
      have hm := List.of_mem_zip (show (kv.1, kv.2) ∈ ks.zip vs from hkv)
      refine ⟨fun e => h4 (e ▸ hm.1), h5 _ hm.1, hstr _ hm.1, ?_, hv _ hm.2⟩
      rcases h7 with h7 | h7
      · exact .inl h7
      · exact .inr (fun e => h7 (e ▸ hm.1))
    have hrk : ∀ kv ∈ D, kv.1 ≠ .none ∧ kv.1.hidden = false ∧ kv.1.isStr = true ∧
        (S.keyDoc = [] ∨ kv.1 ≠ .str S.keyDoc) ∧ Tame S κ kv.2 := by
      intro kv hkv
      obtain ⟨e, he, hre, hm⟩ := hdata kv hkv
      exact rkeys e he hre kv hm
    obtain ⟨_, _, _, _, hS, _⟩ := record_dict rd0
    have hzip : ((D.map (·.1)).zip (D.map (·.2))) = D := by
      rw [List.zip_map']; simp
    have hne : D ≠ [] := by
      obtain ⟨t, ks, vs, rfl, _, _⟩ := record_dict rd0
      obtain ⟨⟨h1, _, h3, _⟩, _⟩ := tame_dict (hd _ hd0)
      cases ks with
      | nil => exact absurd rfl h1
      | cons k ks =>
        cases vs with
        | nil => simp at h3
        | cons v vs =>
          have := kd0 (k, v) (by simp [Val.items])
          obtain ⟨kv, hkv, e⟩ := List.mem_map.mp this
          have := hfirst kv hkv
          intro e
          rw [e] at this
          simp at this
    have htame : Tame S κ (.dict D) := by
      refine ⟨⟨by simpa using hne, hnd, by simp, ?_, ?_, .inl hS, ?_, by decide⟩, ?_⟩
      · intro hm
        obtain ⟨kv, hkv, e⟩ := List.mem_map.mp hm
        exact (hrk kv hkv).1 e
      · intro k hk
        obtain ⟨kv, hkv, rfl⟩ := List.mem_map.mp hk
        exact (hrk kv hkv).2.1
      · by_cases e : S.keyDoc = []
        · exact .inl e
        · refine .inr ?_
          intro hm
          obtain ⟨kv, hkv, e'⟩ := List.mem_map.mp hm
          exact ((hrk kv hkv).2.2.2.1.resolve_left e) e'
      · refine everyList_iff.mpr ?_
        intro v hv
        obtain ⟨kv, hkv, rfl⟩ := List.mem_map.mp hv
        exact (hrk kv hkv).2.2.2.2
    have hrec' : IsRecord S (.dict D) := by
      refine ⟨hS, ?_⟩
      intro k hk
      obtain ⟨kv, hkv, rfl⟩ := List.mem_map.mp hk
      exact (hrk kv hkv).2.2.1
    cases hr : rec (ds.foldl (fun acc n => minStr acc n.name) d.name) (.dict D) with
    | error e => rw [hr] at h; cases h
    | ok n0 =>
      rw [hr] at h
      cases n0 with
      | mk hd0' kids =>
        have e : Node.mk { hd0' with kind := .dict D I } kids = n := by
          have : (Except.ok (Node.mk { hd0' with kind := .dict D I } kids) : Except Err Node) = .ok n := h
          injection this
        subst e
        have hg := hrec _ _ _ htame hr
        have ht := hg.typed.mpr hrec'
        obtain ⟨dd, m, hk, hm⟩ := isTypedDict_kind ht
        simp only [Node.hdr] at hk
        obtain ⟨g1, m', g2, g3⟩ := hg.data ht
        simp only [nodeData, nodeMeta, hk, Option.some.injEq] at g1 g2 g3
        subst g2
        have g1' : dd = D := g1.trans hzip
        have hI : I.isTyped S = true := by
          unfold DMeta.isTyped allStr
          rw [Bool.and_eq_true, List.all_eq_true, decide_eq_true_eq]
          refine ⟨?_, hS⟩
          intro kv hkv
          obtain ⟨e, he, hre, hm⟩ := hinfo kv hkv
          exact (rkeys e he hre kv hm).2.2.1
        obtain ⟨t1, t2, t3⟩ := hg.tidy
        unfold TidyHdr at t1
        rw [hk] at t1
        obtain ⟨a1, a2, a3, a4, a5⟩ := t1
        refine ⟨⟨?_, t2, t3⟩, by simpa [isTypedDict] using hI, by simp, D, hnd, hdata, hall, ?_⟩
        · unfold TidyHdr
          refine ⟨a1, a2, fun s hs => ⟨(a3 s hs).1, hkeys _ ?_⟩, fun kv hkv => (hrk kv hkv).2.2.2.1, ?_, a5.2⟩
          · have := (a3 s hs).2
            rw [g3, g1'] at this
            exact this
          · intro kv hkv
            obtain ⟨e, he, hre, hm⟩ := hinfo kv hkv
            exact (rkeys e he hre kv hm).2.1
        · intro w hw
          have := hg.stands w hw
          simp only [Node.hash, hashOf, hk, hm, if_true] at this
          simpa only [Node.hash, hashOf, hI, if_true] using this

theorem mergeDicts_good {S : Strategies} {κ : SeqKind} {rec : Str → Val → Except Err Node} (hrec : RecGood S κ rec)
    {done : List Val} (hd : ∀ e ∈ done, Tame S κ e)
    (hs : ∀ d ∈ done, ∀ e ∈ done, IsRecord S d → IsRecord S e → SameShape d e) {ds : List Node}
    (hf : ∀ n ∈ ds, FromRecords S done n) {n : Node} (h : mergeDicts rec ds = .ok n) :
    Tidy S κ n ∧ isTypedDict S n = true ∧ ∀ e ∈ done, IsRecord S e → Stands S κ e n := by
  obtain ⟨g1, g2, hne, D, hnd, hdata, hall, hst⟩ := mergeDicts_core hrec hd hf h
  refine ⟨g1, g2, ?_⟩
  obtain ⟨d, hdm⟩ := List.exists_mem_of_ne_nil _ hne
  obtain ⟨d0, hd0, rd0, kd0⟩ := (hf d hdm).keys
  have hzip : ((D.map (·.1)).zip (D.map (·.2))) = D := by
    rw [List.zip_map']; simp
  have hshape : ∀ e ∈ done, IsRecord S e → SameShape (.dict D) e := by
    intro e he hre
    obtain ⟨t, ks, vs, rfl, _, _⟩ := record_dict hre
    obtain ⟨⟨_, h2, h3, _⟩, _⟩ := tame_dict (hd _ he)
    refine .dict SameShape (by simp) h3 (fun _ _ r => r) ?_ ?_
    · rw [hzip]
      intro kv hkv
      obtain ⟨e', he', hre', hm⟩ := hdata kv hkv
      obtain ⟨t', ks', vs', rfl, _, _⟩ := record_dict hre'
      exact (dict_shape (hs _ he' _ he hre' hre)).2.2.1 kv hm
    · rw [hzip]
      intro kw hkw
      obtain ⟨t0, ks0, vs0, rfl, _, _⟩ := record_dict rd0
      obtain ⟨v0, hv0, _⟩ := (dict_shape (hs _ he _ hd0 hre rd0)).2.2.1 kw hkw
      obtain ⟨kv0, hkv0, e0⟩ := List.mem_map.mp (kd0 (kw.1, v0) hv0)
      have := hall d hdm kv0 hkv0
      obtain ⟨kv, hkv, e1⟩ := List.mem_map.mp this
      obtain ⟨e', he', hre', hm⟩ := hdata kv hkv
      obtain ⟨t', ks', vs', rfl, _, _⟩ := record_dict hre'
      obtain ⟨w, hw, hsw⟩ := (dict_shape (hs _ he' _ he hre' hre)).2.2.1 kv hm
      have ek : kv.1 = kw.1 := e1.trans e0
      rw [ek] at hw
      have : w = kw.2 := by
        apply nodup_fst_unique _ hw (show (kw.1, kw.2) ∈ ks.zip vs from hkw)
        rw [List.map_fst_zip (by omega)]; exact h2
      refine ⟨kv.2, by rw [← ek]; exact hkv, this ▸ hsw⟩
  intro e he hre w hw
  exact hst w (SameShape.trans (hshape e he hre) hw)

/-- Items of dictionaries whose shared keys hold values of the same shape fit the merged node. -/
theorem mergeDicts_holds {S : Strategies} {κ : SeqKind} {rec : Str → Val → Except Err Node} (hrec : RecGood S κ rec)
    {done : List Val} (hd : ∀ e ∈ done, Tame S κ e)
    (hs : ∀ d ∈ done, ∀ e ∈ done, IsRecord S d → IsRecord S e → ∀ kv ∈ d.items, ∀ kw ∈ e.items, kv.1 = kw.1 → SameShape kv.2 kw.2)
    {ds : List Node} (hf : ∀ n ∈ ds, FromRecords S done n) {n : Node} (h : mergeDicts rec ds = .ok n)
    (hk : ∀ e ∈ done, IsRecord S e → ∃ k ∈ ds, ∀ kv ∈ e.items, kv.1 ∈ (nodeData k).map (·.1)) :
    Tidy S κ n ∧ isTypedDict S n = true ∧ ∀ e ∈ done, IsRecord S e → ∃ w, (∀ kv ∈ e.items, kv ∈ w.items) ∧ Fits κ (n.hash S) w := by
  obtain ⟨g1, g2, hne, D, hnd, hdata, hall, hst⟩ := mergeDicts_core hrec hd hf h
  refine ⟨g1, g2, ?_⟩
  have hzip : ((D.map (·.1)).zip (D.map (·.2))) = D := by
    rw [List.zip_map']; simp
  intro e he hre
  obtain ⟨k, hkm, hkk⟩ := hk e he hre
  have hnde : (e.items.map (·.1)).Nodup := by
    obtain ⟨t, ks, vs, rfl, _, _⟩ := record_dict hre
    obtain ⟨⟨_, h2, h3, _⟩, _⟩ := tame_dict (hd _ he)
    simp only [Val.items]
    rw [List.map_fst_zip (by omega)]; exact h2
  let W : List (Key × Val) := D.map (fun kv => (kv.1, (lookupKey kv.1 e.items).getD kv.2))
  have hW1 : W.map (·.1) = D.map (·.1) := by simp [W]
  have hWzip : ((W.map (·.1)).zip (W.map (·.2))) = W := by
    rw [List.zip_map']; simp
  have hval : ∀ kv ∈ D, SameShape kv.2 ((lookupKey kv.1 e.items).getD kv.2) := by
    intro kv hkv
    obtain ⟨e', he', hre', hm⟩ := hdata kv hkv
    cases hl : lookupKey kv.1 e.items with
    | none =>
      obtain ⟨t, ks, vs, rfl, _, _⟩ := record_dict hre'
      exact tame_refl _ ((tame_dict (hd _ he')).2 _ (List.of_mem_zip (show (kv.1, kv.2) ∈ ks.zip vs from hm)).2)
    | some x => exact hs _ he' _ he hre' hre kv hm (kv.1, x) (lookupKey_mem hl) rfl
  refine ⟨.dict W, ?_, hst _ ?_⟩
  · intro kv hkv
    show kv ∈ (W.map (·.1)).zip (W.map (·.2))
    rw [hWzip]
    obtain ⟨kv1, hkv1, e1⟩ := List.mem_map.mp (hkk kv hkv)
    obtain ⟨kv2, hkv2, e2⟩ := List.mem_map.mp (hall k hkm kv1 hkv1)
    refine List.mem_map.mpr ⟨kv2, hkv2, ?_⟩
    have ek : kv2.1 = kv.1 := e2.trans e1
    rw [ek]
    cases hl : lookupKey kv.1 e.items with
    | none => exact absurd (List.mem_map_of_mem hkv) (lookupKey_none.mp hl)
    | some x =>
      have : x = kv.2 := nodup_fst_unique hnde (lookupKey_mem hl) (show (kv.1, kv.2) ∈ e.items from hkv)
      rw [this]; rfl
  · refine .dict SameShape (by simp) (by simp) (fun _ _ r => r) ?_ ?_
    · rw [hzip, hWzip]
      intro kv hkv
      exact ⟨_, List.mem_map.mpr ⟨kv, hkv, rfl⟩, hval kv hkv⟩
    · rw [hzip, hWzip]
      intro kw hkw
      obtain ⟨kv, hkv, rfl⟩ := List.mem_map.mp hkw
      exact ⟨kv.2, hkv, hval kv hkv⟩

/-! ### Children of sequences -/

theorem setChildren_good {E : Env} (hE : E.Fair) {κ : SeqKind} {rec : Str → Val → Except Err Node} (hrec : RecGood E.S κ rec)
    {parent : Str} {es : List Val} (hi : Inspected E.S es.length) (hd : ∀ e ∈ es, Tame E.S κ e)
    (hs : ∀ d ∈ es, ∀ e ∈ es, IsRecord E.S d → IsRecord E.S e → SameShape d e) {r : List Slot × List Node}
    (h : setChildren E rec parent es = .ok r) :
    r.1 = r.2.map (fun _ => Slot.seq 1) ∧ (∀ k ∈ r.2, Tidy E.S κ k) ∧ ∀ e ∈ es, ∃ k ∈ r.2, Stands E.S κ e k := by
  unfold setChildren at h
  rw [inspected_limit hi] at h
  cases hf : foldE (setStep E rec parent) ([], []) es with
  | error e => rw [hf] at h; cases h
  | ok b =>
    have inv : SetInv E.S κ es b.1 := foldE_inv_mem (I := fun done b => SetInv E.S κ done b.1) ⟨by simp, by simp, by simp⟩
      (fun done a b b' ha hb hst => setStep_inv hrec (hd a ha) hb hst) hf
    rw [hf] at h
    have h : (if shouldMerge E.S ((E.order 0 b.1).filter (isTypedDict E.S)) then (do
          let merged ← mergeDicts rec ((E.order 1 b.1).filter (isTypedDict E.S))
          let out := E.order 2 (b.1.filter (fun k => !isTypedDict E.S k) ++ [merged])
          pure (out.map (fun _ => Slot.seq 1), out))
        else (pure ((E.order 0 b.1).map (fun _ => Slot.seq 1), E.order 0 b.1) : Except Err (List Slot × List Node))) = .ok r := h
    by_cases hm : shouldMerge E.S ((E.order 0 b.1).filter (isTypedDict E.S)) = true
    · rw [if_pos hm] at h
      cases hg : mergeDicts rec ((E.order 1 b.1).filter (isTypedDict E.S)) with
      | error e => rw [hg] at h; cases h
      | ok n =>
        rw [hg] at h
        have h : (Except.ok ((E.order 2 (b.1.filter (fun k => !isTypedDict E.S k) ++ [n])).map (fun _ => Slot.seq 1),
          E.order 2 (b.1.filter (fun k => !isTypedDict E.S k) ++ [n])) : Except Err _) = .ok r := h
        injection h with h
        subst h
        obtain ⟨g1, g2, g3⟩ := mergeDicts_good hrec hd hs (ds := (E.order 1 b.1).filter (isTypedDict E.S)) (by
          intro k hk
          rw [List.mem_filter] at hk
          exact inv.data k ((hE 1 b.1).mem_iff.mp hk.1) hk.2) hg
        have hmem : ∀ k, k ∈ E.order 2 (b.1.filter (fun k => !isTypedDict E.S k) ++ [n]) ↔
            (k ∈ b.1 ∧ isTypedDict E.S k = false) ∨ k = n := by
          intro k
          rw [(hE 2 _).mem_iff]
          simp
        refine ⟨rfl, ?_, ?_⟩
        · intro k hk
          rcases (hmem k).mp hk with ⟨hk, _⟩ | rfl
          · exact inv.tidy k hk
          · exact g1
        · intro e he
          obtain ⟨k, hk, hty, hst⟩ := inv.stands e he
          cases ht : isTypedDict E.S k with
          | true => exact ⟨n, (hmem n).mpr (.inr rfl), g3 e he (hty.mp ht)⟩
          | false => exact ⟨k, (hmem k).mpr (.inl ⟨hk, ht⟩), hst⟩
    · rw [if_neg hm] at h
      have h : (Except.ok ((E.order 0 b.1).map (fun _ => Slot.seq 1), E.order 0 b.1) : Except Err _) = .ok r := h
      injection h with h
      subst h
      refine ⟨rfl, fun k hk => inv.tidy k ((hE 0 _).mem_iff.mp hk), ?_⟩
      intro e he
      obtain ⟨k, hk, hty, hst⟩ := inv.stands e he
      exact ⟨k, (hE 0 _).mem_iff.mpr hk, hst⟩

theorem good_rename {S : Strategies} {κ : SeqKind} {v : Val} {n : Node} {x : Str} (h : GoodN S κ v n) : GoodN S κ v (n.rename x) where
  tidy := tidy_rename h.tidy
  stands := by intro w hw; rw [hash_rename]; exact h.stands w hw
  typed := by rw [typed_rename]; exact h.typed
  data := by rw [typed_rename, nodeData_rename, nodeMeta_rename.1]; exact h.data

theorem All₂.snoc {α β} {R : α → β → Prop} {l : List α} {l' : List β} (h : All₂ R l l') {a : α} {b : β} (hr : R a b) :
    All₂ R (l ++ [a]) (l' ++ [b]) := by
  induction h with
  | nil => exact .cons hr .nil
  | cons h _ ih => exact .cons h ih

theorem All₂.map_right {α β γ} {R : α → β → Prop} {R' : α → γ → Prop} {g : β → γ} {l : List α} {l' : List β} (h : All₂ R l l')
    (hfg : ∀ a ∈ l, ∀ b, R a b → R' a (g b)) : All₂ R' l (l'.map g) := by
  induction h with
  | nil => exact .nil
  | cons h _ ih => exact .cons (hfg _ (by simp) _ h) (ih (fun a ha => hfg a (by simp [ha])))

theorem tupleChildren_good {E : Env} {κ : SeqKind} {rec : Str → Val → Except Err Node} (hrec : RecGood E.S κ rec)
    {parent : Str} {es : List Val} (hi : Inspected E.S es.length) (hd : ∀ e ∈ es, Tame E.S κ e)
    (hs : ∀ d ∈ es, ∀ e ∈ es, IsRecord E.S d → IsRecord E.S e → SameShape d e) {r : List Slot × List Node}
    (h : tupleChildren E rec parent es = .ok r) :
    r.1.length = r.2.length ∧ (∀ s ∈ r.1, s.key ≠ .none) ∧ (∀ k ∈ r.2, Tidy E.S κ k) ∧ All₂ (Stands E.S κ) es r.2 := by
  unfold tupleChildren at h
  rw [inspected_limit hi] at h
  cases hf : foldE (tupleStep E rec parent) ([], []) es with
  | error e => rw [hf] at h; cases h
  | ok b =>
    have inv : All₂ (GoodN E.S κ) es b.1 := foldE_inv_mem (I := fun done b => All₂ (GoodN E.S κ) done b.1) .nil (by
      intro done a b b' ha hb hst
      unfold tupleStep at hst
      dsimp only at hst
      cases hr : rec (freshName (parent ++ E.U.capitalize a.ty.name) (b.2.map (·.2))) a with
      | error e => rw [hr] at hst; cases hst
      | ok c =>
        rw [hr] at hst
        have hg := hrec _ _ _ (hd a ha) hr
        cases hq : findEq E.S c b.2 with
        | some old =>
          have hst : (match findEq E.S c b.2 with
            | some old => Except.ok (b.1 ++ [c.rename old], b.2)
            | none => Except.ok (b.1 ++ [c], b.2 ++ [(c, c.name)])) = (Except.ok b' : Except Err _) := hst
          rw [hq] at hst
          injection hst with hst
          subst hst
          exact hb.snoc (good_rename hg)
        | none =>
          have hst : (match findEq E.S c b.2 with
            | some old => Except.ok (b.1 ++ [c.rename old], b.2)
            | none => Except.ok (b.1 ++ [c], b.2 ++ [(c, c.name)])) = (Except.ok b' : Except Err _) := hst
          rw [hq] at hst
          injection hst with hst
          subst hst
          exact hb.snoc hg) hf
    rw [hf] at h
    have h : (if shouldMerge E.S (b.1.filter (isTypedDict E.S)) then (do
          let merged ← mergeDicts rec (b.1.filter (isTypedDict E.S))
          pure (b.1.map (fun k => Slot.seq (if isTypedDict E.S k then (b.1.filter (isTypedDict E.S)).length else 1)),
            b.1.map (fun k => if isTypedDict E.S k then merged else k)))
        else (pure (b.1.map (fun _ => Slot.seq 1), b.1) : Except Err (List Slot × List Node))) = .ok r := h
    by_cases hm : shouldMerge E.S (b.1.filter (isTypedDict E.S)) = true
    · rw [if_pos hm] at h
      cases hg : mergeDicts rec (b.1.filter (isTypedDict E.S)) with
      | error e => rw [hg] at h; cases h
      | ok n =>
        rw [hg] at h
        have h : (Except.ok (b.1.map (fun k => Slot.seq (if isTypedDict E.S k then (b.1.filter (isTypedDict E.S)).length else 1)),
          b.1.map (fun k => if isTypedDict E.S k then n else k)) : Except Err _) = .ok r := h
        injection h with h
        subst h
        obtain ⟨g1, g2, g3⟩ := mergeDicts_good hrec hd hs (ds := b.1.filter (isTypedDict E.S)) (by
          intro k hk
          rw [List.mem_filter] at hk
          obtain ⟨a, ha, hga⟩ := inv.mem_right k hk.1
          exact fromRecords_good hga hk.2 ha) hg
        refine ⟨by simp, ?_, ?_, ?_⟩
        · intro s hs
          obtain ⟨k, _, rfl⟩ := List.mem_map.mp hs
          simp [Slot.seq]
        · intro k hk
          obtain ⟨k', hk', rfl⟩ := List.mem_map.mp hk
          split
          · exact g1
          · obtain ⟨a, ha, hga⟩ := inv.mem_right k' hk'
            exact hga.tidy
        · refine inv.map_right ?_
          intro a ha k hgk
          split
          · rename_i ht
            exact g3 a ha (hgk.typed.mp ht)
          · exact hgk.stands
    · rw [if_neg hm] at h
      have h : (Except.ok (b.1.map (fun _ => Slot.seq 1), b.1) : Except Err _) = .ok r := h
      injection h with h
      subst h
      refine ⟨by simp, ?_, ?_, inv.imp (fun _ _ h => h.stands)⟩
      · intro s hs
        obtain ⟨k, _, rfl⟩ := List.mem_map.mp hs
        simp [Slot.seq]
      · intro k hk
        obtain ⟨a, ha, hga⟩ := inv.mem_right k hk
        exact hga.tidy

/-! ### Construction -/

theorem All₂.mem_zip {α β γ} {R : α → β → Prop} {f : α → γ} {l : List α} {l' : List β} (h : All₂ R l l') :
    ∀ a ∈ l, ∃ b, (f a, b) ∈ (l.map f).zip l' ∧ R a b := by
  induction h with
  | nil => simp
  | cons h _ ih =>
    intro a ha
    rcases List.mem_cons.mp ha with rfl | ha
    · exact ⟨_, by simp, h⟩
    · obtain ⟨b, hb, hr⟩ := ih a ha
      exact ⟨b, by simp [hb], hr⟩

theorem shares_fits {S : Strategies} {κ : SeqKind} {kids : List (Key × Node)} {n0 n : Node} (h : Shares S kids n0 n) {w : Val}
    (hf : Fits κ (n0.hash S) w) : Fits κ (n.hash S) w := by
  obtain ⟨k, m, _, h1, h2⟩ := h
  have : Fits κ (m.hash S) w := by
    rcases h1 with rfl | h1
    · exact hf
    · exact nodeEq_fits h1 hf
  rcases h2 with rfl | ⟨x, rfl⟩
  · exact this
  · rw [hash_rename]; exact this

theorem mapKids_all₂ {rec : Str → Val → Except Err Node} {parent : Str} {suffix : Key → Str} {R : Val → Node → Prop} :
    ∀ {items : List (Key × Val)} {kids : List (Key × Node)},
    (∀ kv ∈ items, ∀ nm n, rec nm kv.2 = .ok n → R kv.2 n) → mapKids rec parent suffix items = .ok kids →
    All₂ (fun kv kn => kn.1 = kv.1 ∧ R kv.2 kn.2) items kids
  | [], kids, _, h => by
    simp only [mapKids, Except.ok.injEq] at h
    subst h
    exact .nil
  | (k, v) :: r, kids, hR, h => by
    simp only [mapKids] at h
    cases h1 : rec (parent ++ suffix k) v with
    | error e => rw [h1] at h; cases h
    | ok n =>
      cases h2 : mapKids rec parent suffix r with
      | error e => rw [h1, h2] at h; cases h
      | ok rest =>
        rw [h1, h2] at h
        have h : (Except.ok ((k, n) :: rest) : Except Err _) = .ok kids := h
        injection h with h
        subst h
        exact .cons ⟨rfl, hR (k, v) (by simp) _ _ h1⟩ (mapKids_all₂ (fun kv hkv => hR kv (by simp [hkv])) h2)

theorem build_good {E : Env} (hE : E.Fair) {κ : SeqKind} : ∀ (f : Nat) (root : Bool) (name : Str) (v : Val) (n : Node),
    Tame E.S κ v → build E f root name v = .ok n → GoodN E.S κ v n
  | 0, _, _, _, _, _, h => by cases h
  | f + 1, root, name, v, n, ht, h => by
    have hrec : RecGood E.S κ (build E f false) := fun nm v n ht h => build_good hE f false nm v n ht h
    rcases tame_kind ht with ⟨t, x, rfl⟩ | ⟨k, t, es, rfl⟩ | ⟨t, ks, vs, rfl⟩
    · have h : (if nameOk E.U name then .ok (.mk { kind := .inst, name, root, ty := t, slots := [] } []) else .error (.badName name)) =
        (.ok n : Except Err Node) := h
      split at h
      · injection h with h
        subst h
        refine ⟨⟨rfl, rfl, trivial⟩, ?_, ?_, ?_⟩
        · intro w hw
          cases hw with
          | inst => exact ⟨trivial, rfl⟩
        · simp [isTypedDict, IsRecord]
        · simp [isTypedDict]
      · cases h
    · obtain ⟨hk, hi, hs, hd⟩ := tame_seq ht
      rw [build_seq] at h
      split at h
      · by_cases hc : k = .tuple ∧ E.S.tuple = .fixed
        · rw [if_pos hc] at h
          cases hr : tupleChildren E (build E f false) name es with
          | error e => rw [hr] at h; cases h
          | ok r =>
            obtain ⟨slots, kids⟩ := r
            rw [hr] at h
            injection h with h
            subst h
            obtain ⟨h1, h2, h3, h4⟩ := tupleChildren_good hrec hi hd hs hr
            obtain ⟨rfl, htup⟩ := hc
            refine ⟨⟨⟨hk, h2⟩, h1, tidyList_iff.mpr h3⟩, ?_, by simp [isTypedDict, IsRecord], by simp [isTypedDict]⟩
            intro w hw
            obtain ⟨t', es', rfl, hl, hz⟩ := tuple_shape hw
            have : ¬ E.S.tuple = .anySize := by rw [htup]; simp
            simp only [Node.hash, hashOf, if_neg this, hashList_eq_map]
            refine ⟨t', es', rfl, fitsEach_iff.mpr ?_⟩
            clear h1 h2 h3 hr hw hi hs hd ht hk hrec
            dsimp only at h4
            induction h4 generalizing es' with
            | nil =>
              cases es' with
              | nil => exact .nil
              | cons => simp at hl
            | cons hst _ ih =>
              cases es' with
              | nil => simp at hl
              | cons e es' =>
                refine .cons (hst e (hz (_, e) (by simp))) (ih es' (by simpa using hl) (fun p hp => hz p (by simp [hp])))
        · rw [if_neg hc] at h
          cases hr : setChildren E (build E f false) name es with
          | error e => rw [hr] at h; cases h
          | ok r =>
            obtain ⟨slots, kids⟩ := r
            rw [hr] at h
            injection h with h
            subst h
            obtain ⟨h1, h2, h3⟩ := setChildren_good hE hrec hi hd hs hr
            dsimp only at h1 h2 h3
            subst h1
            have hκ : k = κ := hk.resolve_right hc
            refine ⟨⟨⟨hk, ?_⟩, by simp, tidyList_iff.mpr h2⟩, ?_, by simp [isTypedDict, IsRecord], by simp [isTypedDict]⟩
            · intro s hs
              obtain ⟨_, _, rfl⟩ := List.mem_map.mp hs
              simp [Slot.seq]
            · intro w hw
              obtain ⟨t', es', rfl, hz⟩ := seq_shape hw
              have : ∀ (sl : List Slot), (Node.mk ⟨.seq k, name, root, t, sl⟩ kids).hash E.S = .set (kids.map (fun k => k.hash E.S)) := by
                intro sl
                simp only [Node.hash, hashList_eq_map]
                cases k with
                | tuple =>
                  have : E.S.tuple = .anySize := by
                    cases ht : E.S.tuple with
                    | fixed => exact absurd ⟨rfl, ht⟩ hc
                    | anySize => rfl
                  simp [hashOf, this]
                | _ => rfl
              rw [this]
              refine .inl ⟨t', es', by rw [hκ], ?_, ?_⟩
              · intro h hh
                obtain ⟨k, hk, rfl⟩ := List.mem_map.mp hh
                exact tidy_plainH (h2 k hk)
              · intro e' he'
                obtain ⟨e, he, hsh⟩ := hz e' he'
                obtain ⟨k, hk, hst⟩ := h3 e he
                exact fitsSome_iff.mpr ⟨_, List.mem_map_of_mem hk, hst e' hsh⟩
      · cases h
    · obtain ⟨⟨d1, d2, d3, d4, d5, d6, d7, d8⟩, hd⟩ := tame_dict ht
      obtain ⟨kids, hm, rfl⟩ := build_dict h
      have hdata : dictData E.S (ks.zip vs) = ks.zip vs := by
        unfold dictData
        split
        · rfl
        · rename_i hne
          apply inspected_limit
          rw [List.length_zip, ← d3, Nat.min_self]
          exact d6.resolve_left hne
      rw [hdata] at hm ⊢
      have hkeys : (ks.zip vs).map (·.1) = ks := List.map_fst_zip (by omega)
      have hvis : visibleItems (ks.zip vs) = ks.zip vs := by
        unfold visibleItems
        rw [List.filter_eq_self]
        intro kv hkv
        simp [d5 _ (List.of_mem_zip (show (kv.1, kv.2) ∈ _ from hkv)).1]
      rw [hvis] at hm
      have hall := mapKids_all₂ (R := GoodN E.S κ) (fun kv hkv nm n h =>
        hrec nm _ n (hd _ (List.of_mem_zip (show (kv.1, kv.2) ∈ _ from hkv)).2) h) hm
      have hkk : kids.map (·.1) = ks := by rw [mapKids_keys hm, hkeys]
      have hnd : (kids.map (·.1)).Nodup := by rw [hkk]; exact d2
      have hsh := shareEqual_spec (E := E) (parent := name) hnd
      have hsk : (shareEqual E name kids).1.map (·.key) = ks := by rw [shareEqual_keys, hkk]
      have hmt : ∀ (d : List (Key × Val)), d = ks.zip vs → ((DMeta.ofData d).isTyped E.S = true ↔ IsRecord E.S (.map .dict t ks vs)) := by
        rintro _ rfl
        simp only [DMeta.isTyped, DMeta.ofData, allStr, Bool.and_eq_true, List.all_eq_true, decide_eq_true_eq, IsRecord]
        constructor
        · rintro ⟨h1, h2⟩
          refine ⟨h2, ?_⟩
          intro k hk
          rw [← hkeys] at hk
          obtain ⟨kv, hkv, rfl⟩ := List.mem_map.mp hk
          exact h1 kv hkv
        · rintro ⟨h1, h2⟩
          exact ⟨fun kv hkv => h2 _ (List.of_mem_zip (show (kv.1, kv.2) ∈ _ from hkv)).1, h1⟩
      refine ⟨⟨?_, shareEqual_length .., tidyList_iff.mpr ?_⟩, ?_, ?_, ?_⟩
      · unfold TidyHdr
        refine ⟨?_, by rw [hsk]; exact d2, ?_, ?_, ?_, d8⟩
        · intro e
          dsimp only at e
          rw [e] at hsk
          exact d1 hsk.symm
        · intro s hs
          have : s.key ∈ ks := by rw [← hsk]; exact List.mem_map_of_mem hs
          refine ⟨fun e => d4 (e ▸ this), ?_⟩
          simp only [DMeta.ofData, hkeys]
          exact this
        · intro kv hkv
          rcases d7 with d7 | d7
          · exact .inl d7
          · exact .inr (fun e => d7 (e ▸ (List.of_mem_zip (show (kv.1, kv.2) ∈ _ from hkv)).1))
        · intro kv hkv
          exact d5 _ (List.of_mem_zip (show (kv.1, kv.2) ∈ _ from hkv)).1
      · intro k hk
        obtain ⟨kn, _, k0, m, hm0, _, h2⟩ := hsh.mem_right k hk
        obtain ⟨kv, _, _, hg⟩ := hall.mem_right _ hm0
        rcases h2 with rfl | ⟨x, rfl⟩
        · exact hg.tidy
        · exact tidy_rename hg.tidy
      · intro w hw
        obtain ⟨t', ks', vs', rfl⟩ := dict_shape' hw
        obtain ⟨_, l', s1, s2⟩ := dict_shape hw
        rw [dict_hash (κ := κ) rfl]
        simp only [Node.hdr, Node.kids, hsk]
        have hne : ks' ≠ [] := by
          cases ks with
          | nil => exact absurd rfl d1
          | cons k ks =>
            cases vs with
            | nil => simp at d3
            | cons v vs =>
              obtain ⟨w, hw, _⟩ := s1 (k, v) (by simp)
              intro e
              rw [e] at hw
              simp at hw
        have item : ∀ kw ∈ ks'.zip vs', ∃ nd, (kw.1, nd) ∈ ks.zip (shareEqual E name kids).2 ∧ Fits κ (nd.hash E.S) kw.2 := by
          intro kw hkw
          obtain ⟨v, hv, hsv⟩ := s2 kw hkw
          obtain ⟨kn, hkn, e, hg⟩ := hall.mem_left _ hv
          obtain ⟨nd, hnd, hshare⟩ := hsh.mem_zip (f := (·.1)) kn hkn
          rw [hkk] at hnd
          have e : kn.1 = kw.1 := e
          exact ⟨nd, e ▸ hnd, shares_fits hshare (hg.stands _ hsv)⟩
        have keysub : ∀ k ∈ ks, k ∈ ks' := by
          intro k hk
          rw [← hkeys] at hk
          obtain ⟨kv, hkv, rfl⟩ := List.mem_map.mp hk
          obtain ⟨w, hw, _⟩ := s1 kv hkv
          exact (List.of_mem_zip hw).1
        have zmem : ∀ {k : Key} {nd : Node}, (k, nd) ∈ ks.zip (shareEqual E name kids).2 →
            (k, nd.hash E.S) ∈ ks.zip ((shareEqual E name kids).2.map (fun k => k.hash E.S)) := by
          intro k nd h
          rw [List.zip_map_right]
          exact List.mem_map.mpr ⟨_, h, rfl⟩
        split
        · refine .inr ⟨t', ks', vs', rfl, hne, l', ?_, ?_⟩
          · intro kw hkw
            obtain ⟨nd, hnd, hf⟩ := item kw hkw
            exact fitsItem_iff.mpr ⟨_, List.mem_map_of_mem (zmem hnd), rfl, hf⟩
          · intro h hh k h' e
            obtain ⟨kh, hkh, rfl⟩ := List.mem_map.mp hh
            cases e
            exact keysub _ (List.of_mem_zip (show (kh.1, kh.2) ∈ _ from hkh)).1
        · refine .inr ⟨t', ks', vs', rfl, hne, l', ?_, ?_⟩
          · intro kw hkw
            obtain ⟨nd, hnd, hf⟩ := item kw hkw
            exact fitsItem_iff.mpr ⟨_, List.mem_map_of_mem (zmem hnd), rfl, hf⟩
          · intro h hh k h' e
            obtain ⟨kh, hkh, rfl⟩ := List.mem_map.mp hh
            cases e
      · exact hmt _ rfl
      · intro _
        exact ⟨rfl, _, rfl, rfl⟩

end Verif
