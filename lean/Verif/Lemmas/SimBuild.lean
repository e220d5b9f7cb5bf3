import Verif.Lemmas.Sim
import Verif.Props.Frames
/-
Trees of the same data under different iteration orders of sets.
-/
namespace Verif
open Verif.Spec

/-- What an element of a sequence and its child have in common. -/
def Elem (S : Strategies) (e : Val) (k : Node) : Prop :=
  (Inline S S.minHeight e → Silent S S.minHeight k) ∧ (Uniform S e → Src S e k)

theorem typed_not_silent {S : Strategies} {b : Nat} {n : Node} (h : isTypedDict S n = true) : ¬ Silent S b n := by
  intro hs
  rw [silent_not_typed hs] at h
  cases h

section
variable {E : Env} {f : Nat} {es : List Val}

theorem elem_build (hE : E.Fair) {e : Val} (hs : Steady E.S e) (hf : e.depth < f) {nm : Str} {n : Node} (h : build E f false nm e = .ok n) :
    Elem E.S e n :=
  ⟨fun hi => inline_silent hE f _ hs hi hf h, fun hu => src_of hE h hf (build_hash hE f false nm e n hs hu hf h)⟩

/-- The elements of a sequence that need a declaration are alike. -/
def ElemsOk (S : Strategies) (es : List Val) : Prop :=
  ∀ e ∈ limit S.checkMax es, ∀ e' ∈ limit S.checkMax es,
    Inline S S.minHeight e ∨ Inline S S.minHeight e' ∨ (Like S e e' ∧ Uniform S e ∧ Uniform S e')

theorem rec_like (hok : ElemsOk E.S es) (hst : ∀ e ∈ es, Steady E.S e) {e e' : Val} (he : e ∈ limit E.S.checkMax es) (he' : e' ∈ limit E.S.checkMax es)
    (hr : isRec E.S e = true) (hr' : isRec E.S e' = true) : Like E.S e e' ∧ Uniform E.S e ∧ Uniform E.S e' := by
  rcases hok e he e' he' with h | h | h
  · exact absurd h (record_not_inline ((isRec_iff (hst e (limit_subset he))).mp hr))
  · exact absurd h (record_not_inline ((isRec_iff (hst e' (limit_subset he'))).mp hr'))
  · exact h

/-- The children after the loop over the elements. -/
theorem setFold_quiet (hE : E.Fair) {parent : Str} (hok : ElemsOk E.S es) (hst : ∀ e ∈ es, Steady E.S e ∧ e.depth < f)
    {r : List Node × List Str} (h : foldE (setStep E (build E f false) parent) ([], []) (limit E.S.checkMax es) = .ok r) :
    (∀ k ∈ r.1, ∃ e ∈ limit E.S.checkMax es, Elem E.S e k) ∧ r.1.Pairwise (QuietPair E.S) := by
  have hl : ∀ e ∈ limit E.S.checkMax es, Steady E.S e ∧ e.depth < f := fun e he => hst e (limit_subset he)
  obtain ⟨h1, _, h3⟩ := setFold_src (P := Elem E.S) (fun e he nm n hb => elem_build hE (hl e he).1 (hl e he).2 hb) (by
    intro e0 he0 e he k c hk hc ht _
    constructor
    · intro hi
      exact silent_updateNode_any (hk.1 hi)
    · intro hu
      have hck : isRec E.S e = true → Src E.S e c := fun hr => hc.2 (rec_like hok (fun e he => (hst e he).1) he he hr hr).2.1
      have hr : isRec E.S e = true := by
        rcases hok e he e he with h | h | h
        · exact absurd (hc.1 h) (typed_not_silent ht)
        · exact absurd (hc.1 h) (typed_not_silent ht)
        · rw [← (hc.2 h.2.1).typed]; exact ht
      refine src_update (hk.2 hu) (hck hr) ht ?_
      intro hr0 x hx
      rw [like_itemKeys (rec_like hok (fun e he => (hst e he).1) he0 he hr0 hr).1]
      exact hx) h
  refine ⟨h1, List.Pairwise.imp_of_mem ?_ h3⟩
  intro a b ha hb hab
  obtain ⟨e, he, ea⟩ := h1 a ha
  obtain ⟨e', he', eb⟩ := h1 b hb
  rcases hok e he e' he' with h | h | ⟨hlike, hu, hu'⟩
  · exact .inl (ea.1 h)
  · exact .inr (eb.1 h)
  · exfalso
    have s1 := ea.2 hu
    have s2 := eb.2 hu'
    have : nodeEq E.S b a = true := by
      rw [nodeEq_iff]
      constructor
      · rw [s1.tag, s2.tag]
        cases hlike <;> first | rfl | skip
        rename_i k _ _ _ _ _ _
        cases k <;> rfl
      · exact eqv_trans _ _ _ s2.hash (eqv_trans _ _ _ (eqv_symm _ _ (like_vh hlike)) (eqv_symm _ _ s1.hash))
    rw [this] at hab
    cases hab

theorem typed_short {l : List Node} (h : l.Pairwise (QuietPair E.S)) : (l.filter (isTypedDict E.S)).length ≤ 1 := by
  have hp := h.filter (isTypedDict E.S)
  have ht : ∀ d ∈ l.filter (isTypedDict E.S), isTypedDict E.S d = true := fun d hd => (List.mem_filter.mp hd).2
  generalize l.filter (isTypedDict E.S) = m at hp ht
  match m with
  | [] => simp
  | [_] => simp
  | a :: b :: r =>
    rw [List.pairwise_cons] at hp
    rcases hp.1 b (by simp) with h | h
    · exact absurd h (typed_not_silent (ht a (by simp)))
    · exact absurd h (typed_not_silent (ht b (by simp)))

theorem quiet_symm {S : Strategies} : ∀ a b, QuietPair S a b → QuietPair S b a := fun _ _ h => h.symm

theorem setStep_env {E' : Env} (hU : E'.U = E.U) (hS : E'.S = E.S) {rec : Str → Val → Except Err Node} {parent : Str} :
    setStep E' rec parent = setStep E rec parent := by
  funext acc v
  simp only [setStep, hU, hS]

theorem tupleStep_env {E' : Env} (hU : E'.U = E.U) (hS : E'.S = E.S) {rec : Str → Val → Except Err Node} {parent : Str} :
    tupleStep E' rec parent = tupleStep E rec parent := by
  funext acc v
  simp only [tupleStep, hU, hS]

theorem record_dict_steady {S : Strategies} {e : Val} (hr : isRec S e = true) (hs : Steady S e) :
    Steady S (.dict (itemsOf e)) ∧ (Val.dict (itemsOf e)).depth = e.depth := by
  obtain ⟨t, ks, vs, rfl, _⟩ := isRec_dict hr
  have := hs.1
  have e : Val.dict (itemsOf (.map .dict t ks vs)) = .map .dict .dict ks vs := by
    simp only [Val.dict, itemsOf]
    rw [(zip_parts this.2).1, (zip_parts this.2).2]
  rw [e]
  exact ⟨hs, rfl⟩

theorem setChildren_sim {E' : Env} (hE : E.Fair) (hE' : E'.Fair) (hU : E'.U = E.U) (hS : E'.S = E.S) {parent : Str}
    (hok : ElemsOk E.S es) (hst : ∀ e ∈ es, Steady E.S e ∧ e.depth < f)
    (ih : ∀ nm v n, Steady E.S v → v.depth < f → build E f false nm v = .ok n → ∃ n', build E' f false nm v = .ok n' ∧ Sim True E.S n n')
    {k : SeqKind} (hk : ¬ (k = .tuple ∧ E.S.tuple = .fixed)) {name : Str} {root : Bool} {t : Ty}
    {slots : List Slot} {kids : List Node} (h : setChildren E (build E f false) parent es = .ok (slots, kids)) :
    ∃ slots' kids', setChildren E' (build E' f false) parent es = .ok (slots', kids') ∧
      Sim True E.S (.mk ⟨.seq k, name, root, t, slots⟩ kids) (.mk ⟨.seq k, name, root, t, slots'⟩ kids') := by
  unfold setChildren at h ⊢
  simp only [bind, Except.bind, setStep_env hU hS, hS] at h ⊢
  cases hf : foldE (setStep E (build E f false) parent) ([], []) (limit E.S.checkMax es) with
  | error e => rw [hf] at h; cases h
  | ok r =>
    have hr' : ∀ e ∈ limit E.S.checkMax es, ∀ nm n, build E f false nm e = .ok n → ∃ n', build E' f false nm e = .ok n' ∧ Sim True E.S n n' := by
      intro e he nm n hb
      obtain ⟨a, b⟩ := hst e (limit_subset he)
      exact ih nm e n a b hb
    obtain ⟨r', hf', hsim⟩ := setFold_sim (acc := ([], [])) (acc' := ([], [])) hr' .nil rfl hf
    · rw [hf] at h
      rw [hf']
      have hq := setFold_quiet hE hok hst hf
      have hq' := setFold_quiet (E := E') (f := f) (es := es) (parent := parent) hE' (by rw [hS]; exact hok) (by rw [hS]; exact hst)
        (by rw [setStep_env hU hS, hS]; exact hf')
      rw [hS] at hq'
      obtain ⟨kids0, names⟩ := r
      obtain ⟨kids0', names'⟩ := r'
      dsimp only at h hsim hq hq' ⊢
      have fin : ∀ {l l' out out' : List Node}, All₂ (Sim True E.S) l l' → l'.Pairwise (QuietPair E.S) → out.Perm l → out'.Perm l' →
          Sim True E.S (.mk ⟨.seq k, name, root, t, out.map (fun _ => Slot.seq 1)⟩ out) (.mk ⟨.seq k, name, root, t, out'.map (fun _ => Slot.seq 1)⟩ out') := by
        intro l l' out out' a b c d
        obtain ⟨mid, m1, m2⟩ := All₂.perm_left c a
        have hlen : out.map (fun _ => Slot.seq 1) = out'.map (fun _ => Slot.seq 1) := by
          have : out.length = out'.length := by rw [m1.length_eq, (m2.trans d.symm).length_eq]
          simp [List.map_const', this]
        rw [← hlen]
        refine Sim.of m1 (.inr ⟨⟨?_, k, rfl, hk⟩, m2.trans d.symm, fun _ => ?_⟩)
        · simp [List.map_const', m1.length_eq]
        · exact (d.pairwise_iff (fun {a b} h => quiet_symm a b h)).mpr b
      have ht : ∀ i, (E.order i kids0).filter (isTypedDict E.S) = kids0.filter (isTypedDict E.S) :=
        fun i => perm_short ((hE i kids0).filter _) (typed_short hq.2)
      have ht' : ∀ i, (E'.order i kids0').filter (isTypedDict E.S) = kids0'.filter (isTypedDict E.S) :=
        fun i => perm_short ((hE' i kids0').filter _) (typed_short hq'.2)
      have hft : All₂ (Sim True E.S) (kids0.filter (isTypedDict E.S)) (kids0'.filter (isTypedDict E.S)) := hsim.filter (fun _ _ h => h.typed)
      have hfu : All₂ (Sim True E.S) (kids0.filter (fun k => !isTypedDict E.S k)) (kids0'.filter (fun k => !isTypedDict E.S k)) :=
        hsim.filter (fun _ _ h => by rw [h.typed])
      have hsm : shouldMerge E.S (kids0.filter (isTypedDict E.S)) = shouldMerge E.S (kids0'.filter (isTypedDict E.S)) := by
        simp only [shouldMerge, sims_metas hft]
      rw [ht, ht] at h
      rw [ht', ht', ← hsm]
      by_cases hm : shouldMerge E.S (kids0.filter (isTypedDict E.S)) = true
      · rw [if_pos hm] at h ⊢
        cases hmd : mergeDicts (build E f false) (kids0.filter (isTypedDict E.S)) with
        | error e => rw [hmd] at h; cases h
        | ok m =>
          rw [hmd] at h
          simp only [pure, Except.pure, Except.ok.injEq, Prod.mk.injEq] at h
          obtain ⟨rfl, rfl⟩ := h
          · -- the only dictionary among the children
            have hone : ∃ d, kids0.filter (isTypedDict E.S) = [d] := by
              have := typed_short hq.2
              match hx : kids0.filter (isTypedDict E.S), this with
              | [], _ => rw [hx] at hmd; cases hmd
              | [d], _ => exact ⟨d, rfl⟩
            obtain ⟨d, hd⟩ := hone
            have hdm : d ∈ kids0 ∧ isTypedDict E.S d = true := List.mem_filter.mp (by rw [hd]; simp)
            obtain ⟨e, he, hel⟩ := hq.1 d hdm.1
            have hu : Uniform E.S e := by
              rcases hok e he e he with h | h | h
              · exact absurd (hel.1 h) (typed_not_silent hdm.2)
              · exact absurd (hel.1 h) (typed_not_silent hdm.2)
              · exact h.2.1
            have hsrc := hel.2 hu
            have hrec : isRec E.S e = true := by rw [← hsrc.typed]; exact hdm.2
            obtain ⟨hse, hde⟩ := hst e (limit_subset he)
            obtain ⟨s1, s2⟩ := record_dict_steady hrec hse
            have hdata : (kids0.filter (isTypedDict E.S)).foldl (fun acc n => updateDict acc (nodeData n)) [] = itemsOf e := by
              have hn : ((itemsOf e).map (·.1)).Nodup := by
                obtain ⟨t, ks, vs, rfl, _⟩ := isRec_dict hrec
                simp only [itemsOf]
                rw [(zip_parts hse.1.2).1]
                exact hse.1.1
              rw [hd, List.foldl_cons, List.foldl_nil, src_data hsrc hdm.2, updateDict_nil (by simpa using hn)]
              simp
            obtain ⟨m', hmd', hmm⟩ : ∃ m', mergeDicts (build E' f false) (kids0'.filter (isTypedDict E.S)) = .ok m' ∧ Sim True E.S m m' := by
              refine mergeDicts_sim hft ?_ hmd
              rw [hdata]
              intro nm n hb
              obtain ⟨n', hb', hs'⟩ := ih nm _ n s1 (by omega) hb
              refine ⟨n', hb', hs', ?_⟩
              obtain ⟨_, _, hkk, _⟩ := build_facts hE hb (by omega)
              exact ⟨_, _, hkk⟩
            rw [hmd']
            simp only [pure, Except.pure]
            refine ⟨_, _, rfl, fin (hfu.append (.cons hmm .nil)) ?_ (hE _ _) (hE' _ _)⟩
            have hdm' : ∃ d', d' ∈ kids0' ∧ isTypedDict E.S d' = true := by
              obtain ⟨d', hd', _⟩ := hft.mem_left d (by rw [hd]; simp)
              exact ⟨d', List.mem_filter.mp hd'⟩
            obtain ⟨d', hd1, hd2⟩ := hdm'
            rw [List.pairwise_append]
            refine ⟨hq'.2.filter _, by simp, ?_⟩
            intro a ha b _
            obtain ⟨ha1, ha2⟩ := List.mem_filter.mp ha
            have hne : a ≠ d' := by
              intro e
              rw [e, hd2] at ha2
              cases ha2
            rcases pairwise_mem quiet_symm hq'.2 ha1 hd1 hne with hh | hh
            · exact .inl hh
            · exact absurd hh (typed_not_silent hd2)
      · rw [if_neg hm] at h ⊢
        simp only [pure, Except.pure, Except.ok.injEq, Prod.mk.injEq] at h
        obtain ⟨rfl, rfl⟩ := h
        exact ⟨_, _, rfl, fin hsim hq'.2 (hE _ _) (hE' _ _)⟩

/-- The data of a node comes from the element. -/
def DataOf (S : Strategies) (e : Val) (k : Node) : Prop := (∀ kv ∈ nodeData k, kv ∈ itemsOf e) ∧ (isTypedDict S k = true → 0 < e.depth)

theorem dataOf_build (hE : E.Fair) {e : Val} {nm : Str} {n : Node} (h : build E f false nm e = .ok n) (hf : e.depth < f) : DataOf E.S e n := by
  obtain ⟨_, _, hk, _⟩ := build_facts hE h hf
  constructor
  · intro kv hkv
    cases n with
    | mk hd kids =>
      have hk : hd.kind = kindOf E.S e := hk
      simp only [nodeData, hk] at hkv
      cases e with
      | map k t ks vs =>
        cases k with
        | dict => simp only [kindOf] at hkv; exact dictData_subset hkv
        | _ => simp [kindOf] at hkv
      | _ => simp [kindOf] at hkv
  · intro ht
    cases n with
    | mk hd kids =>
      have hk : hd.kind = kindOf E.S e := hk
      simp only [isTypedDict, hk] at ht
      cases e with
      | map k t ks vs => simp only [Val.depth]; omega
      | _ => simp [kindOf] at ht

/-- Merged dictionaries, if their data come from the elements of a sequence. -/
theorem merged_sim {q : Prop} {E' : Env} (hE : E.Fair) {P : Val → Prop} (hP1 : ∀ k t ks vs, P (.map k t ks vs) → ∀ w ∈ vs, P w)
    (hP2 : ∀ data : List (Key × Val), (data.map (·.1)).Nodup → (∀ w ∈ data.map (·.2), P w) → P (.dict data))
    (hst : ∀ e ∈ es, P e ∧ e.depth < f)
    (ih : ∀ nm v n, P v → v.depth < f → build E f false nm v = .ok n → ∃ n', build E' f false nm v = .ok n' ∧ Sim q E.S n n')
    {ds ds' : List Node} (hds : All₂ (Sim q E.S) ds ds') (hdat : ∀ n ∈ ds, ∀ kv ∈ nodeData n, ∃ e ∈ es, kv ∈ itemsOf e)
    (hdeep : ∃ e ∈ es, 0 < e.depth) {m : Node} (hmd : mergeDicts (build E f false) ds = .ok m) :
    ∃ m', mergeDicts (build E' f false) ds' = .ok m' ∧ Sim q E.S m m' := by
  refine mergeDicts_sim hds ?_ hmd
  have hsrc : ∀ kv ∈ ds.foldl (fun acc n => updateDict acc (nodeData n)) [], ∃ e ∈ es, kv ∈ itemsOf e := by
    intro kv hkv
    rcases mem_foldl_updateDict hkv with h | ⟨n, hn, h⟩
    · simp at h
    · exact hdat n hn kv h
  have hnd := foldl_updateDict_nodup (ns := ds) (d := []) (by simp)
  generalize ds.foldl (fun acc n => updateDict acc (nodeData n)) [] = data at hsrc hnd ⊢
  have hval : ∀ w ∈ data.map (·.2), P w ∧ w.depth + 1 < f := by
    intro w hw
    obtain ⟨kv, hkv, rfl⟩ := List.mem_map.mp hw
    obtain ⟨e, he, hi⟩ := hsrc kv hkv
    obtain ⟨hse, hde⟩ := hst e he
    cases e with
    | map k t ks vs =>
      have hi : kv ∈ ks.zip vs := hi
      refine ⟨hP1 _ _ _ _ hse _ (List.of_mem_zip hi).2, ?_⟩
      have := zip_depth hi
      simp only [Val.depth] at hde
      omega
    | _ => simp [itemsOf] at hi
  have hs : P (.dict data) := hP2 data hnd (fun w hw => (hval w hw).1)
  have hdep : (Val.dict data).depth < f := by
    have h0 : 1 < f := by
      obtain ⟨e, he, h0⟩ := hdeep
      have := (hst e he).2
      omega
    have : depthList (data.map (·.2)) ≤ f - 2 := depthList_le (fun w hw => by have := (hval w hw).2; omega)
    simp only [Val.dict, Val.depth]
    omega
  intro nm n hb
  obtain ⟨n', hb', hs'⟩ := ih nm _ n hs hdep hb
  refine ⟨n', hb', hs', ?_⟩
  obtain ⟨_, _, hkk, _⟩ := build_facts hE hb hdep
  exact ⟨_, _, hkk⟩

theorem tupleChildren_sim {q : Prop} {E' : Env} (hE : E.Fair) (hU : E'.U = E.U) (hS : E'.S = E.S) {parent : Str}
    {P : Val → Prop} (hP1 : ∀ k t ks vs, P (.map k t ks vs) → ∀ w ∈ vs, P w)
    (hP2 : ∀ data : List (Key × Val), (data.map (·.1)).Nodup → (∀ w ∈ data.map (·.2), P w) → P (.dict data))
    (hst : ∀ e ∈ es, P e ∧ e.depth < f)
    (ih : ∀ nm v n, P v → v.depth < f → build E f false nm v = .ok n → ∃ n', build E' f false nm v = .ok n' ∧ Sim q E.S n n')
    {hd : List Slot → Hdr}
    {slots : List Slot} {kids : List Node} (h : tupleChildren E (build E f false) parent es = .ok (slots, kids)) :
    ∃ slots' kids', tupleChildren E' (build E' f false) parent es = .ok (slots', kids') ∧ Sim q E.S (.mk (hd slots) kids) (.mk (hd slots') kids') := by
  unfold tupleChildren at h ⊢
  simp only [bind, Except.bind, tupleStep_env hU hS, hS] at h ⊢
  cases hf : foldE (tupleStep E (build E f false) parent) ([], []) (limit E.S.checkMax es) with
  | error e => rw [hf] at h; cases h
  | ok r =>
    have hr' : ∀ e ∈ limit E.S.checkMax es, ∀ nm n, build E f false nm e = .ok n → ∃ n', build E' f false nm e = .ok n' ∧ Sim q E.S n n' := by
      intro e he nm n hb
      obtain ⟨a, b⟩ := hst e (limit_subset he)
      exact ih nm e n a b hb
    obtain ⟨r', hf', hsim⟩ := tupleFold_sim (acc := ([], [])) (acc' := ([], [])) hr' .nil .nil hf
    · rw [hf] at h
      rw [hf']
      have hdat := tupleFold_src (P := DataOf E.S) (fun e he nm n hb => dataOf_build hE hb (hst e (limit_subset he)).2)
        (fun e k nm hk => by unfold DataOf; rw [nodeData_rename, typed_rename]; exact hk) hf
      obtain ⟨kids0, names⟩ := r
      obtain ⟨kids0', names'⟩ := r'
      dsimp only at h hsim hdat ⊢
      have hft : All₂ (Sim q E.S) (kids0.filter (isTypedDict E.S)) (kids0'.filter (isTypedDict E.S)) := hsim.filter (fun _ _ h => h.typed)
      have hsm : shouldMerge E.S (kids0.filter (isTypedDict E.S)) = shouldMerge E.S (kids0'.filter (isTypedDict E.S)) := by
        simp only [shouldMerge, sims_metas hft]
      rw [← hsm]
      by_cases hm : shouldMerge E.S (kids0.filter (isTypedDict E.S)) = true
      · rw [if_pos hm] at h ⊢
        cases hmd : mergeDicts (build E f false) (kids0.filter (isTypedDict E.S)) with
        | error e => rw [hmd] at h; cases h
        | ok m =>
          · rw [hmd] at h
            simp only [pure, Except.pure, Except.ok.injEq, Prod.mk.injEq] at h
            obtain ⟨rfl, rfl⟩ := h
            obtain ⟨m', hmd', hmm⟩ : ∃ m', mergeDicts (build E' f false) (kids0'.filter (isTypedDict E.S)) = .ok m' ∧ Sim q E.S m m' := by
              obtain ⟨n0, hn0, _⟩ := mergeDicts_info hmd
              refine merged_sim hE hP1 hP2 hst ih hft ?_ ?_ hmd
              · intro n hn kv hkv
                obtain ⟨e, he, hd⟩ := hdat.mem_right n (List.mem_filter.mp hn).1
                exact ⟨e, limit_subset he, hd.1 kv hkv⟩
              · have hn0' := (List.mem_filter.mp hn0)
                obtain ⟨e, he, h0⟩ := hdat.mem_right n0 hn0'.1
                exact ⟨e, limit_subset he, h0.2 hn0'.2⟩
            have hs : kids0.map (fun k => Slot.seq (if isTypedDict E.S k then (kids0.filter (isTypedDict E.S)).length else 1)) =
                kids0'.map (fun k => Slot.seq (if isTypedDict E.S k then (kids0'.filter (isTypedDict E.S)).length else 1)) := by
              refine hsim.map_eq ?_
              intro a b hab
              rw [hab.typed, hft.length_eq]
            rw [hmd', hs]
            refine ⟨_, _, rfl, Sim.of (hsim.map ?_) (.inl rfl)⟩
            intro a b hab
            rw [hab.typed]
            split
            · exact hmm
            · exact hab
      · rw [if_neg hm] at h ⊢
        simp only [pure, Except.pure, Except.ok.injEq, Prod.mk.injEq] at h
        obtain ⟨rfl, rfl⟩ := h
        have hs : kids0.map (fun _ => Slot.seq 1) = kids0'.map (fun _ => Slot.seq 1) := hsim.map_eq (fun _ _ _ => rfl)
        rw [hs]
        exact ⟨_, _, rfl, Sim.of hsim (.inl rfl)⟩

end

/-- Trees of the same data under different iteration orders, given the same for sequences. -/
theorem build_order {q : Prop} {E E' : Env} (hU : E'.U = E.U) (hS : E'.S = E.S) {P : Val → Prop} (hP0 : ∀ k t es, P (.seq k t es) → ∀ e ∈ es, P e)
    (hP1 : ∀ k t ks vs, P (.map k t ks vs) → ∀ w ∈ vs, P w)
    (hseq : ∀ (f : Nat) {es : List Val}, (∀ e ∈ es, P e ∧ e.depth < f) →
      (∀ nm v n, P v → v.depth < f → build E f false nm v = .ok n → ∃ n', build E' f false nm v = .ok n' ∧ Sim q E.S n n') →
      ∀ (name : Str) (root : Bool) (t : Ty) (k : SeqKind), P (.seq k t es) → ∀ {slots : List Slot} {kids : List Node},
      (if k = .tuple ∧ E.S.tuple = .fixed then tupleChildren E (build E f false) name es else setChildren E (build E f false) name es) = .ok (slots, kids) →
      ∃ slots' kids',
        (if k = .tuple ∧ E.S.tuple = .fixed then tupleChildren E' (build E' f false) name es else setChildren E' (build E' f false) name es) =
          .ok (slots', kids') ∧ Sim q E.S (.mk ⟨.seq k, name, root, t, slots⟩ kids) (.mk ⟨.seq k, name, root, t, slots'⟩ kids')) :
    ∀ (f : Nat) (root : Bool) (name : Str) (v : Val) (n : Node), P v → v.depth < f → build E f root name v = .ok n →
      ∃ n', build E' f root name v = .ok n' ∧ Sim q E.S n n'
  | 0, _, _, _, _, _, hf, _ => by omega
  | f + 1, root, name, v, n, hv, hf, h => by
    have ih := fun (nm : Str) (v : Val) (n : Node) => build_order hU hS hP0 hP1 hseq f false nm v n
    have leaf : build E' (f + 1) root name v = build E (f + 1) root name v → ∃ n', build E' (f + 1) root name v = .ok n' ∧ Sim q E.S n n' :=
      fun e => ⟨n, by rw [e, h], sim_refl _⟩
    cases v with
    | inst t x => exact leaf (by simp only [build, hU])
    | cls m n => exact leaf (by simp only [build, hU])
    | module t => exact leaf (by simp only [build, hU])
    | io t => exact leaf (by simp only [build, hU])
    | ndarray t d => exact leaf (by simp only [build, hU])
    | func fi => exact leaf (by simp only [build, hU])
    | seq k t es =>
      have hes : ∀ e ∈ es, P e ∧ e.depth < f := by
        intro e he
        refine ⟨hP0 _ _ _ hv e he, ?_⟩
        have := depth_le_depthList he
        simp only [Val.depth] at hf
        omega
      rw [build_seq] at h ⊢
      rw [hU, hS]
      split at h
      · rename_i hn
        rw [if_pos hn]
        split at h
        · rename_i slots kids hr
          injection h with h
          subst h
          obtain ⟨slots', kids', hr', hs⟩ := hseq f hes ih name root t k hv hr
          rw [hr']
          exact ⟨_, rfl, hs⟩
        · cases h
      · cases h
    | map k t ks vs =>
      have hvs : ∀ {items : List (Key × Val)}, (∀ kv ∈ items, kv ∈ ks.zip vs) → ∀ kv ∈ items, ∀ nm n, build E f false nm kv.2 = .ok n →
          ∃ n', build E' f false nm kv.2 = .ok n' ∧ Sim q E.S n n' := by
        intro items hs kv hkv nm n hb
        have hz := hs kv hkv
        refine ih nm _ n (hP1 _ _ _ _ hv _ (List.of_mem_zip hz).2) ?_ hb
        have := zip_depth hz
        simp only [Val.depth] at hf
        omega
      cases k with
      | dict =>
        obtain ⟨kids, hkk, rfl⟩ := build_dict h
        obtain ⟨kids', hkk', hk⟩ := mapKids_sim (hvs (fun kv hkv => dictData_subset (List.mem_filter.mp hkv).1)) hkk
        have hsh := shareEqual_sim hU hS (parent := name) hk
        simp only [build, mapChildren, hU, hS, hkk', bind, Except.bind, pure, Except.pure]
        refine ⟨_, rfl, ?_⟩
        rw [hsh.1]
        exact Sim.of hsh.2 (.inl rfl)
      | proxy =>
        have hn : nameOk E.U name = true := by
          simp only [build] at h
          split at h
          · assumption
          · cases h
        obtain ⟨kids, hkk, rfl⟩ := build_proxy h
        obtain ⟨kids', hkk', hk⟩ := mapKids_sim (hvs (fun kv hkv => limit_subset (List.mem_filter.mp hkv).1)) hkk
        have hsh := shareEqual_sim hU hS (parent := name) hk
        simp only [build, mapChildren, hU, hS, hkk', hn, if_true, bind, Except.bind, pure, Except.pure]
        refine ⟨_, rfl, ?_⟩
        rw [hsh.1]
        exact Sim.of hsh.2 (.inl rfl)
      | frame i =>
        have hn : nameOk E.U name = true := by
          simp only [build] at h
          split at h
          · assumption
          · cases h
        obtain ⟨kids, hkk, rfl⟩ := build_frame h
        obtain ⟨kids', hkk', hk⟩ := mapKids_sim (hvs (fun kv hkv => hkv)) hkk
        have : kids.map (fun kn => (⟨kn.1, 1⟩ : Slot)) = kids'.map (fun kn => (⟨kn.1, 1⟩ : Slot)) := hk.map_eq (fun _ _ h => by rw [h.1])
        simp only [build, frameChildren, hU, hkk', hn, if_true, bind, Except.bind, pure, Except.pure]
        refine ⟨_, rfl, ?_⟩
        rw [this]
        exact Sim.of (hk.map (fun _ _ h => h.2)) (.inl rfl)

/-- Trees of steady data under different iteration orders differ only in the order of children described in place. -/
theorem build_sim {E E' : Env} (hE : E.Fair) (hE' : E'.Fair) (hU : E'.U = E.U) (hS : E'.S = E.S) : ∀ (f : Nat) (root : Bool) (name : Str) (v : Val)
    (n : Node), Steady E.S v → v.depth < f → build E f root name v = .ok n → ∃ n', build E' f root name v = .ok n' ∧ Sim True E.S n n' :=
  build_order hU hS (fun _ _ _ h => everyList_iff.mp h.2) (fun _ _ _ _ h => everyList_iff.mp h.2) (fun f es hes ih name root t k hv slots kids h => by
    by_cases hc : k = .tuple ∧ E.S.tuple = .fixed
    · simp only [if_pos hc] at h ⊢
      exact tupleChildren_sim hE hU hS (P := Steady E.S) (fun _ _ _ _ h => everyList_iff.mp h.2)
        (fun _ h1 h2 => ⟨⟨h1, by simp⟩, everyList_iff.mpr h2⟩) hes ih (hd := fun s => ⟨.seq k, name, root, t, s⟩) h
    · simp only [if_neg hc] at h ⊢
      exact setChildren_sim hE hE' hU hS (hv.1 hc) hes ih hc h)

end Verif
