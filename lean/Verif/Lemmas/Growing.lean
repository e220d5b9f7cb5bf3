import Verif.Spec.Growing
import Verif.Lemmas.Distinct
import Verif.Lemmas.HoldsBuild
import Verif.Lemmas.Unique
/-
C98: the tree of a sequence has every child that the tree of a beginning of the sequence has.
-/
namespace Verif
open Verif.Spec

/-- Only dictionaries with string keys get TypedDicts. -/
theorem record_of_typed {S : Strategies} {v : Val} {n : Node} (hk : n.hdr.kind = kindOf S v) (ht : isTypedDict S n = true)
    (hc : CoherentAt S v) : IsRecord S v := by
  cases n with
  | mk hd kids =>
    have hk : hd.kind = kindOf S v := hk
    simp only [isTypedDict, hk] at ht
    cases v with
    | map k t ks vs =>
      cases k with
      | dict =>
        simp only [kindOf, DMeta.isTyped, Bool.and_eq_true, decide_eq_true_eq] at ht
        obtain ⟨h1, h2⟩ := ht
        refine ⟨h2, fun k hk => ?_⟩
        have hlen : ks.length = vs.length := hc.2.2.2.1
        obtain ⟨i, hi, e⟩ := List.mem_iff_getElem.mp hk
        have hm : (k, vs[i]'(by omega)) ∈ ks.zip vs := by
          rw [List.mem_iff_getElem]
          exact ⟨i, by simp only [List.length_zip]; omega, by simp [e]⟩
        have h1 : allStr (dictData S (ks.zip vs)) = true := h1
        unfold dictData at h1
        rw [if_pos h2] at h1
        exact List.all_eq_true.mp h1 _ hm
      | _ => simp [kindOf] at ht
    | _ => simp [kindOf] at ht

theorem setFold_keeps {E : Env} {r : Str → Val → Except Err Node} {parent : Str} : ∀ (l : List Val) (acc acc' : List Node × List Str),
    (∀ v ∈ l, ∀ name child, r name v = .ok child → isTypedDict E.S child = false) → foldE (setStep E r parent) acc l = .ok acc' →
    (∀ k ∈ acc.1, isTypedDict E.S k = false) → (∀ k ∈ acc.1, k ∈ acc'.1) ∧ ∀ k ∈ acc'.1, isTypedDict E.S k = false
  | [], acc, acc', _, h, ha => by
    cases h
    exact ⟨fun _ h => h, ha⟩
  | v :: l, acc, acc', hv, h, ha => by
    simp only [foldE] at h
    cases hs : setStep E r parent acc v with
    | error e => rw [hs] at h; cases h
    | ok b =>
      rw [hs] at h
      have hb : (∀ k ∈ acc.1, k ∈ b.1) ∧ ∀ k ∈ b.1, isTypedDict E.S k = false := by
        unfold setStep at hs
        simp only [bind, Except.bind] at hs
        cases hr : r (freshName (parent ++ E.U.capitalize v.ty.name) acc.2) v with
        | error e => rw [hr] at hs; cases hs
        | ok child =>
          have hc := hv v (by simp) _ _ hr
          rw [hr] at hs
          simp only [hc, Bool.false_eq_true, if_false, pure, Except.pure] at hs
          split at hs
          · cases hs
            exact ⟨fun _ h => h, ha⟩
          · cases hs
            refine ⟨fun k hk => by simp [hk], fun k hk => ?_⟩
            rcases List.mem_append.mp hk with hk | hk
            · exact ha k hk
            · simp only [List.mem_singleton] at hk
              subst hk
              exact hc
      obtain ⟨h1, h2⟩ := setFold_keeps l b acc' (fun v hv' => hv v (by simp [hv'])) h hb.2
      exact ⟨fun k hk => h1 k (hb.1 k hk), h2⟩

/-- The children of a sequence without TypedDicts. -/
theorem setChildren_plain {E : Env} (hE : E.Fair) (hm : 0 < E.S.merge) {r : Str → Val → Except Err Node} {parent : Str} {es : List Val}
    {c : List Slot × List Node} (hv : ∀ v ∈ es, ∀ name child, r name v = .ok child → isTypedDict E.S child = false)
    (h : setChildren E r parent es = .ok c) :
    ∃ acc, foldE (setStep E r parent) ([], []) (limit E.S.checkMax es) = .ok acc ∧ ∀ k, k ∈ c.2 ↔ k ∈ acc.1 := by
  unfold setChildren at h
  simp only [bind, Except.bind] at h
  cases hf : foldE (setStep E r parent) ([], []) (limit E.S.checkMax es) with
  | error e => rw [hf] at h; cases h
  | ok acc =>
    rw [hf] at h
    have hl : ∀ v ∈ limit E.S.checkMax es, v ∈ es := fun v hv' => limit_subset hv'
    have hn := (setFold_keeps _ _ _ (fun v hv' => hv v (hl v hv')) hf (by simp)).2
    have hno : (E.order 0 acc.1).filter (isTypedDict E.S) = [] := by
      rw [List.filter_eq_nil_iff]
      intro k hk
      rw [hn k ((hE 0 acc.1).mem_iff.mp hk)]
      simp
    simp only [hno, shouldMerge_nil hm, Bool.false_eq_true, if_false, pure, Except.pure] at h
    cases h
    exact ⟨acc, rfl, fun k => (hE 0 acc.1).mem_iff⟩

/-- Children without TypedDicts stay as they are. -/
theorem setFold_keeps_plain {E : Env} {r : Str → Val → Except Err Node} (hrec : RecFor E.S r) {parent : Str} {L : List Val}
    (hd : ∀ e ∈ L, Coherent E.S e) (ht : ToldApart E.S L) : ∀ (l done : List Val) (acc acc' : List Node × List Str), (∀ v ∈ l, v ∈ L) →
    LoopInv E.S L done acc.1 → foldE (setStep E r parent) acc l = .ok acc' → ∀ k ∈ acc.1, isTypedDict E.S k = false → k ∈ acc'.1
  | [], _, acc, acc', _, _, h, k, hk, _ => by
    cases h
    exact hk
  | v :: l, done, acc, acc', hl, hi, h, k, hk, hkt => by
    simp only [foldE] at h
    cases hs : setStep E r parent acc v with
    | error e => rw [hs] at h; cases h
    | ok b =>
      rw [hs] at h
      refine setFold_keeps_plain hrec hd ht l _ b acc' (fun x hx => hl x (by simp [hx])) (setStep_loop hrec hd ht (hl v (by simp)) hi hs) h k ?_ hkt
      unfold setStep at hs
      simp only [bind, Except.bind] at hs
      cases hr : r (freshName (parent ++ E.U.capitalize v.ty.name) acc.2) v with
      | error e => rw [hr] at hs; cases hs
      | ok child =>
        rw [hr] at hs
        simp only [pure, Except.pure] at hs
        have hv := hl v (by simp)
        split at hs
        · split at hs
          · rename_i hty
            cases hs
            refine List.mem_map.mpr ⟨k, hk, ?_⟩
            rw [if_neg]
            intro he
            obtain ⟨e, hem, hn⟩ := hi.src k hk
            have hc := (hrec _ _ _ (hd v hv) hr).mono (pool' := L) (by simpa using hv)
            obtain ⟨⟨s1, a1⟩, _⟩ := hc.equal hn (coherent_at (hd v hv)) (coherent_at (hd e hem)) he
            have := covers_record (coherent_at (hd v hv)) (hc.typed.mp hty) (ht v hv e hem s1 a1)
            rw [hn.typed.mpr this.1] at hkt
            cases hkt
          · cases hs
            exact hk
        · cases hs
          simp [hk]

theorem setChildren_grows {E : Env} (hE : E.Fair) (hm : 0 < E.S.merge) {r : Str → Val → Except Err Node} (hrec : RecFor E.S r) {parent : Str}
    {es more : List Val} {k : SeqKind} {t : Ty} (hco : Coherent E.S (.seq k t (es ++ more))) {c c' : List Slot × List Node}
    (hi : Inspected E.S es.length) (hv : ∀ v ∈ es, ∀ name child, r name v = .ok child → isTypedDict E.S child = false)
    (h : setChildren E r parent es = .ok c) (h' : setChildren E r parent (es ++ more) = .ok c') : ∀ k ∈ c.2, k ∈ c'.2 := by
  obtain ⟨acc, ha, hk⟩ := setChildren_plain hE hm hv h
  obtain ⟨⟨hi', hta, _⟩, hd⟩ := hco
  have hd := everyList_iff.mp hd
  intro x hx
  have hxa := (hk x).mp hx
  rw [inspected_limit hi] at ha
  have hxt := (setFold_keeps _ _ _ hv ha (by simp)).2 x hxa
  have inv : LoopInv E.S (es ++ more) es acc.1 := foldE_inv_mem (I := fun done b => LoopInv E.S (es ++ more) done b.1) ⟨by simp, by simp⟩
    (fun done a b b' ha hb hst => setStep_loop hrec hd hta (by simp [ha]) hb hst) ha
  unfold setChildren at h'
  rw [inspected_limit hi'] at h'
  simp only [bind, Except.bind, foldE_append_ok, ha] at h'
  cases hf : foldE (setStep E r parent) acc more with
  | error e => rw [hf] at h'; cases h'
  | ok acc' =>
    rw [hf] at h'
    have hx' := setFold_keeps_plain hrec hd hta more es acc acc' (fun v hv => by simp [hv]) inv hf x hxa hxt
    simp only at h'
    split at h'
    · cases hg : mergeDicts r ((E.order 1 acc'.1).filter (isTypedDict E.S)) with
      | error e => rw [hg] at h'; cases h'
      | ok n =>
        rw [hg] at h'
        cases h'
        refine (hE 2 _).mem_iff.mpr ?_
        simp [hx', hxt]
    · cases h'
      exact (hE 0 _).mem_iff.mpr hx'

theorem setFold_nonempty {E : Env} {r : Str → Val → Except Err Node} {parent : Str} : ∀ (l : List Val) (acc acc' : List Node × List Str),
    foldE (setStep E r parent) acc l = .ok acc' → (l ≠ [] ∨ acc.1 ≠ []) → acc'.1 ≠ []
  | [], acc, acc', h, hne => by
    cases h
    rcases hne with h | h
    · exact absurd rfl h
    · exact h
  | v :: l, acc, acc', h, _ => by
    simp only [foldE] at h
    cases hs : setStep E r parent acc v with
    | error e => rw [hs] at h; cases h
    | ok b =>
      rw [hs] at h
      refine setFold_nonempty l b acc' h (.inr ?_)
      unfold setStep at hs
      simp only [bind, Except.bind] at hs
      cases hr : r (freshName (parent ++ E.U.capitalize v.ty.name) acc.2) v with
      | error e => rw [hr] at hs; cases hs
      | ok child =>
        rw [hr] at hs
        simp only [pure, Except.pure] at hs
        split at hs
        · rename_i hany
          have : acc.1 ≠ [] := by rintro e; rw [e] at hany; cases hany
          split at hs <;> cases hs
          · simpa using this
          · exact this
        · cases hs
          simp

theorem limit_ne_nil {α} {n : Nat} {es : List α} (h : es ≠ []) : limit n es ≠ [] := by
  cases es with
  | nil => exact absurd rfl h
  | cons a r =>
    unfold limit
    split
    · simp
    · cases n with
      | zero => rename_i h0; exact absurd rfl h0
      | succ n => simp

theorem depth_mem_seq {k : SeqKind} {t : Ty} {es : List Val} {e : Val} (h : e ∈ es) : e.depth < (Val.seq k t es).depth := by
  have := depth_le_depthList h
  simp only [Val.depth]
  omega

/-- Every child of the tree of a sequence is a child of the tree of a longer one. -/
theorem tree_grows {E : Env} (hE : E.Fair) (hm : 0 < E.S.merge) {name : Str} {k : SeqKind} {t t' : Ty} {es more : List Val} {n n' : Node}
    (hp : ¬ Placed E.S k) (hco : Coherent E.S (.seq k t es)) (hco' : Coherent E.S (.seq k t' (es ++ more))) (hr : NoRecords E.S es more)
    (h : buildTree E name (.seq k t es) = .ok n) (h' : buildTree E name (.seq k t' (es ++ more)) = .ok n') :
    n.hdr.kind = .seq k ∧ n'.hdr.kind = .seq k ∧ n.kids ≠ [] ∧ ∀ x ∈ n.kids, x ∈ n'.kids := by
  have hd : (Val.seq k t es).depth ≤ (Val.seq k t' (es ++ more)).depth := by
    have := depthList_sub (l := es) (l' := es ++ more) (fun x hx => by simp [hx])
    simp only [Val.depth]
    omega
  generalize hD : (Val.seq k t' (es ++ more)).depth = D at *
  have h : build E (D + 1) true name (.seq k t es) = .ok n := by
    rw [build_fuel hE (f := (Val.seq k t es).depth + 1) (by omega) (by omega)]
    exact h
  have h' : build E (D + 1) true name (.seq k t' (es ++ more)) = .ok n' := by
    have := h'
    unfold buildTree at this
    rw [hD] at this
    exact this
  rw [build_seq, if_neg (c := k = .tuple ∧ E.S.tuple = .fixed) hp] at h h'
  split at h
  · rename_i hn
    rw [if_pos hn] at h'
    cases hs : setChildren E (build E D false) name es with
    | error e => rw [hs] at h; cases h
    | ok c =>
      cases hs' : setChildren E (build E D false) name (es ++ more) with
      | error e => rw [hs'] at h'; cases h'
      | ok c' =>
        rw [hs] at h; rw [hs'] at h'
        cases h; cases h'
        have hv : ∀ v ∈ es, ∀ name child, build E D false name v = .ok child → isTypedDict E.S child = false := by
          intro v hv nm child hb
          have hlt : v.depth < D := by rw [← hD]; exact depth_mem_seq (by simp [hv])
          cases ht : isTypedDict E.S child with
          | false => rfl
          | true => exact absurd (record_of_typed (build_is hE hb hlt).2 ht (every_self (everyList_iff.mp hco.2 v hv))) (hr.2 v hv)
        refine ⟨rfl, rfl, ?_, setChildren_grows hE hm (fun nm v n hc hb => build_for hE hm _ _ _ _ _ hc hb) hco' hco.1.1 hv hs hs'⟩
        obtain ⟨acc, ha, hk⟩ := setChildren_plain hE hm hv hs
        have hne := setFold_nonempty _ _ _ ha (.inl (limit_ne_nil hr.1))
        obtain ⟨x, hx⟩ := List.exists_mem_of_ne_nil _ hne
        exact List.ne_nil_of_mem ((hk x).mpr hx)
  · cases h

/-- With more children a sequence stands for more values. -/
theorem means_grows {S : Strategies} {k : SeqKind} {n n' : Node} {w : Val} (hp : ¬ Placed S k) (h : n.hdr.kind = .seq k)
    (h' : n'.hdr.kind = .seq k) (hne : n.kids ≠ []) (hk : ∀ x ∈ n.kids, x ∈ n'.kids) (hw : Means S n w) : Means S n' w := by
  obtain ⟨hd, kids⟩ := n
  obtain ⟨hd', kids'⟩ := n'
  have h : hd.kind = .seq k := h
  have h' : hd'.kind = .seq k := h'
  cases hw with
  | leaf a b => simp [nodeType, h] at a
  | noElements a b => exact absurd rfl hne
  | tuple a b c d =>
    rw [h] at a
    cases a
    exact absurd ⟨rfl, b⟩ hp
  | seq R a b c d e =>
    rw [h] at a
    cases a
    exact .seq R h' b c d (fun x hx => by
      obtain ⟨n, h1, h2⟩ := e x hx
      exact ⟨n, hk n h1, h2⟩)
  | record R a => rw [h] at a; cases a
  | mapping R a =>
    simp [MapNode, h] at a
  | frame R a => rw [h] at a; cases a

end Verif
