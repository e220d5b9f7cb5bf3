import Verif.Spec.Unmerged
import Verif.Lemmas.SimRender
import Verif.Lemmas.HoldsBuild
/-
Trees of data without merging under different iteration orders of sets.
-/
namespace Verif
open Verif.Spec

theorem All₂.flip {α β} {R : α → β → Prop} {l : List α} {l' : List β} (h : All₂ R l l') : All₂ (fun b a => R a b) l' l := by
  induction h with
  | nil => exact .nil
  | cons h _ ih => exact .cons h ih

/-- The keys of the children of a node with TypedDict, and of its data. -/
def TypedKeys (k : Node) (F : List Key) : Prop :=
  ∃ h kids d m, k = .mk h kids ∧ h.kind = .dict d m ∧ d = m.data ∧ h.slots.length = kids.length ∧ h.slots.map (·.key) = F ∧
    ∀ x, x ∈ m.keys ↔ x ∈ F

/-- The keys of nodes with the same hash. -/
theorem typedKeys_eq {S : Strategies} {k c : Node} {F G : List Key} (hk : TypedKeys k F) (hc : TypedKeys c G) (tk : isTypedDict S k = true)
    (tc : isTypedDict S c = true) (h : nodeEq S c k = true) : ∀ x, x ∈ G ↔ x ∈ F := by
  obtain ⟨h1, kids1, d1, m1, rfl, e1, _, l1, s1, _⟩ := hk
  obtain ⟨h2, kids2, d2, m2, rfl, e2, _, l2, s2, _⟩ := hc
  have t1 : m1.isTyped S = true := by simpa only [isTypedDict, e1] using tk
  have t2 : m2.isTyped S = true := by simpa only [isTypedDict, e2] using tc
  have hh := (nodeEq_iff.mp h).2
  simp only [Node.hash, hashOf, e1, e2, t1, t2, if_true, s1, s2, eqv_set, hashList_eq_map] at hh
  have len1 : F.length = (kids1.map fun n => n.hash S).length := by rw [← s1]; simpa using l1
  have len2 : G.length = (kids2.map fun n => n.hash S).length := by rw [← s2]; simpa using l2
  intro x
  constructor
  · intro hx
    obtain ⟨y, hy⟩ := mem_zip_left len2 hx
    obtain ⟨z, hz, he⟩ := hh.1 _ (List.mem_map_of_mem hy)
    obtain ⟨⟨x', y'⟩, hp, rfl⟩ := List.mem_map.mp hz
    simp only [H.eqv, Bool.and_eq_true, decide_eq_true_eq] at he
    rw [he.1]
    exact (List.of_mem_zip hp).1
  · intro hx
    obtain ⟨y, hy⟩ := mem_zip_left len1 hx
    obtain ⟨z, hz, he⟩ := hh.2 _ (List.mem_map_of_mem hy)
    obtain ⟨⟨x', y'⟩, hp, rfl⟩ := List.mem_map.mp hz
    simp only [H.eqv, Bool.and_eq_true, decide_eq_true_eq] at he
    rw [← he.1]
    exact (List.of_mem_zip hp).1

theorem typedKeys_update {k c : Node} {F G : List Key} (hk : TypedKeys k F) (hc : TypedKeys c G) (h : ∀ x, x ∈ G ↔ x ∈ F) :
    TypedKeys (updateNode k c) F := by
  obtain ⟨h1, kids1, d1, m1, rfl, e1, _, l1, s1, f1⟩ := hk
  obtain ⟨h2, kids2, d2, m2, rfl, e2, _, l2, s2, f2⟩ := hc
  simp only [updateNode, e1, e2]
  refine ⟨_, _, _, _, rfl, rfl, rfl, l1, s1, ?_⟩
  intro x
  rw [← f1 x, mem_keys, mem_keys]
  constructor
  · rintro ⟨hx, hh⟩
    refine ⟨?_, hh⟩
    simp only [DMeta.update, List.map_append, List.mem_append] at hx
    rcases hx with hx | hx
    · exact hx
    · obtain ⟨kv, hkv, rfl⟩ := List.mem_map.mp hx
      have : kv.1 ∈ m2.keys := mem_keys.mpr ⟨List.mem_map_of_mem (List.mem_filter.mp hkv).1, hh⟩
      exact (mem_keys.mp ((f1 _).mpr ((h _).mp ((f2 _).mp this)))).1
  · rintro ⟨hx, hh⟩
    refine ⟨?_, hh⟩
    simp only [DMeta.update, List.map_append, List.mem_append]
    exact .inl hx

theorem typedKeys_build {E : Env} {f : Nat} {nm : Str} {e : Val} {n : Node} (hl : ∀ k t ks vs, e = .map k t ks vs → ks.length = vs.length)
    (hr : isRec E.S e = true) (h : build E f false nm e = .ok n) : TypedKeys n (fieldsOf e) := by
  obtain ⟨t, ks, vs, rfl, hS⟩ := isRec_dict hr
  have hl := hl _ _ _ _ rfl
  cases f with
  | zero => cases h
  | succ f =>
    obtain ⟨kids, hk, rfl⟩ := build_dict h
    have hd : dictData E.S (ks.zip vs) = ks.zip vs := by simp [dictData, hS]
    rw [hd] at hk ⊢
    have hkeys : kids.map (·.1) = ks.filter (fun k => !k.hidden) := by
      rw [mapKids_keys hk, visibleItems]
      have : ((ks.zip vs).filter (fun kv => !kv.1.hidden)).map (·.1) = ((ks.zip vs).map (·.1)).filter (fun k => !k.hidden) := by
        rw [List.filter_map]; rfl
      rw [this, (zip_parts hl).1]
    refine ⟨_, _, _, _, rfl, rfl, rfl, ?_, ?_, ?_⟩
    · simp [shareEqual]
    · show (shareEqual E nm kids).1.map (·.key) = _
      rw [shareEqual_keys, hkeys]; rfl
    · intro x
      rw [mem_keys]
      simp only [DMeta.ofData, fieldsOf, (zip_parts hl).1, List.mem_filter, Bool.not_eq_true']

/-- Too few common keys. -/
theorem shouldMerge_dissimilar {S : Strategies} (hm : 0 < S.merge) {e e' : Val} (hd : Dissimilar S e e') {a b : Node} {l : List Node}
    (ha : TypedKeys a (fieldsOf e)) (hb : TypedKeys b (fieldsOf e')) (hla : a ∈ l) (hlb : b ∈ l) : shouldMerge S l = false := by
  obtain ⟨h1, kids1, d1, m1, rfl, e1, _, l1, s1, f1⟩ := ha
  obtain ⟨h2, kids2, d2, m2, rfl, e2, _, l2, s2, f2⟩ := hb
  exact shouldMerge_apart hm hd hla hlb (by simp [nodeMeta, e1]) (by simp [nodeMeta, e2]) f1 f2

/-! ### Sequences -/

theorem pairwise_all₂ {α β : Type} {R : α → α → Prop} {P : α → β → Prop} : ∀ {l : List α} {l' : List β}, l.Pairwise R → All₂ P l l' →
    l'.Pairwise (fun b b' => ∃ a a', R a a' ∧ P a b ∧ P a' b')
  | _, _, _, .nil => .nil
  | _, _, h, .cons x r => by
    rw [List.pairwise_cons] at h
    refine List.pairwise_cons.mpr ⟨?_, pairwise_all₂ h.2 r⟩
    intro b hb
    obtain ⟨a, ha, hab⟩ := r.mem_right b hb
    exact ⟨_, a, h.1 a ha, x, hab⟩


/-- The dictionaries of a sequence are alike or too different. -/
def SeqOk (S : Strategies) (es : List Val) : Prop :=
  (limit S.checkMax es).Pairwise (fun e e' => IsRecord S e → IsRecord S e' →
    Dissimilar S e e' ∨ (Like S e e' ∧ Uniform S e ∧ Uniform S e' ∧ Steady S e ∧ Steady S e'))

theorem Unmerged.len {S : Strategies} {v : Val} (h : Unmerged S v) : ∀ k t ks vs, v = .map k t ks vs → ks.length = vs.length := by
  rintro k t ks vs rfl
  exact h.1.2

theorem isRec_unmerged {S : Strategies} {v : Val} (hl : Unmerged S v) (h : isRec S v = true) : IsRecord S v := by
  obtain ⟨t, ks, vs, rfl, hS⟩ := isRec_dict h
  have hl := Unmerged.len hl _ _ _ _ rfl
  simp only [isRec, kindOf, isTyped_iff] at h
  refine ⟨hS, ?_⟩
  intro k hk
  obtain ⟨v, hz⟩ := mem_zip_left hl hk
  exact h.2 _ (by simpa [dictData, hS] using hz)

/-- What an element of a sequence and its child have in common. -/
structure SepElem (S : Strategies) (es : List Val) (e : Val) (k : Node) : Prop where
  same : Uniform S e → Steady S e → k.hdr.kind.tag = (kindOf S e).tag ∧ H.eqv (k.hash S) (vh S e) = true
  typed : isTypedDict S k = isRec S e
  data : isTypedDict S k = true → ∀ kv ∈ nodeData k, ∃ e ∈ es, kv ∈ itemsOf e
  keys : isTypedDict S k = true → TypedKeys k (fieldsOf e)
  deep : isTypedDict S k = true → 0 < e.depth

section
variable {E : Env} {f : Nat} {es : List Val}

theorem sepElem_build (hE : E.Fair) {e : Val} (he : e ∈ es) (hs : Unmerged E.S e) (hf : e.depth < f) {nm : Str} {n : Node}
    (h : build E f false nm e = .ok n) : SepElem E.S es e n := by
  obtain ⟨_, _, hk, _⟩ := build_facts hE h hf
  have hd := dataOf_build hE h hf
  have ht : isTypedDict E.S n = isRec E.S e := by rw [isTypedDict_eq, hk]; rfl
  refine ⟨?_, ht, fun _ kv hkv => ⟨e, he, hd.1 kv hkv⟩, ?_, hd.2⟩
  · intro hu hst
    have := src_of hE h hf (build_hash hE f false nm e n hst hu hf h)
    exact ⟨this.tag, this.hash⟩
  · intro t
    exact typedKeys_build (Unmerged.len hs) (by rw [← ht]; exact t) h

theorem nodeData_update {k c : Node} {kv : Key × Val} (h : kv ∈ nodeData (updateNode k c)) (hk : ∀ d m, k.hdr.kind = .dict d m → d = m.data)
    (hc : ∀ d m, c.hdr.kind = .dict d m → d = m.data) : kv ∈ nodeData k ∨ kv ∈ nodeData c := by
  cases k with
  | mk h1 k1 =>
    cases c with
    | mk h2 k2 =>
      cases e1 : h1.kind with
      | dict d m =>
        cases e2 : h2.kind with
        | dict d' m' =>
          have a := hk d m e1
          have b := hc d' m' e2
          simp only [updateNode, e1, e2, nodeData, DMeta.update, List.mem_append] at h ⊢
          rw [a, b]
          rcases h with h | h
          · exact .inl h
          · exact .inr (List.mem_filter.mp h).1
        | _ => simp only [updateNode, e1, e2] at h; exact .inl h
      | _ => simp only [updateNode, e1] at h; exact .inl h

theorem sepElem_update {e e' : Val} {k c : Node} (hk : SepElem E.S es e k) (hc : SepElem E.S es e' c) (ht : isTypedDict E.S c = true)
    (h : nodeEq E.S c k = true) : SepElem E.S es e (updateNode k c) := by
  obtain ⟨u1, u2, u3⟩ := updateNode_facts (k := k) ht
  have kc := hc.keys ht
  refine ⟨?_, by rw [u3]; exact hk.typed, ?_, ?_, by rw [u3]; exact hk.deep⟩
  · intro hu hst
    rw [u1, u2]
    exact hk.same hu hst
  · intro tk kv hkv
    rw [u3] at tk
    have kk := hk.keys tk
    rcases nodeData_update hkv (by
        obtain ⟨_, _, _, _, rfl, e1, e2, _⟩ := kk
        intro d m hdm
        simp only [Node.hdr] at hdm
        rw [e1] at hdm
        injection hdm with a b
        rw [← a, ← b]; exact e2) (by
        obtain ⟨_, _, _, _, rfl, e1, e2, _⟩ := kc
        intro d m hdm
        simp only [Node.hdr] at hdm
        rw [e1] at hdm
        injection hdm with a b
        rw [← a, ← b]; exact e2) with h | h
    · exact hk.data tk kv h
    · exact hc.data ht kv h
  · intro tk
    rw [u3] at tk
    have kk := hk.keys tk
    exact typedKeys_update kk kc (typedKeys_eq kk kc tk ht h)

/-- The children come from elements at different places, in order. -/
theorem setFold_sub {rec : Str → Val → Except Err Node} {parent : Str} {P : Val → Node → Prop}
    (hrec : ∀ e ∈ limit E.S.checkMax es, ∀ nm n, rec nm e = .ok n → P e n)
    (hupd : ∀ e0 e k c, P e0 k → P e c → isTypedDict E.S c = true → nodeEq E.S c k = true → P e0 (updateNode k c))
    {r : List Node × List Str} (h : foldE (setStep E rec parent) ([], []) (limit E.S.checkMax es) = .ok r) :
    ∃ l, l.Sublist (limit E.S.checkMax es) ∧ All₂ P l r.1 := by
  have key := foldE_split (f := setStep E rec parent) (Q := fun _ => True) (l := limit E.S.checkMax es)
    (fun done acc => ∃ l, l.Sublist done ∧ All₂ P l acc.1) (by
    rintro pre e post ⟨kids, names⟩ hsplit ⟨l, I1, I2⟩
    dsimp only at I2
    have he : e ∈ limit E.S.checkMax es := by rw [hsplit]; simp
    unfold setStep Ens
    dsimp only
    cases hb : rec (freshName (parent ++ E.U.capitalize e.ty.name) names) e with
    | error x => trivial
    | ok c =>
      have hc := hrec e he _ _ hb
      simp only [bind, Except.bind]
      have I1' : l.Sublist (pre ++ [e]) := I1.trans (List.sublist_append_left ..)
      by_cases ha : kids.any (nodeEq E.S c) = true
      · rw [if_pos ha]
        by_cases ht : isTypedDict E.S c = true
        · rw [if_pos ht]
          simp only [pure, Except.pure]
          refine ⟨l, I1', ?_⟩
          apply I2.map_right
          intro a _ b hab
          split
          · exact hupd _ _ _ _ hab hc ht (by assumption)
          · exact hab
        · rw [if_neg ht]
          exact ⟨l, I1', I2⟩
      · rw [if_neg ha]
        exact ⟨l ++ [e], I1.append (.refl _), I2.append (.cons hc .nil)⟩)
    [] (limit E.S.checkMax es) ([], []) rfl ⟨[], .slnil, .nil⟩
  rw [h] at key
  exact key

/-- The children after the loop: at most one dictionary, or no merging. -/
theorem setFold_unmerged (hE : E.Fair) (hm : 0 < E.S.merge) {parent : Str} (hok : SeqOk E.S es) (hst : ∀ e ∈ es, Unmerged E.S e ∧ e.depth < f)
    {r : List Node × List Str} (h : foldE (setStep E (build E f false) parent) ([], []) (limit E.S.checkMax es) = .ok r) :
    (∀ k ∈ r.1, ∃ e ∈ limit E.S.checkMax es, SepElem E.S es e k) ∧
    ((r.1.filter (isTypedDict E.S)).length ≤ 1 ∨ ∀ l : List Node, l.Perm (r.1.filter (isTypedDict E.S)) → shouldMerge E.S l = false) := by
  obtain ⟨h1, _, h3⟩ := setFold_src (P := SepElem E.S es)
    (fun e he nm n hb => sepElem_build hE (limit_subset he) (hst e (limit_subset he)).1 (hst e (limit_subset he)).2 hb)
    (fun _ _ _ _ _ _ hk hc ht heq => sepElem_update hk hc ht heq) h
  refine ⟨h1, ?_⟩
  have hp := h3.filter (isTypedDict E.S)
  obtain ⟨l0, hl0, hall⟩ := setFold_sub (P := fun e k => e ∈ es ∧ SepElem E.S es e k)
    (fun e he nm n hb => ⟨limit_subset he, sepElem_build hE (limit_subset he) (hst e (limit_subset he)).1 (hst e (limit_subset he)).2 hb⟩)
    (fun _ _ _ _ hk hc ht heq => ⟨hk.1, sepElem_update hk.2 hc.2 ht heq⟩) h
  have hpair := pairwise_all₂ (hok.sublist hl0) hall
  have hsub : ∀ d ∈ r.1.filter (isTypedDict E.S), isTypedDict E.S d = true := fun d hd => (List.mem_filter.mp hd).2
  have hpair := hpair.filter (isTypedDict E.S)
  generalize r.1.filter (isTypedDict E.S) = m at hp hsub hpair
  match m with
  | [] => exact .inl (by simp)
  | [_] => exact .inl (by simp)
  | a :: b :: rest =>
    right
    intro l hl
    have ha : a ∈ l := hl.mem_iff.mpr (by simp)
    have hb : b ∈ l := hl.mem_iff.mpr (by simp)
    have ta := hsub a (by simp)
    have tb := hsub b (by simp)
    rw [List.pairwise_cons] at hpair
    obtain ⟨e, e', hr, ⟨he, sa⟩, ⟨he', sb⟩⟩ := hpair.1 b (by simp)
    have re := isRec_unmerged (hst e he).1 (by rw [← sa.typed]; exact ta)
    have re' := isRec_unmerged (hst e' he').1 (by rw [← sb.typed]; exact tb)
    rcases hr re re' with hd | ⟨hlike, u, u', s, s'⟩
    · exact shouldMerge_dissimilar hm hd (sa.keys ta) (sb.keys tb) ha hb
    · exfalso
      obtain ⟨x1, x2⟩ := sa.same u s
      obtain ⟨y1, y2⟩ := sb.same u' s'
      have : nodeEq E.S b a = true := by
        rw [nodeEq_iff]
        constructor
        · rw [x1, y1]
          cases hlike <;> first | rfl | skip
          rename_i k _ _ _ _ _ _
          cases k <;> rfl
        · exact eqv_trans _ _ _ y2 (eqv_trans _ _ _ (eqv_symm _ _ (like_vh hlike)) (eqv_symm _ _ x2))
      rw [List.pairwise_cons] at hp
      rw [hp.1 b (by simp)] at this
      cases this

theorem unmerged_values {S : Strategies} (k : MapKind) (t : Ty) (ks : List Key) (vs : List Val) (h : Unmerged S (.map k t ks vs)) : ∀ w ∈ vs, Unmerged S w :=
  everyList_iff.mp h.2

theorem unmerged_dict {S : Strategies} (data : List (Key × Val)) (h : (data.map (·.1)).Nodup) (hv : ∀ w ∈ data.map (·.2), Unmerged S w) :
    Unmerged S (.dict data) := ⟨⟨h, by simp⟩, everyList_iff.mpr hv⟩

theorem setChildren_unmerged {E' : Env} (hE : E.Fair) (hE' : E'.Fair) (hU : E'.U = E.U) (hS : E'.S = E.S) (hm0 : 0 < E.S.merge) {parent : Str}
    (hok : SeqOk E.S es) (hst : ∀ e ∈ es, Unmerged E.S e ∧ e.depth < f)
    (ih : ∀ nm v n, Unmerged E.S v → v.depth < f → build E f false nm v = .ok n → ∃ n', build E' f false nm v = .ok n' ∧ Sim False E.S n n')
    {k : SeqKind} (hk : ¬ (k = .tuple ∧ E.S.tuple = .fixed)) {name : Str} {root : Bool} {t : Ty}
    {slots : List Slot} {kids : List Node} (h : setChildren E (build E f false) parent es = .ok (slots, kids)) :
    ∃ slots' kids', setChildren E' (build E' f false) parent es = .ok (slots', kids') ∧
      Sim False E.S (.mk ⟨.seq k, name, root, t, slots⟩ kids) (.mk ⟨.seq k, name, root, t, slots'⟩ kids') := by
  unfold setChildren at h ⊢
  simp only [bind, Except.bind, setStep_env hU hS, hS] at h ⊢
  cases hf : foldE (setStep E (build E f false) parent) ([], []) (limit E.S.checkMax es) with
  | error e => rw [hf] at h; cases h
  | ok r =>
    have hr' : ∀ e ∈ limit E.S.checkMax es, ∀ nm n, build E f false nm e = .ok n → ∃ n', build E' f false nm e = .ok n' ∧ Sim False E.S n n' := by
      intro e he nm n hb
      obtain ⟨a, b⟩ := hst e (limit_subset he)
      exact ih nm e n a b hb
    obtain ⟨r', hf', hsim⟩ := setFold_sim (acc := ([], [])) (acc' := ([], [])) hr' .nil rfl hf
    · rw [hf] at h
      rw [hf']
      obtain ⟨hel, hq⟩ := setFold_unmerged hE hm0 hok hst hf
      obtain ⟨kids0, names⟩ := r
      obtain ⟨kids0', names'⟩ := r'
      dsimp only at h hsim hq hel ⊢
      have fin : ∀ {l l' out out' : List Node}, All₂ (Sim False E.S) l l' → out.Perm l → out'.Perm l' →
          Sim False E.S (.mk ⟨.seq k, name, root, t, out.map (fun _ => Slot.seq 1)⟩ out) (.mk ⟨.seq k, name, root, t, out'.map (fun _ => Slot.seq 1)⟩ out') := by
        intro l l' out out' a c d
        obtain ⟨mid, m1, m2⟩ := All₂.perm_left c a
        have hlen : out.map (fun _ => Slot.seq 1) = out'.map (fun _ => Slot.seq 1) := by
          have : out.length = out'.length := by rw [m1.length_eq, (m2.trans d.symm).length_eq]
          simp [List.map_const', this]
        rw [← hlen]
        refine Sim.of m1 (.inr ⟨⟨?_, k, rfl, hk⟩, m2.trans d.symm, fun t => t.elim⟩)
        simp [List.map_const', m1.length_eq]
      have hft : All₂ (Sim False E.S) (kids0.filter (isTypedDict E.S)) (kids0'.filter (isTypedDict E.S)) := hsim.filter (fun _ _ h => h.typed)
      have hfu : All₂ (Sim False E.S) (kids0.filter (fun k => !isTypedDict E.S k)) (kids0'.filter (fun k => !isTypedDict E.S k)) :=
        hsim.filter (fun _ _ h => by rw [h.typed])
      have unmerged : ∀ {l l' : List Node}, l.Perm (kids0.filter (isTypedDict E.S)) → l'.Perm (kids0'.filter (isTypedDict E.S)) →
          ((∀ l : List Node, l.Perm (kids0.filter (isTypedDict E.S)) → shouldMerge E.S l = false)) → shouldMerge E.S l = false ∧ shouldMerge E.S l' = false := by
        intro l l' hl hl' hno
        refine ⟨hno l hl, ?_⟩
        have hsym : All₂ (fun a b => Sim False E.S b a) (kids0'.filter (isTypedDict E.S)) (kids0.filter (isTypedDict E.S)) := hft.flip
        obtain ⟨mid, m1, m2⟩ := All₂.perm_left hl' hsym
        have : shouldMerge E.S mid = shouldMerge E.S l' := by
          simp only [shouldMerge, sims_metas m1.flip]
        rw [← this]
        exact hno mid m2
      rcases hq with hshort | hno
      · have hshort' : (kids0'.filter (isTypedDict E.S)).length ≤ 1 := by rw [← hft.length_eq]; exact hshort
        have ht : ∀ i, (E.order i kids0).filter (isTypedDict E.S) = kids0.filter (isTypedDict E.S) :=
          fun i => perm_short ((hE i kids0).filter _) hshort
        have ht' : ∀ i, (E'.order i kids0').filter (isTypedDict E.S) = kids0'.filter (isTypedDict E.S) :=
          fun i => perm_short ((hE' i kids0').filter _) hshort'
        have hsm : shouldMerge E.S (kids0.filter (isTypedDict E.S)) = shouldMerge E.S (kids0'.filter (isTypedDict E.S)) := by
          simp only [shouldMerge, sims_metas hft]
        rw [ht, ht] at h
        rw [ht', ht', ← hsm]
        by_cases hm : shouldMerge E.S (kids0.filter (isTypedDict E.S)) = true
        · rw [if_pos hm] at h ⊢
          cases hmd : mergeDicts (build E f false) (kids0.filter (isTypedDict E.S)) with
          | error e => rw [hmd] at h; cases h
          | ok m =>
            · rw [hmd] at h
              simp only [pure, Except.pure, Except.ok.injEq, Prod.mk.injEq] at h
              obtain ⟨rfl, rfl⟩ := h
              obtain ⟨m', hmd', hmm⟩ : ∃ m', mergeDicts (build E' f false) (kids0'.filter (isTypedDict E.S)) = .ok m' ∧ Sim False E.S m m' := by
                obtain ⟨n0, hn0, _⟩ := mergeDicts_info hmd
                refine merged_sim hE unmerged_values unmerged_dict hst ih hft ?_ ?_ hmd
                · intro n hn kv hkv
                  obtain ⟨i1, i2⟩ := List.mem_filter.mp hn
                  obtain ⟨e, he, hd⟩ := hel n i1
                  exact hd.data i2 kv hkv
                · obtain ⟨i1, i2⟩ := List.mem_filter.mp hn0
                  obtain ⟨e, he, h0⟩ := hel n0 i1
                  exact ⟨e, limit_subset he, h0.deep i2⟩
              rw [hmd']
              exact ⟨_, _, rfl, fin (hfu.append (.cons hmm .nil)) (hE _ _) (hE' _ _)⟩
        · rw [if_neg hm] at h ⊢
          simp only [pure, Except.pure, Except.ok.injEq, Prod.mk.injEq] at h
          obtain ⟨rfl, rfl⟩ := h
          exact ⟨_, _, rfl, fin hsim (hE _ _) (hE' _ _)⟩
      · obtain ⟨n1, n2⟩ := unmerged ((hE 0 kids0).filter _) ((hE' 0 kids0').filter _) hno
        rw [n1, if_neg (by simp)] at h
        rw [n2, if_neg (by simp)]
        simp only [pure, Except.pure, Except.ok.injEq, Prod.mk.injEq] at h
        obtain ⟨rfl, rfl⟩ := h
        exact ⟨_, _, rfl, fin hsim (hE _ _) (hE' _ _)⟩

end

/-- Trees of data without merging under different iteration orders differ only in the order of children. -/
theorem build_unmerged {E E' : Env} (hE : E.Fair) (hE' : E'.Fair) (hU : E'.U = E.U) (hS : E'.S = E.S) (hm0 : 0 < E.S.merge) :
    ∀ (f : Nat) (root : Bool) (name : Str) (v : Val) (n : Node), Unmerged E.S v → v.depth < f →
    build E f root name v = .ok n → ∃ n', build E' f root name v = .ok n' ∧ Sim False E.S n n' :=
  build_order hU hS (fun _ _ _ h => everyList_iff.mp h.2) unmerged_values (fun f es hes ih name root t k hv slots kids h => by
    by_cases hc : k = .tuple ∧ E.S.tuple = .fixed
    · simp only [if_pos hc] at h ⊢
      exact tupleChildren_sim hE hU hS unmerged_values unmerged_dict hes ih (hd := fun s => ⟨.seq k, name, root, t, s⟩) h
    · simp only [if_neg hc] at h ⊢
      exact setChildren_unmerged hE hE' hU hS hm0 (hv.1 hc) hes ih hc h)

end Verif
