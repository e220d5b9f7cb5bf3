import Verif.Spec.Reads
import Verif.Lemmas.Distinct
import Verif.Lemmas.Depth
/-
Iterators that are read once.
-/
namespace Verif
open Verif.Spec

theorem plains_map : ∀ l : List Val, plains l = l.map plain
  | [] => rfl
  | v :: r => by simp [plains, plains_map r]

theorem plain_ty (v : Val) : (plain v).ty = v.ty := by
  cases v with
  | seq k t es => cases k <;> rfl
  | _ => rfl

theorem plain_text (v : Val) : textOf (plain v) = textOf v := by
  cases v with
  | seq k t es => cases k <;> rfl
  | _ => rfl

theorem plain_dict (d : List (Key × Val)) : plain (.dict d) = .dict (viaData plain d) := by
  simp [Val.dict, plain, plains_map, viaData, Function.comp_def]

theorem zip_plain (ks : List Key) (vs : List Val) : ks.zip (vs.map plain) = viaData plain (ks.zip vs) := by
  rw [List.zip_map_right]; rfl

theorem iterElems_plain (r : Nat) (es : List Val) : iterElems (plains (numberMark r :: es)) = es.map plain := by
  simp [plains, plains_map, numberMark, plain, iterElems]

theorem iteratorsAll_eq : ∀ l : List Val, iteratorsAll l = l.flatMap iterators
  | [] => rfl
  | v :: r => by simp [iteratorsAll, iteratorsAll_eq r]

theorem iterators_mem {l : List Val} {v : Val} (h : v ∈ l) {r : Nat} (hr : r ∈ iterators v) : r ∈ iteratorsAll l := by
  rw [iteratorsAll_eq]; exact List.mem_flatMap.mpr ⟨v, h, hr⟩

theorem iteratorsAll_sublist {l l' : List Val} (h : l.Sublist l') : (iteratorsAll l).Sublist (iteratorsAll l') := by
  induction h with
  | slnil => exact .slnil
  | cons a _ ih => exact ih.trans (List.sublist_append_right _ _)
  | cons_cons a _ ih => exact (List.Sublist.refl _).append ih

theorem iterators_sublist {l : List Val} {v : Val} (h : v ∈ l) : (iterators v).Sublist (iteratorsAll l) := by
  have := iteratorsAll_sublist (List.singleton_sublist.mpr h)
  simpa [iteratorsAll] using this

/-! ### Data without iterators -/

mutual
theorem every_quiet {p : Val → Prop} (hp : ∀ w, iterators w = [] → p w) : ∀ v : Val, iterators v = [] → Every p v
  | .inst _ _, h | .cls _ _, h | .module _, h | .io _, h | .ndarray _ _, h | .func _, h => hp _ h
  | .seq k t es, h => by
    refine ⟨hp _ h, everyList_quiet hp es ?_⟩
    cases k <;> simp_all [iterators]
  | .map k t ks vs, h => ⟨hp _ h, everyList_quiet hp vs (by simpa [iterators] using h)⟩
theorem everyList_quiet {p : Val → Prop} (hp : ∀ w, iterators w = [] → p w) : ∀ l : List Val, iteratorsAll l = [] → EveryList p l
  | [], _ => trivial
  | v :: r, h => by
    simp only [iteratorsAll, List.append_eq_nil_iff] at h
    exact ⟨every_quiet hp v h.1, everyList_quiet hp r h.2⟩
end

theorem quiet_elem {l : List Val} (h : iteratorsAll l = []) {v : Val} (hv : v ∈ l) : iterators v = [] := by
  have := iterators_sublist hv
  rw [h] at this
  exact List.eq_nil_of_sublist_nil this

theorem quiet_once (S : Strategies) {v : Val} (h : iterators v = []) : ReadOnce S v where
  once := by rw [h]; exact .nil
  numbered := every_quiet (fun w hw => by
    split
    · simp [iterators] at hw
    · trivial) v h
  outside := every_quiet (fun w hw => by
    split
    · rename_i k t es
      intro t' ks vs hm _ _
      have he : iteratorsAll es = [] := by cases k <;> simp_all [iterators]
      simpa [iterators] using quiet_elem he hm
    · trivial) v h

/-! ### The state -/

/-- Nothing has been taken from the iterators. -/
def Untouched (T : Taken) (rs : List Nat) : Prop := ∀ r ∈ rs, T r = 0

/-- The state after some reads. -/
def advance (T : Taken) (l : List (Nat × Nat)) : Taken := l.foldl (fun T p => T.add p.1 p.2) T

theorem advance_append (T : Taken) (l l' : List (Nat × Nat)) : advance T (l ++ l') = advance (advance T l) l' := by simp [advance]

theorem advance_other {r : Nat} : ∀ (l : List (Nat × Nat)) (T : Taken), r ∉ l.map (·.1) → advance T l r = T r
  | [], _, _ => rfl
  | p :: l, T, h => by
    simp only [List.map_cons, List.mem_cons, not_or] at h
    show advance (T.add p.1 p.2) l r = T r
    rw [advance_other l _ h.2]
    simp [Taken.add, h.1]

theorem untouched_add {T : Taken} {rs : List Nat} {r c : Nat} (h : Untouched T rs) (hr : r ∉ rs) : Untouched (T.add r c) rs := by
  intro j hj
  have : j ≠ r := fun e => hr (e ▸ hj)
  simp [Taken.add, this, h j hj]

theorem untouched_advance {T : Taken} {rs : List Nat} {l : List (Nat × Nat)} (h : Untouched T rs) (hd : ∀ p ∈ l, p.1 ∉ rs) :
    Untouched (advance T l) rs := by
  intro r hr
  rw [advance_other, h r hr]
  intro hm
  obtain ⟨p, hp, rfl⟩ := List.mem_map.mp hm
  exact hd p hp hr

/-- The reads during construction with limited recursion. -/
def readsOf (S : Strategies) : Nat → Val → List (Nat × Nat)
  | 0, _ => []
  | f + 1, v => match v with
    | .seq .iterator _ es => (iterNumber es, taken S.checkMax (iterElems es)) :: (limit S.checkMax (iterElems es)).flatMap (readsOf S f)
    | .seq _ _ es => (limit S.checkMax es).flatMap (readsOf S f)
    | .map .dict _ ks vs => ((dictData S (ks.zip vs)).filter (fun kv => !kv.1.hidden)).flatMap (fun kv => readsOf S f kv.2)
    | .map .proxy _ ks vs => ((limit S.checkMax (ks.zip vs)).filter (fun kv => !kv.1.hidden)).flatMap (fun kv => readsOf S f kv.2)
    | .map (.frame _) _ ks vs => (ks.zip vs).flatMap (fun kv => readsOf S f kv.2)
    | _ => []

theorem mem_iterElems {es : List Val} {e : Val} (h : e ∈ iterElems es) : e ∈ es := by
  unfold iterElems at h
  split at h
  · exact List.mem_cons_of_mem _ h
  · exact h

theorem reads_iterators (S : Strategies) : ∀ (f : Nat) (v : Val) (p : Nat × Nat), p ∈ readsOf S f v → p.1 ∈ iterators v
  | 0, _, _, h => by simp [readsOf] at h
  | f + 1, v, p, h => by
    have ih := reads_iterators S f
    have hes : ∀ {es l : List Val}, (∀ e ∈ l, e ∈ es) → p ∈ l.flatMap (readsOf S f) → p.1 ∈ iteratorsAll es := by
      intro es l hl hp
      obtain ⟨e, he, hpe⟩ := List.mem_flatMap.mp hp
      exact iterators_mem (hl e he) (ih e p hpe)
    have hvs : ∀ {ks : List Key} {vs : List Val} {l : List (Key × Val)}, (∀ e ∈ l, e ∈ ks.zip vs) → p ∈ l.flatMap (fun kv => readsOf S f kv.2) →
        p.1 ∈ iteratorsAll vs := by
      intro ks vs l hl hp
      obtain ⟨e, he, hpe⟩ := List.mem_flatMap.mp hp
      exact iterators_mem (List.of_mem_zip (hl e he)).2 (ih _ p hpe)
    cases v with
    | seq k t es =>
      have hel : ∀ e ∈ limit S.checkMax es, e ∈ es := fun e he => limit_subset he
      cases k with
      | iterator =>
        simp only [readsOf, List.mem_cons] at h
        simp only [iterators, List.mem_cons]
        rcases h with rfl | h
        · exact .inl rfl
        · exact .inr (hes (fun e he => mem_iterElems (limit_subset he)) h)
      | _ => exact hes hel (by simpa [readsOf] using h)
    | map k t ks vs =>
      cases k with
      | dict => exact hvs (fun e he => dictData_subset (List.mem_filter.mp he).1) h
      | proxy => exact hvs (fun e he => limit_subset (List.mem_filter.mp he).1) h
      | frame i => exact hvs (fun e he => he) h
    | _ => simp [readsOf] at h

/-! ### Corresponding results -/

/-- The construction with state and the one without have corresponding results. -/
def Rel {α β} (I : α → Prop) (g : α → β) (a : Except Err (α × Taken)) (b : Except Err β) (T : Taken) : Prop :=
  (∃ x, a = .ok (x, T) ∧ b = .ok (g x) ∧ I x) ∨ ∃ e, a = .error e ∧ b = .error e

theorem foldR_rel {β γ} {S : Strategies} {f : Nat} {I : β → Prop} {P : Val → Prop} {g : β → γ} {s : β → Val → Taken → Except Err (β × Taken)}
    {s' : γ → Val → Except Err γ} (hs : ∀ b e T, I b → P e → Untouched T (iterators e) → Rel I g (s b e T) (s' (g b) (plain e)) (advance T (readsOf S f e))) :
    ∀ (l : List Val) (b : β) (T : Taken), I b → (∀ e ∈ l, P e) → Untouched T (iteratorsAll l) → (iteratorsAll l).Nodup →
      Rel I g (foldR s b l T) (foldE s' (g b) (l.map plain)) (advance T (l.flatMap (readsOf S f)))
  | [], b, T, hb, _, _, _ => .inl ⟨b, rfl, rfl, hb⟩
  | e :: l, b, T, hb, hP, hT, hn => by
    simp only [iteratorsAll, List.nodup_append] at hn
    have hT1 : Untouched T (iterators e) := fun r hr => hT r (by simp [iteratorsAll, hr])
    have hT2 : Untouched (advance T (readsOf S f e)) (iteratorsAll l) := by
      refine untouched_advance (fun r hr => hT r (by simp [iteratorsAll, hr])) ?_
      intro p hp hm
      exact hn.2.2 _ (reads_iterators S f e p hp) _ hm rfl
    rcases hs b e T hb (hP e (by simp)) hT1 with ⟨x, h1, h2, h3⟩ | ⟨er, h1, h2⟩
    · have ih := foldR_rel hs l x _ h3 (fun e he => hP e (by simp [he])) hT2 hn.2.1
      simp only [foldR, List.map_cons, foldE, h1, h2, List.flatMap_cons, advance_append]
      exact ih
    · exact .inr ⟨er, by simp [foldR, h1], by simp [foldE, h2]⟩

/-! ### Nodes of dictionaries without iterators -/

/-- The entries have no iterators. -/
def QuietData (d : List (Key × Val)) : Prop := ∀ kv ∈ d, iterators kv.2 = []

/-- If the node is a TypedDict, its values have no iterators. -/
def QuietNode (S : Strategies) (n : Node) : Prop :=
  isTypedDict S n = true → QuietData (nodeData n) ∧ ∀ m, nodeMeta n = some m → QuietData m.data

theorem quiet_rename {S : Strategies} {n : Node} {new : Str} (h : QuietNode S n) : QuietNode S (n.rename new) := by
  unfold QuietNode
  rw [typed_rename, nodeMeta_rename.1, nodeMeta_rename.2]
  exact h

theorem quiet_update {S : Strategies} {k c : Node} (hk : QuietNode S k) (hc : QuietNode S c) (ht : isTypedDict S c = true) :
    QuietNode S (updateNode k c) := by
  intro h
  have htk := typed_updateNode h
  obtain ⟨k1, k2⟩ := hk htk
  obtain ⟨c1, c2⟩ := hc ht
  obtain ⟨⟨kd, nm, rt, ty, sl⟩, kids⟩ := k
  obtain ⟨⟨kd', nm', rt', ty', sl'⟩, kids'⟩ := c
  cases kd with
  | dict d m =>
    cases kd' with
    | dict d' m' =>
      have hq : QuietData (m.update m').data := by
        intro kv hkv
        simp only [DMeta.update, List.mem_append, List.mem_filter] at hkv
        rcases hkv with hkv | hkv
        · exact k2 m rfl kv hkv
        · exact c2 m' rfl kv hkv.1
      refine ⟨hq, ?_⟩
      intro x hx
      simp only [updateNode, nodeMeta, Option.some.injEq] at hx
      subst hx
      exact hq
    | _ => exact ⟨k1, k2⟩
  | _ => exact ⟨k1, k2⟩

theorem quiet_updateDict {d e : List (Key × Val)} (hd : QuietData d) (he : QuietData e) : QuietData (updateDict d e) := fun kv hkv =>
  (mem_updateDict hkv).elim (hd kv) (he kv)

theorem quiet_fold : ∀ (ns : List Node) (d : List (Key × Val)), QuietData d → (∀ n ∈ ns, QuietData (nodeData n)) →
    QuietData (ns.foldl (fun acc n => updateDict acc (nodeData n)) d)
  | [], _, hd, _ => hd
  | n :: ns, d, hd, h => quiet_fold ns _ (quiet_updateDict hd (h n (by simp))) (fun n' hn' => h n' (by simp [hn']))

theorem quiet_dict {d : List (Key × Val)} (h : QuietData d) : iterators (.dict d) = [] := by
  simp only [Val.dict, iterators, iteratorsAll_eq, List.flatMap_eq_nil_iff, List.mem_map, forall_exists_index, and_imp, forall_apply_eq_imp_iff₂]
  exact fun kv hkv => h kv hkv

theorem reads_quiet (S : Strategies) (f : Nat) {v : Val} (h : iterators v = []) : readsOf S f v = [] := by
  rw [List.eq_nil_iff_forall_not_mem]
  intro p hp
  have := reads_iterators S f v p hp
  rw [h] at this
  cases this

/-- Construction with state corresponds to construction without it. -/
def ReadsAs (S : Strategies) (f : Nat) (R : Rec) (r : Str → Val → Except Err Node) : Prop :=
  ∀ nm v T, ReadOnce S v → Untouched T (iterators v) → Rel (fun _ => True) (viaTree plain) (R nm v T) (r nm (plain v)) (advance T (readsOf S f v))

/-- Elements that may be read: every iterator once, none in TypedDicts. -/
structure ElemsOnce (S : Strategies) (es : List Val) : Prop where
  each : ∀ e ∈ es, ReadOnce S e
  once : (iteratorsAll es).Nodup
  outside : ∀ t ks vs, Val.map .dict t ks vs ∈ es → S.dict = .typedDict → (∀ kv ∈ ks.zip vs, kv.1.isStr = true) → iteratorsAll vs = []

/-- TypedDicts that are made from the value have no iterators. -/
def QuietElem (S : Strategies) (e : Val) : Prop :=
  ∀ t ks vs, e = .map .dict t ks vs → S.dict = .typedDict → (∀ kv ∈ ks.zip vs, kv.1.isStr = true) → iteratorsAll vs = []

/-- Construction makes nodes without iterators of such values. -/
def MakesQuiet (S : Strategies) (R : Rec) : Prop := ∀ nm e T n T', QuietElem S e → R nm e T = .ok (n, T') → QuietNode S n

section
variable {E : Env} {f : Nat} {R : Rec} {r : Str → Val → Except Err Node}

theorem mergeR_rel (hr : ReadsAs E.S f R r) {ds : List Node} (ht : ∀ n ∈ ds, isTypedDict E.S n = true) (hq : ∀ n ∈ ds, QuietNode E.S n) (T : Taken) :
    Rel (fun _ => True) (viaTree plain) (mergeDictsR R ds T) (mergeDicts r (ds.map (viaTree plain))) T := by
  cases ds with
  | nil => exact .inr ⟨_, rfl, rfl⟩
  | cons d ds =>
    obtain ⟨m, hm⟩ := Option.isSome_iff_exists.mp (nodeMeta_of_isTypedDict (ht d (by simp)))
    simp only [mergeDictsR, mergeDicts, List.map_cons, bind, Except.bind, pure, Except.pure]
    rw [← List.map_cons, filterMap_nodeMeta_via, via_name, foldl_minStr_via, nodeMeta_via, hm]
    have hd' := foldl_updateDict_via (φ := plain) (d :: ds) []
    have e0 : viaData plain [] = [] := rfl
    rw [e0] at hd'
    rw [← hd', ← plain_dict]
    have hQ : QuietData ((d :: ds).foldl (fun acc n => updateDict acc (nodeData n)) []) :=
      quiet_fold _ _ (fun kv hkv => by cases hkv) (fun n hn => (hq n hn (ht n hn)).1)
    generalize (d :: ds).foldl (fun acc n => updateDict acc (nodeData n)) [] = D at hQ ⊢
    have hi := quiet_dict hQ
    have hme : (List.map (viaMeta plain) (List.filterMap nodeMeta (d :: ds))).foldl DMeta.update (((some m).map (viaMeta plain)).getD (DMeta.ofData [])) =
        viaMeta plain (List.foldl DMeta.update m (List.filterMap nodeMeta (d :: ds))) := (foldl_update_via _ m).symm
    rw [hme]
    rcases hr (ds.foldl (fun acc n => minStr acc n.name) d.name) (.dict D) T (quiet_once _ hi) (by rw [hi]; intro r hr; cases hr) with
      ⟨⟨h, kids⟩, h1, h2, _⟩ | ⟨e, h1, h2⟩
    · rw [reads_quiet _ _ hi] at h1
      rw [h1, h2]
      exact .inl ⟨_, rfl, rfl, trivial⟩
    · rw [h1, h2]
      exact .inr ⟨e, rfl, rfl⟩

theorem setStepR_rel (hr : ReadsAs E.S f R r) (hq : MakesQuiet E.S R) (parent : Str) (acc : List Node × List Str) (e : Val) (T : Taken)
    (hacc : ∀ n ∈ acc.1, QuietNode E.S n) (he : ReadOnce E.S e ∧ QuietElem E.S e) (hT : Untouched T (iterators e)) :
    Rel (fun a : List Node × List Str => ∀ n ∈ a.1, QuietNode E.S n) (fun a => (a.1.map (viaTree plain), a.2))
      (setStepR E R parent acc e T) (setStep E r parent (acc.1.map (viaTree plain), acc.2) (plain e)) (advance T (readsOf E.S f e)) := by
  simp only [setStepR, setStep, plain_ty, bind, Except.bind, pure, Except.pure]
  generalize freshName (parent ++ E.U.capitalize e.ty.name) acc.2 = name
  rcases hr name e T he.1 hT with ⟨c, h1, h2, _⟩ | ⟨er, h1, h2⟩
  · have hc := hq name e T c _ he.2 h1
    rw [h1, h2]
    simp only [any_nodeEq_via, isTypedDict_via]
    split
    · split
      · rename_i ht
        refine .inl ⟨_, rfl, ?_, ?_⟩
        · simp only [List.map_map]
          congr 2
          apply List.map_congr_left
          intro k hk
          simp only [Function.comp, nodeEq_via]
          split
          · exact (updateNode_via k c).symm
          · rfl
        · intro n hn
          obtain ⟨k, hk, rfl⟩ := List.mem_map.mp hn
          split
          · exact quiet_update (hacc k hk) hc ht
          · exact hacc k hk
      · exact .inl ⟨_, rfl, rfl, hacc⟩
    · refine .inl ⟨_, rfl, by simp, ?_⟩
      intro n hn
      rcases List.mem_append.mp hn with hn | hn
      · exact hacc n hn
      · rw [List.mem_singleton] at hn; rw [hn]; exact hc
  · rw [h1, h2]
    exact .inr ⟨er, rfl, rfl⟩

theorem tupleStepR_rel (hr : ReadsAs E.S f R r) (hq : MakesQuiet E.S R) (parent : Str) (acc : List Node × List (Node × Str)) (e : Val) (T : Taken)
    (hacc : ∀ n ∈ acc.1, QuietNode E.S n) (he : ReadOnce E.S e ∧ QuietElem E.S e) (hT : Untouched T (iterators e)) :
    Rel (fun a : List Node × List (Node × Str) => ∀ n ∈ a.1, QuietNode E.S n) (fun a => (a.1.map (viaTree plain), a.2.map fun p => (viaTree plain p.1, p.2)))
      (tupleStepR E R parent acc e T) (tupleStep E r parent (acc.1.map (viaTree plain), acc.2.map fun p => (viaTree plain p.1, p.2)) (plain e))
      (advance T (readsOf E.S f e)) := by
  simp only [tupleStepR, tupleStep, plain_ty, bind, Except.bind, pure, Except.pure, List.map_map]
  have e0 : (List.map ((fun x => x.snd) ∘ fun (p : Node × Str) => (viaTree plain p.fst, p.snd)) acc.2) = acc.2.map (·.2) := rfl
  rw [e0]
  generalize freshName (parent ++ E.U.capitalize e.ty.name) (acc.2.map (·.2)) = name
  rcases hr name e T he.1 hT with ⟨c, h1, h2, _⟩ | ⟨er, h1, h2⟩
  · have hc := hq name e T c _ he.2 h1
    rw [h1, h2]
    simp only [findEq_via]
    cases hf : findEq E.S c acc.2 with
    | some old =>
      refine .inl ⟨_, rfl, by simp [rename_via], ?_⟩
      intro n hn
      rcases List.mem_append.mp hn with hn | hn
      · exact hacc n hn
      · rw [List.mem_singleton] at hn; rw [hn]; exact quiet_rename hc
    | none =>
      refine .inl ⟨_, rfl, by simp [via_name], ?_⟩
      intro n hn
      rcases List.mem_append.mp hn with hn | hn
      · exact hacc n hn
      · rw [List.mem_singleton] at hn; rw [hn]; exact hc
  · rw [h1, h2]
    exact .inr ⟨er, rfl, rfl⟩

theorem ElemsOnce.limit {S : Strategies} {es : List Val} (h : ElemsOnce S es) (n : Nat) : ElemsOnce S (Verif.limit n es) where
  each e he := h.each e (limit_subset he)
  once := h.once.sublist (iteratorsAll_sublist limit_sublist)
  outside t ks vs hm := h.outside t ks vs (limit_subset hm)

theorem setChildrenR_rel (hE : E.Fair) (hO : OrderByHash E) (hr : ReadsAs E.S f R r) (hq : MakesQuiet E.S R) (parent : Str) {es : List Val} {T : Taken}
    (he : ElemsOnce E.S es) (hT : Untouched T (iteratorsAll es)) :
    Rel (fun _ => True) (viaKids plain) (setChildrenR E R parent es T) (setChildren E r parent (es.map plain))
      (advance T ((limit E.S.checkMax es).flatMap (readsOf E.S f))) := by
  have hO' := orderByHash_via hO plain
  have hl := he.limit E.S.checkMax
  have h := foldR_rel (setStepR_rel hr hq parent) (limit E.S.checkMax es) ([], []) T (by simp)
    (fun e hm => ⟨hl.each e hm, fun t ks vs h => hl.outside t ks vs (h ▸ hm)⟩)
    (fun r hr => hT r ((iteratorsAll_sublist limit_sublist).mem hr)) hl.once
  simp only [setChildrenR, setChildren, bind, Except.bind, pure, Except.pure, limit_map_bare]
  simp only [List.map_nil] at h
  rcases h with ⟨⟨kids, names⟩, h1, h2, h3⟩ | ⟨e, h1, h2⟩
  · rw [h1, h2]
    simp only [hO' 0 kids, hO' 1 kids, filter_typed_via, shouldMerge_via plain_ty]
    split
    · rcases mergeR_rel hr (ds := (E.order 1 kids).filter (isTypedDict E.S)) (fun n hn => (List.mem_filter.mp hn).2)
        (fun n hn => h3 n ((hE 1 kids).mem_iff.mp (List.mem_filter.mp hn).1)) (advance T ((limit E.S.checkMax es).flatMap (readsOf E.S f))) with
        ⟨merged, m1, m2, _⟩ | ⟨e, m1, m2⟩
      · have e1 : (kids.map (viaTree plain)).filter (fun k => !isTypedDict E.S k) ++ [viaTree plain merged] =
            (kids.filter (fun k => !isTypedDict E.S k) ++ [merged]).map (viaTree plain) := by simp [filter_untyped_via]
        rw [m1, m2]
        simp only [e1, hO' 2]
        exact .inl ⟨_, rfl, by simp [viaKids], trivial⟩
      · rw [m1, m2]; exact .inr ⟨e, rfl, rfl⟩
    · exact .inl ⟨_, rfl, by simp [viaKids], trivial⟩
  · rw [h1, h2]; exact .inr ⟨e, rfl, rfl⟩

theorem tupleChildrenR_rel (hr : ReadsAs E.S f R r) (hq : MakesQuiet E.S R) (parent : Str) {es : List Val} {T : Taken}
    (he : ElemsOnce E.S es) (hT : Untouched T (iteratorsAll es)) :
    Rel (fun _ => True) (viaKids plain) (tupleChildrenR E R parent es T) (tupleChildren E r parent (es.map plain))
      (advance T ((limit E.S.checkMax es).flatMap (readsOf E.S f))) := by
  have hl := he.limit E.S.checkMax
  have h := foldR_rel (tupleStepR_rel hr hq parent) (limit E.S.checkMax es) ([], []) T (by simp)
    (fun e hm => ⟨hl.each e hm, fun t ks vs h => hl.outside t ks vs (h ▸ hm)⟩)
    (fun r hr => hT r ((iteratorsAll_sublist limit_sublist).mem hr)) hl.once
  simp only [tupleChildrenR, tupleChildren, bind, Except.bind, pure, Except.pure, limit_map_bare]
  simp only [List.map_nil] at h
  rcases h with ⟨⟨kids, names⟩, h1, h2, h3⟩ | ⟨e, h1, h2⟩
  · rw [h1, h2]
    simp only [filter_typed_via, shouldMerge_via plain_ty]
    split
    · rcases mergeR_rel hr (ds := kids.filter (isTypedDict E.S)) (fun n hn => (List.mem_filter.mp hn).2)
        (fun n hn => h3 n (List.mem_filter.mp hn).1) (advance T ((limit E.S.checkMax es).flatMap (readsOf E.S f))) with
        ⟨merged, m1, m2, _⟩ | ⟨e, m1, m2⟩
      · rw [m1, m2]
        refine .inl ⟨_, rfl, ?_, trivial⟩
        simp only [viaKids, List.map_map, List.length_map]
        congr 2
        · apply List.map_congr_left
          intro k _
          simp only [Function.comp, isTypedDict_via]
        · apply List.map_congr_left
          intro k _
          simp only [Function.comp, isTypedDict_via]
          split <;> rfl
      · rw [m1, m2]; exact .inr ⟨e, rfl, rfl⟩
    · exact .inl ⟨_, rfl, by simp [viaKids], trivial⟩
  · rw [h1, h2]; exact .inr ⟨e, rfl, rfl⟩

/-! ### Mappings -/

theorem mapKidsR_rel (hr : ReadsAs E.S f R r) (parent : Str) (suffix : Key → Str) : ∀ (items : List (Key × Val)) (T : Taken),
    (∀ kv ∈ items, ReadOnce E.S kv.2) → (iteratorsAll (items.map (·.2))).Nodup → Untouched T (iteratorsAll (items.map (·.2))) →
    Rel (fun _ => True) (fun l => l.map (viaItem plain)) (mapKidsR R parent suffix items T) (mapKids r parent suffix (viaData plain items))
      (advance T (items.flatMap (fun kv => readsOf E.S f kv.2)))
  | [], T, _, _, _ => .inl ⟨_, rfl, rfl, trivial⟩
  | (k, v) :: items, T, hI, hn, hT => by
    simp only [List.map_cons, iteratorsAll, List.nodup_append] at hn hT
    have hT2 : Untouched (advance T (readsOf E.S f v)) (iteratorsAll (items.map (·.2))) := by
      refine untouched_advance (fun r hr => hT r (by simp [hr])) ?_
      intro p hp hm
      exact hn.2.2 _ (reads_iterators E.S f v p hp) _ hm rfl
    have e : viaData plain ((k, v) :: items) = (k, plain v) :: viaData plain items := rfl
    rw [e]
    simp only [mapKidsR, mapKids, bind, Except.bind, pure, Except.pure, List.flatMap_cons, advance_append]
    rcases hr (parent ++ suffix k) v T (hI (k, v) (by simp)) (fun r hr => hT r (by simp [hr])) with ⟨c, h1, h2, _⟩ | ⟨er, h1, h2⟩
    · rw [h1, h2]
      rcases mapKidsR_rel hr parent suffix items _ (fun kv hkv => hI kv (by simp [hkv])) hn.2.1 hT2 with ⟨x, h3, h4, _⟩ | ⟨er, h3, h4⟩
      · simp only [h3, h4]
        exact .inl ⟨_, rfl, rfl, trivial⟩
      · simp only [h3, h4]
        exact .inr ⟨_, rfl, rfl⟩
    · rw [h1, h2]
      exact .inr ⟨er, rfl, rfl⟩

end

theorem values_sublist {ks : List Key} {vs : List Val} {l : List (Key × Val)} (h : l.Sublist (ks.zip vs)) : (l.map (·.2)).Sublist vs := by
  refine (h.map (·.2)).trans ?_
  clear h
  induction ks generalizing vs with
  | nil => simp
  | cons k ks ih =>
    cases vs with
    | nil => simp
    | cons v vs => simpa using ih

theorem Spec.ReadOnce.value {S : Strategies} {k t ks vs} (h : ReadOnce S (.map k t ks vs)) {v : Val} (hv : v ∈ vs) : ReadOnce S v where
  once := h.once.sublist (iterators_sublist hv)
  numbered := everyList_iff.mp h.numbered.2 v hv
  outside := everyList_iff.mp h.outside.2 v hv

theorem elems_of {S : Strategies} {k t es} (h : ReadOnce S (.seq k t es)) {l : List Val} (hl : l.Sublist es) : ElemsOnce S l where
  each e he := {
    once := (h.once.sublist (by cases k <;> first | exact List.Sublist.refl _ | exact List.sublist_cons_self _ _)).sublist (iterators_sublist (hl.mem he))
    numbered := everyList_iff.mp h.numbered.2 e (hl.mem he)
    outside := everyList_iff.mp h.outside.2 e (hl.mem he) }
  once := (h.once.sublist (by cases k <;> first | exact List.Sublist.refl _ | exact List.sublist_cons_self _ _)).sublist (iteratorsAll_sublist hl)
  outside t ks vs hm := h.outside.1 t ks vs (hl.mem hm)

theorem buildR_quiet {E : Env} (f : Nat) (root : Bool) : MakesQuiet E.S (buildR E f root) := by
  intro nm e T n T' he h ht
  cases f with
  | zero => cases h
  | succ f =>
    have leaf : ∀ {m : Nat} {v : Val}, isTypedDict E.S n = true → build E (m + 1) root nm v = .ok n → ∃ t ks vs, v = .map .dict t ks vs := by
      intro m v ht h
      cases v with
      | map k t ks vs =>
        cases k with
        | dict => exact ⟨_, _, _, rfl⟩
        | _ =>
          simp only [build] at h
          split at h
          · split at h
            · injection h with h; subst h; simp [isTypedDict] at ht
            · cases h
          · cases h
      | seq k t es =>
        simp only [build] at h
        split at h
        · split at h
          · injection h with h; subst h; simp [isTypedDict] at ht
          · cases h
        · cases h
      | func i =>
        simp only [build] at h
        split at h
        · cases h
        · rename_i n' h'
          split at h'
          · split at h
            · cases h
            · injection h' with h'; injection h with h; subst h' h; simp [isTypedDict] at ht
          · cases h'
      | _ =>
        simp only [build] at h
        split at h
        · injection h with h; subst h; simp [isTypedDict] at ht
        · cases h
    cases e with
    | seq k t es =>
      cases k <;>
      · simp only [buildR] at h
        split at h
        · split at h
          · injection h with h; injection h with h; subst h; simp [isTypedDict] at ht
          · cases h
        · cases h
    | map k t ks vs =>
      cases k with
      | dict =>
        simp only [buildR] at h
        split at h
        · injection h with h; injection h with h
          subst h
          simp only [isTypedDict, DMeta.isTyped, DMeta.ofData, Bool.and_eq_true, decide_eq_true_eq, allStr, List.all_eq_true] at ht
          have hd : dictData E.S (ks.zip vs) = ks.zip vs := by simp [dictData, ht.2]
          have hq := he t ks vs rfl ht.2 (by rw [hd] at ht; exact ht.1)
          have hQ : QuietData (dictData E.S (ks.zip vs)) := by
            rw [hd]
            exact fun kv hkv => quiet_elem hq (List.of_mem_zip hkv).2
          refine ⟨hQ, ?_⟩
          intro m hm
          simp only [nodeMeta, Option.some.injEq] at hm
          subst hm
          exact hQ
        · cases h
      | _ =>
        simp only [buildR] at h
        split at h
        · split at h
          · injection h with h; injection h with h; subst h; simp [isTypedDict] at ht
          · cases h
        · cases h
    | _ =>
      simp only [buildR] at h
      split at h
      · rename_i n' h'
        injection h with h
        injection h with h
        subst h
        obtain ⟨_, _, _, h⟩ := leaf ht h'
        cases h
      · cases h

theorem advance_cons (T : Taken) (p : Nat × Nat) (l : List (Nat × Nat)) : advance T (p :: l) = advance (T.add p.1 p.2) l := rfl

theorem buildR_agrees {E : Env} (hE : E.Fair) (hO : OrderByHash E) : ∀ (f : Nat) (root : Bool), ReadsAs E.S f (buildR E f root) (build E f root)
  | 0, _ => fun _ _ _ _ _ => .inr ⟨_, rfl, rfl⟩
  | f + 1, root => by
    have hr := buildR_agrees hE hO f false
    have hq : MakesQuiet E.S (buildR E f false) := buildR_quiet f false
    intro nm v T hv hT
    have leaf : iterators v = [] → plain v = v → (∀ n, build E (f + 1) root nm v = .ok n → viaTree plain n = n) →
        buildR E (f + 1) root nm v T = (match build E (f + 1) root nm v with | .ok n => .ok (n, T) | .error e => .error e) →
        Rel (fun _ => True) (viaTree plain) (buildR E (f + 1) root nm v T) (build E (f + 1) root nm (plain v)) (advance T (readsOf E.S (f + 1) v)) := by
      intro h1 h2 h3 h4
      rw [reads_quiet _ _ h1, h4, h2]
      cases hb : build E (f + 1) root nm v with
      | ok n => exact .inl ⟨n, rfl, by rw [h3 n hb], trivial⟩
      | error e => exact .inr ⟨e, rfl, rfl⟩
    have vals : ∀ {k t ks vs} {l : List (Key × Val)}, v = .map k t ks vs → l.Sublist (ks.zip vs) →
        (∀ kv ∈ l, ReadOnce E.S kv.2) ∧ (iteratorsAll (l.map (·.2))).Nodup ∧ Untouched T (iteratorsAll (l.map (·.2))) := by
      intro k t ks vs l e hl
      subst e
      have hs := values_sublist hl
      refine ⟨fun kv hkv => hv.value (hs.mem (List.mem_map_of_mem hkv)), hv.once.sublist (iteratorsAll_sublist hs), ?_⟩
      exact fun r hr => hT r ((iteratorsAll_sublist hs).mem hr)
    have sets : ∀ {k t es}, v = .seq k t es → k ≠ .iterator →
        Rel (fun _ => True) (viaTree plain) (buildR E (f + 1) root nm v T) (build E (f + 1) root nm (plain v)) (advance T (readsOf E.S (f + 1) v)) := by
      intro k t es e hk
      subst e
      have hel := elems_of hv (List.Sublist.refl es)
      have hTe : Untouched T (iteratorsAll es) := by cases k <;> first | exact hT | exact absurd rfl hk
      have e1 : plain (.seq k t es) = .seq k t (es.map plain) := by cases k <;> first | exact absurd rfl hk | simp [plain, plains_map]
      have e2 : readsOf E.S (f + 1) (.seq k t es) = (limit E.S.checkMax es).flatMap (readsOf E.S f) := by
        cases k <;> first | rfl | exact absurd rfl hk
      have e3 : buildR E (f + 1) root nm (.seq k t es) T = (if nameOk E.U nm then
          (match (if k = .tuple ∧ E.S.tuple = .fixed then tupleChildrenR E (buildR E f false) nm es T else setChildrenR E (buildR E f false) nm es T) with
          | .ok ((slots, kids), T') => .ok (.mk { kind := .seq k, name := nm, root, ty := t, slots } kids, T')
          | .error e => .error e) else .error (.badName nm)) := by
        cases k <;> first | rfl | exact absurd rfl hk
      rw [e1, e2, e3, build]
      split
      · by_cases hk : k = .tuple ∧ E.S.tuple = .fixed
        · simp only [if_pos hk]
          rcases tupleChildrenR_rel hr hq nm hel hTe with ⟨x, h1, h2, _⟩ | ⟨er, h1, h2⟩
          · rw [h1, h2]
            exact .inl ⟨_, rfl, by simp [viaKids, viaTree, viaKind, viaTrees_map, Val.ty], trivial⟩
          · rw [h1, h2]; exact .inr ⟨er, rfl, rfl⟩
        · simp only [if_neg hk]
          rcases setChildrenR_rel hE hO hr hq nm hel hTe with ⟨x, h1, h2, _⟩ | ⟨er, h1, h2⟩
          · rw [h1, h2]
            exact .inl ⟨_, rfl, by simp [viaKids, viaTree, viaKind, viaTrees_map, Val.ty], trivial⟩
          · rw [h1, h2]; exact .inr ⟨er, rfl, rfl⟩
      · exact .inr ⟨_, rfl, rfl⟩
    cases v with
    | seq k t es =>
      cases k with
      | iterator =>
        obtain ⟨rn, rest, rfl⟩ := hv.numbered.1
        have hn := hv.once
        have i1 : iterNumber (numberMark rn :: rest) = rn := rfl
        have i2 : iterElems (numberMark rn :: rest) = rest := rfl
        have i3 : iteratorsAll (numberMark rn :: rest) = iteratorsAll rest := rfl
        simp only [iterators, i1, i3, List.nodup_cons] at hn
        have h0 : T rn = 0 := hT rn (by simp [iterators, i1])
        have hel := elems_of hv (List.sublist_cons_self (numberMark rn) rest)
        have hTe : Untouched (T.add rn (taken E.S.checkMax rest)) (iteratorsAll rest) :=
          untouched_add (fun r hr => hT r (by simp [iterators, i3, hr])) hn.1
        simp only [buildR, plain, build, readsOf, i1, i2, iterElems_plain, h0, List.drop_zero, advance_cons, reduceCtorEq, false_and, if_false]
        split
        · rcases setChildrenR_rel hE hO hr hq nm hel hTe with ⟨x, h1, h2, _⟩ | ⟨er, h1, h2⟩
          · rw [h1, h2]
            exact .inl ⟨_, rfl, by simp [viaKids, viaTree, viaKind, viaTrees_map, Val.ty], trivial⟩
          · rw [h1, h2]; exact .inr ⟨er, rfl, rfl⟩
        · exact .inr ⟨_, rfl, rfl⟩
      | _ => exact sets rfl (by simp)
    | map k t ks vs =>
      cases k with
      | dict =>
        have hsub : (dictData E.S (ks.zip vs)).Sublist (ks.zip vs) := by
          unfold dictData
          split
          · exact List.Sublist.refl _
          · exact limit_sublist
        obtain ⟨a, b, c⟩ := vals rfl ((List.filter_sublist (p := fun kv => !kv.1.hidden)).trans hsub)
        simp only [buildR, plain, build, readsOf, plains_map, zip_plain, dictData_viaData, mapChildrenR, mapChildren, bind, Except.bind, pure, Except.pure,
          ← viaMeta_ofData]
        rw [← viaData_filter (fun k => !k.hidden)]
        rcases mapKidsR_rel hr nm (keySuffix E.U) _ T a b c with ⟨x, h1, h2, _⟩ | ⟨er, h1, h2⟩
        · rw [h1, h2]
          simp only [shareEqual_via]
          exact .inl ⟨_, rfl, by simp [viaKids, viaTree, viaKind, viaMeta, viaTrees_map, Val.ty], trivial⟩
        · rw [h1, h2]; exact .inr ⟨er, rfl, rfl⟩
      | proxy =>
        obtain ⟨a, b, c⟩ := vals rfl ((List.filter_sublist (p := fun kv => !kv.1.hidden)).trans (limit_sublist (n := E.S.checkMax)))
        simp only [buildR, plain, build, readsOf, plains_map, zip_plain, limit_viaData, mapChildrenR, mapChildren, bind, Except.bind, pure, Except.pure]
        rw [← viaData_filter (fun k => !k.hidden)]
        split
        · rcases mapKidsR_rel hr nm (keySuffix E.U) _ T a b c with ⟨x, h1, h2, _⟩ | ⟨er, h1, h2⟩
          · rw [h1, h2]
            simp only [shareEqual_via]
            exact .inl ⟨_, rfl, by simp [viaKids, viaTree, viaKind, viaTrees_map, Val.ty], trivial⟩
          · rw [h1, h2]; exact .inr ⟨er, rfl, rfl⟩
        · exact .inr ⟨_, rfl, rfl⟩
      | frame i =>
        obtain ⟨a, b, c⟩ := vals rfl (List.Sublist.refl (ks.zip vs))
        simp only [buildR, plain, build, readsOf, plains_map, zip_plain, frameChildrenR, frameChildren, bind, Except.bind, pure, Except.pure]
        split
        · rcases mapKidsR_rel hr nm (labelSuffix E.U) _ T a b c with ⟨x, h1, h2, _⟩ | ⟨er, h1, h2⟩
          · rw [h1, h2]
            exact .inl ⟨_, rfl, by simp [viaItem, viaTree, viaKind, viaTrees_map, Val.ty], trivial⟩
          · rw [h1, h2]; exact .inr ⟨er, rfl, rfl⟩
        · exact .inr ⟨_, rfl, rfl⟩
    | func i =>
      refine leaf rfl rfl ?_ rfl
      intro n h
      simp only [build] at h
      split at h
      · cases h
      · rename_i n' h'
        split at h'
        · split at h
          · cases h
          · injection h' with h'; injection h with h; subst h' h; rfl
        · cases h'
    | _ =>
      refine leaf rfl rfl ?_ rfl
      intro n h
      simp only [build] at h
      split at h
      · injection h with h; subst h; rfl
      · cases h

/-! ### Texts -/

mutual
theorem plain_depth : ∀ v : Val, (plain v).depth ≤ v.depth
  | .seq k t es => by
    have h := plains_depth es
    have h' : depthList (iterElems (plains es)) ≤ depthList (plains es) := depthList_le (fun w hw => depth_le_depthList (mem_iterElems hw))
    cases k <;> simp only [plain, Val.depth] <;> omega
  | .map k t ks vs => by
    have h := plains_depth vs
    simp only [plain, Val.depth]
    omega
  | .inst _ _ | .cls _ _ | .module _ | .io _ | .ndarray _ _ | .func _ => Nat.le_refl _
theorem plains_depth : ∀ l : List Val, depthList (plains l) ≤ depthList l
  | [] => Nat.le_refl _
  | v :: r => by
    have h1 := plain_depth v
    have h2 := plains_depth r
    simp only [plains, depthList]
    omega
end

theorem fromDataR_agrees {E : Env} (hE : E.Fair) (hO : OrderByHash E) (name : Str) {v : Val} (hv : ReadOnce E.S v) {T : Taken}
    (hT : Untouched T (iterators v)) :
    (∃ n, fromDataR E name v T = .ok (n, advance T (readsOf E.S (v.depth + 1) v)) ∧ fromData E name (plain v) = .ok (viaTree plain n)) ∨
      ∃ e, fromDataR E name v T = .error e ∧ fromData E name (plain v) = .error e := by
  unfold fromDataR fromData buildTree
  rw [← build_fuel hE (f := (plain v).depth + 1) (f' := v.depth + 1) (by omega) (by have := plain_depth v; omega)]
  split
  · rcases buildR_agrees hE hO (v.depth + 1) true name v T hv hT with ⟨n, h1, h2, _⟩ | ⟨e, h1, h2⟩
    · rw [h1, h2]; exact .inl ⟨n, rfl, rfl⟩
    · rw [h1, h2]; exact .inr ⟨_, rfl, rfl⟩
  · exact .inr ⟨_, rfl, rfl⟩

/-! ### Which iterators are read -/

theorem flatMap_sublist {α β} {g g' : α → List β} (hg : ∀ a, (g a).Sublist (g' a)) {l l' : List α} (h : l.Sublist l') :
    (l.flatMap g).Sublist (l'.flatMap g') := by
  induction h with
  | slnil => exact .slnil
  | cons a _ ih => exact ih.trans (List.sublist_append_right _ _)
  | cons_cons a _ ih => exact (hg a).append ih

theorem iterElems_sublist (es : List Val) : (iterElems es).Sublist es := by
  unfold iterElems
  split
  · exact List.sublist_cons_self _ _
  · exact List.Sublist.refl _

theorem reads_sublist (S : Strategies) : ∀ (f : Nat) (v : Val), ((readsOf S f v).map (·.1)).Sublist (iterators v)
  | 0, v => by simp [readsOf]
  | f + 1, v => by
    have ih := reads_sublist S f
    have hes : ∀ {es l : List Val}, l.Sublist es → ((l.flatMap (readsOf S f)).map (·.1)).Sublist (iteratorsAll es) := by
      intro es l hl
      rw [List.map_flatMap, iteratorsAll_eq]
      exact flatMap_sublist ih hl
    have hvs : ∀ {ks : List Key} {vs : List Val} {l : List (Key × Val)}, l.Sublist (ks.zip vs) →
        ((l.flatMap (fun kv => readsOf S f kv.2)).map (·.1)).Sublist (iteratorsAll vs) := by
      intro ks vs l hl
      have := hes (values_sublist hl)
      rwa [List.flatMap_map] at this
    cases v with
    | seq k t es =>
      cases k with
      | iterator => exact List.Sublist.cons_cons _ (hes (limit_sublist.trans (iterElems_sublist es)))
      | _ => exact hes limit_sublist
    | map k t ks vs =>
      cases k with
      | dict =>
        refine hvs (ks := ks) (List.filter_sublist.trans ?_)
        unfold dictData
        split
        · exact List.Sublist.refl _
        · exact limit_sublist
      | proxy => exact hvs (ks := ks) (List.filter_sublist.trans limit_sublist)
      | frame i => exact hvs (ks := ks) (List.Sublist.refl _)
    | _ => exact List.nil_sublist _

theorem advance_mem {r c : Nat} : ∀ (l : List (Nat × Nat)) (T : Taken), (l.map (·.1)).Nodup → (r, c) ∈ l → advance T l r = T r + c
  | [], _, _, h => by cases h
  | p :: l, T, hn, h => by
    simp only [List.map_cons, List.nodup_cons] at hn
    rw [advance_cons]
    rcases List.mem_cons.mp h with rfl | h
    · rw [advance_other l _ hn.1]
      simp [Taken.add]
    · rw [advance_mem l _ hn.2 h]
      have : r ≠ p.1 := fun e => hn.1 (e ▸ List.mem_map_of_mem (f := (·.1)) h)
      simp [Taken.add, this]

/-- What is taken from an iterator with the given elements behind its number. -/
def readOf (S : Strategies) (es : List Val) : Nat × Nat := (iterNumber es, taken S.checkMax (iterElems es))

theorem mem_reads (S : Strategies) : ∀ (f : Nat) (v : Val), v.depth < f → ∀ p, p ∈ readsOf S f v ↔ ∃ t es, Visited S (.seq .iterator t es) v ∧ p = readOf S es
  | 0, _, h => by omega
  | f + 1, v, h => by
    intro p
    have ih := mem_reads S f
    have hes : ∀ {es l : List Val}, depthList es < f → (∀ e ∈ l, e ∈ es) →
        (p ∈ l.flatMap (readsOf S f) ↔ ∃ t es', (∃ e ∈ l, Visited S (.seq .iterator t es') e) ∧ p = readOf S es') := by
      intro es l hd hl
      constructor
      · intro hp
        obtain ⟨e, he, hpe⟩ := List.mem_flatMap.mp hp
        obtain ⟨t, es', h1, h2⟩ := (ih e (by have := depth_le_depthList (hl e he); omega) p).mp hpe
        exact ⟨t, es', ⟨e, he, h1⟩, h2⟩
      · rintro ⟨t, es', ⟨e, he, h1⟩, h2⟩
        exact List.mem_flatMap.mpr ⟨e, he, (ih e (by have := depth_le_depthList (hl e he); omega) p).mpr ⟨t, es', h1, h2⟩⟩
    have hvs : ∀ {ks : List Key} {vs : List Val} {l : List (Key × Val)}, depthList vs < f → (∀ e ∈ l, e ∈ ks.zip vs) →
        (p ∈ l.flatMap (fun kv => readsOf S f kv.2) ↔ ∃ t es', (∃ e ∈ l, Visited S (.seq .iterator t es') e.2) ∧ p = readOf S es') := by
      intro ks vs l hd hl
      have := hes (l := l.map (·.2)) hd (fun e he => by
        obtain ⟨kv, hkv, rfl⟩ := List.mem_map.mp he
        exact (List.of_mem_zip (hl kv hkv)).2)
      rw [List.flatMap_map] at this
      rw [this]
      simp only [List.mem_map]
      constructor
      · rintro ⟨t, es', ⟨e, ⟨kv, hkv, rfl⟩, h1⟩, h2⟩
        exact ⟨t, es', ⟨kv, hkv, h1⟩, h2⟩
      · rintro ⟨t, es', ⟨kv, hkv, h1⟩, h2⟩
        exact ⟨t, es', ⟨_, ⟨kv, hkv, rfl⟩, h1⟩, h2⟩
    cases v with
    | seq k t es =>
      have hd : depthList es < f := by simp only [Val.depth] at h; omega
      have other : k ≠ .iterator → (p ∈ (limit S.checkMax es).flatMap (readsOf S f) ↔ ∃ t' es', Visited S (.seq .iterator t' es') (.seq k t es) ∧ p = readOf S es') := by
        intro hk
        rw [hes hd (fun e he => limit_subset he)]
        constructor
        · rintro ⟨t', es', ⟨e, he, h1⟩, h2⟩
          exact ⟨t', es', .element hk he h1, h2⟩
        · rintro ⟨t', es', h1, h2⟩
          cases h1 with
          | here => exact absurd rfl hk
          | yielded _ _ => exact absurd rfl hk
          | element _ he h1 => exact ⟨t', es', ⟨_, he, h1⟩, h2⟩
      cases k with
      | iterator =>
        simp only [readsOf, List.mem_cons]
        rw [hes hd (fun e he => mem_iterElems (limit_subset he))]
        constructor
        · rintro (h2 | ⟨t', es', ⟨e, he, h1⟩, h2⟩)
          · exact ⟨t, es, .here, h2⟩
          · exact ⟨t', es', .yielded he h1, h2⟩
        · rintro ⟨t', es', h1, h2⟩
          cases h1 with
          | here => exact .inl h2
          | yielded he h1 => exact .inr ⟨t', es', ⟨_, he, h1⟩, h2⟩
          | element hk _ _ => exact absurd rfl hk
      | _ => exact other (by simp)
    | map k t ks vs =>
      have hd : depthList vs < f := by simp only [Val.depth] at h; omega
      cases k with
      | dict =>
        simp only [readsOf]
        rw [hvs hd (fun e he => dictData_subset (List.mem_filter.mp he).1)]
        constructor
        · rintro ⟨t', es', ⟨e, he, h1⟩, h2⟩
          obtain ⟨he, hh⟩ := List.mem_filter.mp he
          exact ⟨t', es', .value he (by simpa using hh) h1, h2⟩
        · rintro ⟨t', es', h1, h2⟩
          cases h1 with
          | value he hh h1 => exact ⟨t', es', ⟨_, List.mem_filter.mpr ⟨he, by simp [hh]⟩, h1⟩, h2⟩
      | proxy =>
        simp only [readsOf]
        rw [hvs hd (fun e he => limit_subset (List.mem_filter.mp he).1)]
        constructor
        · rintro ⟨t', es', ⟨e, he, h1⟩, h2⟩
          obtain ⟨he, hh⟩ := List.mem_filter.mp he
          exact ⟨t', es', .proxied he (by simpa using hh) h1, h2⟩
        · rintro ⟨t', es', h1, h2⟩
          cases h1 with
          | proxied he hh h1 => exact ⟨t', es', ⟨_, List.mem_filter.mpr ⟨he, by simp [hh]⟩, h1⟩, h2⟩
      | frame i =>
        simp only [readsOf]
        rw [hvs hd (fun e he => he)]
        constructor
        · rintro ⟨t', es', ⟨e, he, h1⟩, h2⟩
          exact ⟨t', es', .column he h1, h2⟩
        · rintro ⟨t', es', h1, h2⟩
          cases h1 with
          | column he h1 => exact ⟨t', es', ⟨_, he, h1⟩, h2⟩
    | _ =>
      simp only [readsOf, List.not_mem_nil, false_iff]
      rintro ⟨_, _, h1, _⟩
      cases h1

theorem visited_numbered {S : Strategies} {w : Val} : ∀ {v : Val}, Visited S w v → ∀ {p : Val → Prop}, Every p v → Every p w := by
  intro v h p
  induction h with
  | here => exact id
  | yielded he _ ih => exact fun hv => ih (everyList_iff.mp hv.2 _ (mem_iterElems (limit_subset he)))
  | element _ he _ ih => exact fun hv => ih (everyList_iff.mp hv.2 _ (limit_subset he))
  | value he _ _ ih => exact fun hv => ih (everyList_iff.mp hv.2 _ (List.of_mem_zip (dictData_subset he)).2)
  | proxied he _ _ ih => exact fun hv => ih (everyList_iff.mp hv.2 _ (List.of_mem_zip (limit_subset he)).2)
  | column he _ ih => exact fun hv => ih (everyList_iff.mp hv.2 _ (List.of_mem_zip he).2)

/-- The state afterwards. -/
theorem advance_reads {S : Strategies} {v : Val} (hv : ReadOnce S v) (T : Taken) :
    (∀ r t es, Visited S (.iter r t es) v → advance T (readsOf S (v.depth + 1) v) r = T r + taken S.checkMax es) ∧
      ∀ r, (∀ t es, ¬ Visited S (.iter r t es) v) → advance T (readsOf S (v.depth + 1) v) r = T r := by
  constructor
  · intro r t es h
    refine advance_mem _ T (hv.once.sublist (reads_sublist S _ v)) ?_
    exact (mem_reads S _ v (Nat.lt_succ_self _) _).mpr ⟨t, _, h, rfl⟩
  · intro r h
    apply advance_other
    intro hm
    obtain ⟨p, hp, rfl⟩ := List.mem_map.mp hm
    obtain ⟨t, es, h1, rfl⟩ := (mem_reads S _ v (Nat.lt_succ_self _) _).mp hp
    obtain ⟨rn, rest, rfl⟩ := (visited_numbered h1 hv.numbered).1
    exact h t rest h1

end Verif
