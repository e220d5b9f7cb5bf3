import Verif.Lemmas.ClearBuild
/-
The trees of clear data: names of siblings cannot be confused.
-/
namespace Verif
open Verif.Spec

theorem foldE_split {α β} {f : β → α → Except Err β} {Q : Err → Prop} (I : List α → β → Prop) {l : List α}
    (step : ∀ pre a post b, l = pre ++ a :: post → I pre b → Ens (f b a) (I (pre ++ [a])) Q) :
    ∀ (pre post : List α) (b : β), l = pre ++ post → I pre b → Ens (foldE f b post) (I l) Q
  | pre, [], b, e, hb => by
    rw [List.append_nil] at e
    rw [e]
    exact hb
  | pre, a :: post, b, e, hb => by
    have h := step pre a post b e hb
    simp only [foldE]
    cases hf : f b a with
    | error e => rw [hf] at h; exact h
    | ok b' =>
      rw [hf] at h
      exact foldE_split I step (pre ++ [a]) post b' (by rw [e]; simp) h

theorem Apart.symm {S : Strategies} : ∀ {v w : Val}, Apart S v w → Apart S w v := by
  intro v w h
  have ok : ∀ {k k' : SeqKind}, otherKind k k' = true → otherKind k' k = true := by
    intro k k'; cases k <;> cases k' <;> decide
  cases v with
  | seq k t es =>
    cases w with
    | seq k' t' es' =>
      rcases h with h | ⟨hc, h⟩
      · exact .inl (ok h)
      · by_cases hk : otherKind k k' = true
        · exact .inl (ok hk)
        · refine .inr ⟨?_, h.symm⟩
          rcases hc with hc | hc
          · refine .inl ?_
            rintro rfl
            apply hk
            revert hc
            cases k <;> decide
          · exact .inr hc
    | map k' t' ks' vs' => cases k' <;> trivial
    | func fi => trivial
    | _ => exact absurd h (by simp [Apart])
  | map k t ks vs =>
    cases w with
    | map k' t' ks' vs' =>
      cases k with
      | dict =>
        cases k' with
        | dict => exact ⟨h.1, fun hh => h.2 (fun k => (hh k).symm)⟩
        | proxy => trivial
        | frame i => trivial
      | proxy =>
        cases k' with
        | dict => trivial
        | proxy => exact absurd h (by simp [Apart])
        | frame i => trivial
      | frame i =>
        cases k' with
        | dict => trivial
        | proxy => trivial
        | frame j => exact absurd h (by simp [Apart])
    | seq k' t' es' => trivial
    | func fi => trivial
    | _ => exact absurd h (by cases k <;> simp [Apart])
  | func fi =>
    cases w with
    | seq k' t' es' => trivial
    | map k' t' ks' vs' => cases k' <;> trivial
    | _ => exact absurd h (by simp [Apart])
  | _ => exact absurd h (by cases w <;> simp [Apart])

/-! ### Clear values -/

/-- What `ClearNames` asks of each value. -/
def ClearHere (S : Strategies) (w : Val) : Prop :=
  WellKeyed S w ∧ KeysApart (family w) ∧
    (Unlike S (family w) ∨ ClassesApart (family w) ∧ ∀ x ∈ family w, Every (fun u => Unlike S (family u)) x.2)

/-- Nothing inside the value may be alike. -/
def AllUnlike (S : Strategies) (v : Val) : Prop := Every (fun u => Unlike S (family u)) v

theorem clearHere_mono {S : Strategies} {v w : Val} (hw : WellKeyed S w) (h : ∀ x ∈ family w, x ∈ family v) (hv : ClearHere S v) :
    ClearHere S w := by
  refine ⟨hw, fun x hx y hy => hv.2.1 x (h x hx) y (h y hy), ?_⟩
  rcases hv.2.2 with hu | ⟨hc, he⟩
  · exact .inl (fun x hx y hy => hu x (h x hx) y (h y hy))
  · exact .inr ⟨fun x hx y hy => hc x (h x hx) y (h y hy), fun x hx => he x (h x hx)⟩

/-- The classes of all parts begin with a letter. -/
def Lettered (v : Val) : Prop := ValAll LetterFirst (fun _ => True) (fun _ => True) v

/-- What construction guarantees for clear values nested less than `f` deep. -/
def RecClear (E : Env) (f : Nat) : Prop :=
  ∀ nm v n, ClearNames E.S v → Lettered v → v.depth < f → build E f false nm v = .ok n →
    NameTree n ∧ (AllUnlike E.S v → Single n)

/-- An entry of a dictionary in the list. -/
def EntryOf (es : List Val) (k : Key) (v : Val) : Prop := ∃ t ks vs, Val.map .dict t ks vs ∈ es ∧ (k, v) ∈ ks.zip vs

theorem entryOf_family {es : List Val} {kd : SeqKind} {t : Ty} {k : Key} {v : Val} (h : EntryOf es k v) (hh : k.hidden = false) :
    (k, v) ∈ family (.seq kd t es) := by
  obtain ⟨t', ks, vs, hm, hz⟩ := h
  simp only [family, List.mem_flatMap]
  exact ⟨_, hm, by simp [entries, hz, hh]⟩

theorem dataOk_build {E : Env} (hE : E.Fair) {f : Nat} {nm : Str} {e : Val} {n : Node} {es : List Val} (he : e ∈ es)
    (h : build E f false nm e = .ok n) (hf : e.depth < f) : DataOk (EntryOf es) (depthList es) n := by
  obtain ⟨_, _, hk, _⟩ := build_facts hE h hf
  intro m hm
  have hd := depth_le_depthList he
  cases n with
  | mk hd' kids =>
    have hk : hd'.kind = kindOf E.S e := hk
    cases e with
    | map k t ks vs =>
      cases k with
      | dict =>
        simp only [nodeMeta, hk, kindOf, Option.some.injEq] at hm
        subst hm
        have hall : ∀ kv ∈ dictData E.S (ks.zip vs), EntryOf es kv.1 kv.2 ∧ kv.2.depth + 1 ≤ depthList es := by
          intro kv hkv
          have hkv := dictData_subset hkv
          refine ⟨⟨t, ks, vs, he, hkv⟩, ?_⟩
          have := zip_depth hkv
          simp only [Val.depth] at hd
          omega
        refine ⟨by simp only [Val.depth] at hd; omega, ?_, hall⟩
        simpa only [nodeData, hk, kindOf] using hall
      | _ => simp [nodeMeta, hk, kindOf] at hm
    | _ => simp [nodeMeta, hk, kindOf] at hm

theorem mergeDicts_ok {rec : Str → Val → Except Err Node} {ds : List Node} {m : Node} (h : mergeDicts rec ds = .ok m) :
    ∃ d ∈ ds, ∃ hd kids info, rec d.name (.dict (ds.foldl (fun acc n => updateDict acc (nodeData n)) [])) = .ok (.mk hd kids) ∧
      m = .mk { hd with kind := .dict (ds.foldl (fun acc n => updateDict acc (nodeData n)) []) info } kids := by
  cases ds with
  | nil => cases h
  | cons d ds =>
    have hname : ∃ d' ∈ d :: ds, ds.foldl (fun acc n => minStr acc n.name) d.name = d'.name := by
      rcases foldl_minStr_mem (ns := ds) (s := d.name) with h | ⟨n, hn, h⟩
      · exact ⟨d, by simp, h⟩
      · exact ⟨n, by simp [hn], h⟩
    obtain ⟨d', hd', hname⟩ := hname
    unfold mergeDicts at h
    dsimp only at h
    simp only [bind, Except.bind] at h
    split at h
    · cases h
    · rename_i n hn
      split at h
      rename_i hd kids
      injection h with h
      exact ⟨d', hd', hd, kids, _, by rw [← hname]; exact hn, h.symm⟩

theorem zip_fst_snd {α β} : ∀ (l : List (α × β)), (l.map (·.1)).zip (l.map (·.2)) = l
  | [] => rfl
  | x :: r => by simp [zip_fst_snd r]

/-- Merged dictionaries are clear. -/
theorem merged_clear {E : Env} {f : Nat} (ih : RecClear E f) {kd : SeqKind} {t : Ty} {es : List Val}
    (hv : ClearNames E.S (.seq kd t es)) (hl : Lettered (.seq kd t es)) (hd : depthList es < f) {ds : List Node}
    (hds : ∀ d ∈ ds, DataOk (EntryOf es) (depthList es) d ∧ isTypedDict E.S d = true) {m : Node}
    (h : mergeDicts (build E f false) ds = .ok m) (hE : E.Fair) :
    (∃ d ∈ ds, m.name = d.name) ∧ NameTree m ∧ (AllUnlike E.S (.seq kd t es) → Single m) := by
  obtain ⟨d, hdm, hd', kids, info, hb, rfl⟩ := mergeDicts_ok h
  have hD : 1 ≤ depthList es := by
    obtain ⟨m', hm'⟩ := Option.isSome_iff_exists.mp (nodeMeta_of_isTypedDict (hds d hdm).2)
    exact ((hds d hdm).1 m' hm').1
  have hdata : ∀ kv ∈ ds.foldl (fun acc n => updateDict acc (nodeData n)) [], EntryOf es kv.1 kv.2 ∧ kv.2.depth + 1 ≤ depthList es := by
    intro kv hkv
    rcases mem_foldl_updateDict hkv with h | ⟨n, hn, h⟩
    · simp at h
    · obtain ⟨m', hm'⟩ := Option.isSome_iff_exists.mp (nodeMeta_of_isTypedDict (hds n hn).2)
      exact ((hds n hn).1 m' hm').2.1 kv h
  have hnd := foldl_updateDict_nodup (ns := ds) (d := []) (by simp)
  revert hb hdata hnd
  generalize hg : ds.foldl (fun acc n => updateDict acc (nodeData n)) [] = data
  intro hb hdata hnd
  have hes : ∀ e ∈ es, Every (ClearHere E.S) e := everyList_iff.mp hv.2
  have hls : ∀ e ∈ es, Lettered e := valAllList_iff.mp hl.2
  have hfam : ∀ x ∈ family (.dict data), x ∈ family (.seq kd t es) := by
    intro x hx
    simp only [Val.dict, family, entries, zip_fst_snd, List.mem_filter] at hx
    exact entryOf_family (hdata x hx.1).1 (by simpa using hx.2)
  have hkey : ∀ k ∈ data.map (·.1), k.hidden = true ∨ AlphaKey k := by
    intro k hk
    obtain ⟨kv, hkv, rfl⟩ := List.mem_map.mp hk
    obtain ⟨t', ks, vs, hm, hz⟩ := (hdata kv hkv).1
    have := (every_self (hes _ hm)).1.2.2
    exact this kv.1 (List.of_mem_zip hz).1
  have hwk : WellKeyed E.S (.dict data) := ⟨hnd, by simp, hkey⟩
  have hval : ∀ x ∈ data.map (·.2), ∃ t' ks vs, Val.map .dict t' ks vs ∈ es ∧ x ∈ vs := by
    intro x hx
    obtain ⟨kv, hkv, rfl⟩ := List.mem_map.mp hx
    obtain ⟨t', ks, vs, hm, hz⟩ := (hdata kv hkv).1
    exact ⟨t', ks, vs, hm, (List.of_mem_zip hz).2⟩
  have hclear : ClearNames E.S (.dict data) := by
    refine ⟨clearHere_mono hwk hfam hv.1, everyList_iff.mpr ?_⟩
    intro x hx
    obtain ⟨t', ks, vs, hm, hx⟩ := hval x hx
    exact everyList_iff.mp (hes _ hm).2 x hx
  have hlet : Lettered (.dict data) := by
    refine valAll_dict ⟨'d', py!"ict", rfl, by decide, by decide⟩ ?_
    intro kv hkv
    obtain ⟨t', ks, vs, hm, hz⟩ := (hdata kv hkv).1
    exact ⟨trivial, valAllList_iff.mp (hls _ hm).2.2 _ (List.of_mem_zip hz).2⟩
  have hdep : (Val.dict data).depth < f := by
    have := depth_dict hD (fun kv hkv => (hdata kv hkv).2)
    omega
  obtain ⟨h1, h2⟩ := ih _ _ _ hclear hlet hdep hb
  obtain ⟨n1, _⟩ := build_facts hE hb hdep
  refine ⟨⟨d, hdm, n1⟩, h1, ?_⟩
  intro hu
  refine h2 ⟨fun x hx y hy => hu.1 x (hfam x hx) y (hfam y hy), everyList_iff.mpr ?_⟩
  intro x hx
  obtain ⟨t', ks, vs, hm, hx⟩ := hval x hx
  exact everyList_iff.mp (everyList_iff.mp hu.2 _ hm).2 x hx

/-! ### Children of sequences -/

theorem nameTree_updateNode {k c : Node} : (NameTree k → NameTree (updateNode k c)) ∧ (Single k → Single (updateNode k c)) := by
  cases k with
  | mk h1 k1 =>
    cases c with
    | mk h2 k2 =>
      simp only [updateNode]
      split
      · exact ⟨fun h => h, fun h => h⟩
      · exact ⟨fun h => h, fun h => h⟩

theorem token_fresh {E : Env} {name : Str} {names : List Str} {v : Val} (h : LetterFirst v.ty) :
    ∃ t, Token t ∧ freshName (name ++ E.U.capitalize v.ty.name) names = name ++ t := by
  rcases freshName_spec (name ++ E.U.capitalize v.ty.name) names with e | ⟨j, e⟩
  · refine ⟨_, token_capitalize (U := E.U) h (s := []) (by simp), ?_⟩
    rw [e, List.append_nil]
  · refine ⟨_, token_capitalize (U := E.U) h (s := natStr j) (fun _ => isDigit_of_mem_natStr), ?_⟩
    rw [e, List.append_assoc]

/-- Children with different names that extend the name of the parent by one word. -/
theorem separate_tokens {name : Str} {a b : Node} (ha : ∃ t, Token t ∧ a.name = name ++ t) (hb : ∃ t, Token t ∧ b.name = name ++ t)
    (h : a.name ≠ b.name) : Separate a.name b.name := by
  obtain ⟨t, ht, e⟩ := ha
  obtain ⟨t', ht', e'⟩ := hb
  rw [e, e', separate_append]
  refine ht.separate ht' ?_
  rintro rfl
  exact h (by rw [e, e'])

/-- What is known of a child of a sequence. -/
structure ElemOk (E : Env) (name : Str) (v : Val) (es : List Val) (k : Node) : Prop where
  word : ∃ t, Token t ∧ k.name = name ++ t
  tree : NameTree k
  single : AllUnlike E.S v → Single k
  data : DataOk (EntryOf es) (depthList es) k

theorem setChildren_clear {E : Env} (hE : E.Fair) (hm : 0 < E.S.merge) {f : Nat} (ih : RecClear E f) {kd : SeqKind} {t : Ty}
    {es : List Val} {name : Str} (hv : ClearNames E.S (.seq kd t es)) (hl : Lettered (.seq kd t es)) (hd : depthList es < f)
    {r : List Slot × List Node} (h : setChildren E (build E f false) name es = .ok r) :
    (∀ a ∈ r.2, ∀ b ∈ r.2, a = b ∨ Separate a.name b.name) ∧ (∀ k ∈ r.2, ∃ t, Token t ∧ k.name = name ++ t) ∧
    (∀ k ∈ r.2, NameTree k) ∧ (AllUnlike E.S (.seq kd t es) → ∀ k ∈ r.2, Single k) ∧ r.1 = r.2.map (fun _ => Slot.seq 1) := by
  have hes := everyList_iff.mp hv.2
  have hls := valAllList_iff.mp hl.2
  have hdp : ∀ e ∈ es, e.depth < f := by
    intro e he
    have := depth_le_depthList he
    omega
  let I : List Node × List Str → Prop := fun acc => acc.1.map (·.name) = acc.2 ∧ acc.2.Nodup ∧
    ∀ k ∈ acc.1, ElemOk E name (.seq kd t es) es k
  have hstep : ∀ b, ∀ a ∈ limit E.S.checkMax es, I b → Ens (setStep E (build E f false) name b a) I (fun _ => True) := by
    rintro ⟨ns, names⟩ a ha ⟨h1, h2, h3⟩
    have ha := limit_subset ha
    show Ens (Except.bind (build E f false (freshName (name ++ E.U.capitalize a.ty.name) names) a) _) _ _
    cases hb : build E f false (freshName (name ++ E.U.capitalize a.ty.name) names) a with
    | error e => trivial
    | ok c =>
      obtain ⟨e1, _⟩ := build_facts hE hb (hdp a ha)
      obtain ⟨c1, c2⟩ := ih _ _ _ (hes a ha) (hls a ha) (hdp a ha) hb
      have hc : ElemOk E name (.seq kd t es) es c := by
        refine ⟨?_, c1, fun hu => c2 (everyList_iff.mp hu.2 a ha), dataOk_build hE ha hb (hdp a ha)⟩
        rw [e1]
        exact token_fresh (valAll_ty (hls a ha))
      simp only [Except.bind, pure, Except.pure]
      split
      · split
        · refine ⟨?_, h2, ?_⟩
          · dsimp only at h1 ⊢
            rw [← h1, List.map_map]
            refine List.map_congr_left (fun k _ => ?_)
            simp only [Function.comp]
            split
            · exact name_updateNode
            · rfl
          · intro k hk
            obtain ⟨k0, hk0, rfl⟩ := List.mem_map.mp hk
            have h0 := h3 k0 hk0
            split
            · exact ⟨by rw [name_updateNode]; exact h0.word, nameTree_updateNode.1 h0.tree,
                fun hu => nameTree_updateNode.2 (h0.single hu), h0.data.updateNode hc.data⟩
            · exact h0
        · exact ⟨h1, h2, h3⟩
      · refine ⟨by simp [h1, e1], ?_, ?_⟩
        · dsimp only
          rw [List.nodup_append]
          refine ⟨h2, by simp, ?_⟩
          intro x hx y hy
          simp only [List.mem_singleton] at hy
          subst hy
          rintro rfl
          exact Props.fresh_name_unused _ _ hx
        · intro k hk
          rcases List.mem_append.mp hk with hk | hk
          · exact h3 k hk
          · simp only [List.mem_singleton] at hk
            subst hk
            exact hc
  have hfold := foldE_ens (l := limit E.S.checkMax es) (b := ([], [])) (I := I) (Q := fun _ => True)
    ⟨rfl, by simp, by simp⟩ hstep
  unfold setChildren at h
  cases hfe : foldE (setStep E (build E f false) name) ([], []) (limit E.S.checkMax es) with
  | error e => rw [hfe] at h; cases h
  | ok acc =>
    rw [hfe] at h hfold
    obtain ⟨kids, names⟩ := acc
    obtain ⟨h1, h2, h3⟩ := hfold
    dsimp only at h1
    rw [← h1] at h2
    have hp : ∀ i (l : List Node) k, k ∈ E.order i l ↔ k ∈ l := fun i l k => (hE i l).mem_iff
    have pair : ∀ a ∈ kids, ∀ b ∈ kids, a = b ∨ Separate a.name b.name := by
      intro a ha b hb
      by_cases e : a.name = b.name
      · exact .inl (inj_of_nodup h2 ha hb e)
      · exact .inr (separate_tokens (h3 a ha).word (h3 b hb).word e)
    simp only [bind, Except.bind, pure, Except.pure] at h
    split at h
    · split at h
      · cases h
      · rename_i m hmm
        injection h with h
        subst h
        have hds : ∀ d ∈ (E.order 1 kids).filter (isTypedDict E.S), DataOk (EntryOf es) (depthList es) d ∧ isTypedDict E.S d = true := by
          intro d hd
          rw [List.mem_filter, hp] at hd
          exact ⟨(h3 d hd.1).data, hd.2⟩
        obtain ⟨⟨d, hdm, e⟩, m1, m2⟩ := merged_clear ih hv hl hd hds hmm hE
        rw [List.mem_filter, hp] at hdm
        have hmw : ∃ t, Token t ∧ m.name = name ++ t := by
          rw [e]; exact (h3 d hdm.1).word
        have hsep : ∀ k ∈ kids, isTypedDict E.S k = false → Separate m.name k.name := by
          intro k hk hkt
          refine separate_tokens hmw (h3 k hk).word ?_
          intro en
          rw [e] at en
          have := inj_of_nodup h2 hdm.1 hk en
          rw [this, hkt] at hdm
          cases hdm.2
        have cases' : ∀ k, k ∈ E.order 2 (kids.filter (fun k => !isTypedDict E.S k) ++ [m]) →
            (k ∈ kids ∧ isTypedDict E.S k = false) ∨ k = m := by
          intro k hk
          rw [hp, List.mem_append, List.mem_filter] at hk
          rcases hk with hk | hk
          · exact .inl ⟨hk.1, by simpa using hk.2⟩
          · exact .inr (by simpa using hk)
        refine ⟨?_, ?_, ?_, ?_, rfl⟩
        · intro a ha b hb
          rcases cases' a ha with ⟨ha', hat⟩ | ea
          · rcases cases' b hb with ⟨hb', hbt⟩ | eb
            · exact pair a ha' b hb'
            · exact .inr (by rw [eb]; exact Separate.symm (hsep a ha' hat))
          · rcases cases' b hb with ⟨hb', hbt⟩ | eb
            · exact .inr (by rw [ea]; exact hsep b hb' hbt)
            · exact .inl (by rw [ea, eb])
        · intro k hk
          rcases cases' k hk with ⟨hk, _⟩ | rfl
          · exact (h3 k hk).word
          · exact hmw
        · intro k hk
          rcases cases' k hk with ⟨hk, _⟩ | rfl
          · exact (h3 k hk).tree
          · exact m1
        · intro hu k hk
          rcases cases' k hk with ⟨hk, _⟩ | rfl
          · exact (h3 k hk).single hu
          · exact m2 hu
    · injection h with h
      subst h
      exact ⟨fun a ha b hb => pair a ((hp 0 kids a).mp ha) b ((hp 0 kids b).mp hb), fun k hk => (h3 k ((hp 0 kids k).mp hk)).word,
        fun k hk => (h3 k ((hp 0 kids k).mp hk)).tree, fun hu k hk => (h3 k ((hp 0 kids k).mp hk)).single hu, rfl⟩

/-! ### Children of fixed tuples -/

theorem typed_kindOf {S : Strategies} {v : Val} {n : Node} (hk : n.hdr.kind = kindOf S v) (h : isTypedDict S n = true)
    (hw : WellKeyed S v) : IsRecord S v := by
  cases n with
  | mk hd kids =>
    have hk : hd.kind = kindOf S v := hk
    simp only [isTypedDict, hk] at h
    cases v with
    | map k t ks vs =>
      cases k with
      | dict =>
        simp only [kindOf, DMeta.isTyped, Bool.and_eq_true, decide_eq_true_eq] at h
        exact ⟨h.2, fun k hk => alpha_isStr (hw.2.2 k hk)⟩
      | _ => simp [kindOf] at h
    | _ => simp [kindOf] at h

theorem typed_count {S : Strategies} : ∀ {es : List Val} {ns : List Node}, All₂ (fun e n => n.hdr.kind = kindOf S e) es ns →
    (∀ e ∈ es, WellKeyed S e) → es.Pairwise (fun d e => ¬ (IsRecord S d ∧ IsRecord S e)) →
    (ns.filter (isTypedDict S)).length ≤ 1
  | _, _, .nil, _, _ => by simp
  | _, _, .cons (a := e) (b := n) (l₁ := es) (l₂ := ns) hr ht, hw, hp => by
    rw [List.pairwise_cons] at hp
    have ih := typed_count ht (fun e he => hw e (by simp [he])) hp.2
    by_cases h : isTypedDict S n = true
    · rw [List.filter_cons_of_pos h]
      have : ns.filter (isTypedDict S) = [] := by
        rw [List.filter_eq_nil_iff]
        intro k hk hkt
        obtain ⟨e', he', hk'⟩ := ht.mem_right k hk
        exact hp.1 e' he' ⟨typed_kindOf hr h (hw e (by simp)), typed_kindOf hk' hkt (hw e' (by simp [he']))⟩
      rw [this]
      simp
    · rw [List.filter_cons_of_neg h]
      exact ih

theorem findEq_none {S : Strategies} {c : Node} : ∀ {l : List (Node × Str)}, (∀ p ∈ l, nodeEq S c p.1 = false) → findEq S c l = none
  | [], _ => rfl
  | (n, s) :: r, h => by
    have h1 : nodeEq S c n = false := h (n, s) (by simp)
    simp only [findEq, h1, Bool.false_eq_true, if_false]
    exact findEq_none (fun p hp => h p (by simp [hp]))

theorem findEq_eq {S : Strategies} {c : Node} {s : Str} : ∀ {l : List (Node × Str)}, findEq S c l = some s →
    ∃ p ∈ l, nodeEq S c p.1 = true
  | [], h => by cases h
  | (n, s') :: r, h => by
    simp only [findEq] at h
    split at h
    · rename_i he
      exact ⟨(n, s'), by simp, he⟩
    · obtain ⟨p, hp, he⟩ := findEq_eq h
      exact ⟨p, by simp [hp], he⟩

/-- State of the loop over the elements of a fixed tuple. -/
structure TupleInv (E : Env) (f : Nat) (name : Str) (v : Val) (es done : List Val) (acc : List Node × List (Node × Str)) : Prop where
  names : (acc.2.map (·.2)).Nodup
  old : ∀ p ∈ acc.2, p.2 = p.1.name ∧ (∃ t, Token t ∧ p.1.name = name ++ t) ∧
    ∃ nm, ∃ e ∈ done, build E f false nm e = .ok p.1
  kids : ∀ k ∈ acc.1, PlainNode k ∨ (k, k.name) ∈ acc.2
  tree : ∀ k ∈ acc.1, NameTree k ∧ (AllUnlike E.S v → Single k) ∧ DataOk (EntryOf es) (depthList es) k
  kinds : All₂ (fun e n => n.hdr.kind = kindOf E.S e) done acc.1

theorem tupleFold_clear {E : Env} (hE : E.Fair) {f : Nat} (ih : RecClear E f) {t : Ty} {es : List Val} {name : Str}
    (hv : ClearNames E.S (.seq .tuple t es)) (hl : Lettered (.seq .tuple t es)) (hd : depthList es < f)
    (hS : E.S.tuple = .fixed) :
    Ens (foldE (tupleStep E (build E f false) name) ([], []) (limit E.S.checkMax es))
      (TupleInv E f name (.seq .tuple t es) es (limit E.S.checkMax es)) (fun _ => True) := by
  have hes := everyList_iff.mp hv.2
  have hls := valAllList_iff.mp hl.2
  have hdp : ∀ e ∈ es, e.depth < f := by
    intro e he
    have := depth_le_depthList he
    omega
  have hap : ((limit E.S.checkMax es).filter rich).Pairwise (Apart E.S) :=
    ((hv.1.1 hS).1).sublist (limit_sublist.filter _)
  refine foldE_split (TupleInv E f name (.seq .tuple t es) es) ?_ [] _ _ rfl ⟨by simp, by simp, by simp, by simp, .nil⟩
  rintro pre a post ⟨ns, names⟩ el hI
  have hsub : ∀ e ∈ pre ++ [a], e ∈ es := by
    intro e he
    refine limit_subset (n := E.S.checkMax) ?_
    rw [el]
    rcases List.mem_append.mp he with he | he
    · simp [he]
    · simp only [List.mem_singleton] at he
      subst he
      simp
  have ha : a ∈ es := hsub a (by simp)
  show Ens (Except.bind (build E f false (freshName (name ++ E.U.capitalize a.ty.name) (names.map (·.2))) a) _) _ _
  cases hb : build E f false (freshName (name ++ E.U.capitalize a.ty.name) (names.map (·.2))) a with
  | error e => trivial
  | ok c =>
    obtain ⟨e1, _, e3, _⟩ := build_facts hE hb (hdp a ha)
    obtain ⟨c1, c2⟩ := ih _ _ _ (hes a ha) (hls a ha) (hdp a ha) hb
    have hu : AllUnlike E.S (.seq .tuple t es) → Single c := fun hu => c2 (everyList_iff.mp hu.2 a ha)
    have hdat := dataOk_build hE ha hb (hdp a ha)
    have oldOk : ∀ p ∈ names, p.2 = p.1.name ∧ (∃ t, Token t ∧ p.1.name = name ++ t) ∧
        ∃ nm, ∃ e ∈ pre ++ [a], build E f false nm e = .ok p.1 := by
      intro p hp
      obtain ⟨h1, h2, nm, e, he, h3⟩ := hI.old p hp
      exact ⟨h1, h2, nm, e, by simp [he], h3⟩
    simp only [Except.bind, pure, Except.pure]
    cases hfe : findEq E.S c names with
    | some old =>
      have hp : PlainNode c := by
        cases hr : rich a with
        | false => exact plainNode_build hE hr hb (hdp a ha)
        | true =>
          exfalso
          obtain ⟨p, hp, he⟩ := findEq_eq hfe
          obtain ⟨_, _, nm, e, he', hbe⟩ := hI.old p hp
          have hee : e ∈ es := hsub e (by simp [he'])
          obtain ⟨_, _, k3, _⟩ := build_facts hE hbe (hdp e hee)
          have hre : rich e = true := by
            have := nodeEq_plain he
            rw [e3, k3, plainKind_kindOf, plainKind_kindOf, hr] at this
            simpa using this.symm
          have hapart : Apart E.S e a := by
            rw [el, List.filter_append, List.pairwise_append] at hap
            refine hap.2.2 e (List.mem_filter.mpr ⟨he', hre⟩) a ?_
            rw [List.filter_cons_of_pos hr]
            simp
          have := apart_nodeEq hE (Apart.symm hapart) (every_self (hes a ha)).1 (every_self (hes e hee)).1 hb hbe (hdp a ha) (hdp e hee)
          rw [this] at he
          cases he
      refine ⟨hI.names, oldOk, ?_, ?_, ?_⟩
      · intro k hk
        rcases List.mem_append.mp hk with hk | hk
        · exact hI.kids k hk
        · simp only [List.mem_singleton] at hk
          subst hk
          exact .inl hp.rename
      · intro k hk
        rcases List.mem_append.mp hk with hk | hk
        · exact hI.tree k hk
        · simp only [List.mem_singleton] at hk
          subst hk
          refine ⟨?_, fun h => (nameTree_rename c (Nat.le_refl _) c1 (hu h)).2, hdat.rename⟩
          have := hp.rename (new := old) (len := c.name.length) (c := 1)
          unfold Node.rename
          cases hq : c.renameAux old c.name.length 1 with
          | mk hd ks =>
            rw [hq] at this
            have e : ks = [] := this.2.2
            subst e
            simp [NameTree, NameTrees]
      · refine hI.kinds.append (.cons ?_ .nil)
        rw [kind_rename]
        exact e3
    | none =>
      have hw := token_fresh (E := E) (name := name) (names := names.map (·.2)) (valAll_ty (hls a ha))
      refine ⟨?_, ?_, ?_, ?_, ?_⟩
      · dsimp only
        rw [List.map_append, List.nodup_append]
        refine ⟨hI.names, by simp, ?_⟩
        intro x hx y hy
        simp only [List.map_cons, List.map_nil, List.mem_singleton] at hy
        subst hy
        rintro rfl
        rw [e1] at hx
        exact Props.fresh_name_unused _ _ hx
      · intro p hp
        rcases List.mem_append.mp hp with hp | hp
        · exact oldOk p hp
        · simp only [List.mem_singleton] at hp
          subst hp
          refine ⟨rfl, ?_, _, a, by simp, hb⟩
          dsimp only
          rw [e1]
          exact hw
      · intro k hk
        rcases List.mem_append.mp hk with hk | hk
        · rcases hI.kids k hk with h | h
          · exact .inl h
          · exact .inr (List.mem_append_left _ h)
        · simp only [List.mem_singleton] at hk
          subst hk
          exact .inr (by simp)
      · intro k hk
        rcases List.mem_append.mp hk with hk | hk
        · exact hI.tree k hk
        · simp only [List.mem_singleton] at hk
          subst hk
          exact ⟨c1, hu, hdat⟩
      · exact hI.kinds.append (.cons e3 .nil)

theorem tupleChildren_clear {E : Env} (hE : E.Fair) {f : Nat} (ih : RecClear E f) {t : Ty}
    {es : List Val} {name : Str} (hv : ClearNames E.S (.seq .tuple t es)) (hl : Lettered (.seq .tuple t es)) (hd : depthList es < f)
    (hS : E.S.tuple = .fixed) {r : List Slot × List Node} (h : tupleChildren E (build E f false) name es = .ok r) :
    (∀ a ∈ r.2, ∀ b ∈ r.2, PlainNode a ∨ PlainNode b ∨ a = b ∨ Separate a.name b.name) ∧
    (∀ k ∈ r.2, PlainNode k ∨ ∃ t, Token t ∧ k.name = name ++ t) ∧
    (∀ k ∈ r.2, NameTree k) ∧ (AllUnlike E.S (.seq .tuple t es) → ∀ k ∈ r.2, Single k) ∧ r.1 = r.2.map (fun _ => Slot.seq 1) := by
  have hes := everyList_iff.mp hv.2
  have hfold := tupleFold_clear hE ih (name := name) hv hl hd hS
  unfold tupleChildren at h
  cases hfe : foldE (tupleStep E (build E f false) name) ([], []) (limit E.S.checkMax es) with
  | error e => rw [hfe] at h; cases h
  | ok acc =>
    rw [hfe] at h hfold
    obtain ⟨kids, names⟩ := acc
    obtain ⟨i1, i2, i3, i4, i5⟩ := (hfold : TupleInv _ _ _ _ _ _ _)
    dsimp only at i1 i2 i3 i4 i5
    have pair : ∀ a ∈ kids, ∀ b ∈ kids, PlainNode a ∨ PlainNode b ∨ a = b ∨ (a.name ≠ b.name ∧ Separate a.name b.name) := by
      intro a ha b hb
      rcases i3 a ha with h | ha
      · exact .inl h
      rcases i3 b hb with h | hb
      · exact .inr (.inl h)
      by_cases e : a.name = b.name
      · refine .inr (.inr (.inl ?_))
        have := inj_of_nodup i1 ha hb e
        injection this
      · exact .inr (.inr (.inr ⟨e, separate_tokens (i2 _ ha).2.1 (i2 _ hb).2.1 e⟩))
    have word : ∀ k ∈ kids, PlainNode k ∨ ∃ t, Token t ∧ k.name = name ++ t := by
      intro k hk
      rcases i3 k hk with h | h
      · exact .inl h
      · exact .inr (i2 _ h).2.1
    have hone : (kids.filter (isTypedDict E.S)).length ≤ 1 := by
      refine typed_count i5 (fun e he => (every_self (hes e (limit_subset he))).1) ?_
      exact List.Pairwise.sublist limit_sublist (hv.1.1 hS).2
    simp only [bind, Except.bind, pure, Except.pure] at h
    split at h
    · split at h
      · cases h
      · rename_i m hmm
        injection h with h
        subst h
        have hds : ∀ d ∈ kids.filter (isTypedDict E.S), DataOk (EntryOf es) (depthList es) d ∧ isTypedDict E.S d = true := by
          intro d hd
          rw [List.mem_filter] at hd
          exact ⟨(i4 d hd.1).2.2, hd.2⟩
        obtain ⟨⟨d, hdm, e⟩, m1, m2⟩ := merged_clear ih hv hl hd hds hmm hE
        have only : ∀ k ∈ kids, isTypedDict E.S k = true → k = d := by
          intro k hk hkt
          have hkm : k ∈ kids.filter (isTypedDict E.S) := List.mem_filter.mpr ⟨hk, hkt⟩
          cases hf : kids.filter (isTypedDict E.S) with
          | nil => rw [hf] at hkm; cases hkm
          | cons x l =>
            rw [hf] at hkm hdm hone
            have : l = [] := by
              cases l with
              | nil => rfl
              | cons _ _ => simp at hone
            subst this
            simp only [List.mem_singleton] at hkm hdm
            rw [hkm, hdm]
        rw [List.mem_filter] at hdm
        have dnp : ¬ PlainNode d := by
          rintro ⟨hp, _⟩
          have := typed_hash hdm.2
          cases hdd : d with
          | mk hh kk =>
            rw [hdd] at hp hdm
            have hp : plainKind hh.kind = true := hp
            have ht : isTypedDict E.S (.mk hh kk) = true := hdm.2
            simp only [isTypedDict] at ht
            split at ht
            · rename_i e
              first
                | (rw [e] at hp; cases hp)
                | (simp_all [plainKind])
            · cases ht
        have cases' : ∀ k ∈ kids.map (fun k => if isTypedDict E.S k = true then m else k),
            (k ∈ kids ∧ isTypedDict E.S k = false) ∨ k = m := by
          intro k hk
          obtain ⟨k0, hk0, rfl⟩ := List.mem_map.mp hk
          by_cases ht : isTypedDict E.S k0 = true
          · rw [if_pos ht]; exact .inr rfl
          · rw [if_neg ht]; exact .inl ⟨hk0, by simpa using ht⟩
        have hsep : ∀ k ∈ kids, isTypedDict E.S k = false → PlainNode k ∨ Separate m.name k.name := by
          intro k hk hkt
          rcases pair d hdm.1 k hk with h | h | h | h
          · exact absurd h dnp
          · exact .inl h
          · rw [h, hkt] at hdm; cases hdm.2
          · exact .inr (by rw [e]; exact h.2)
        refine ⟨?_, ?_, ?_, ?_, ?_⟩
        · intro a ha b hb
          rcases cases' a ha with ⟨ha', hat⟩ | ea
          · rcases cases' b hb with ⟨hb', hbt⟩ | eb
            · rcases pair a ha' b hb' with h | h | h | h
              · exact .inl h
              · exact .inr (.inl h)
              · exact .inr (.inr (.inl h))
              · exact .inr (.inr (.inr h.2))
            · rcases hsep a ha' hat with h | h
              · exact .inl h
              · exact .inr (.inr (.inr (by rw [eb]; exact Separate.symm h)))
          · rcases cases' b hb with ⟨hb', hbt⟩ | eb
            · rcases hsep b hb' hbt with h | h
              · exact .inr (.inl h)
              · exact .inr (.inr (.inr (by rw [ea]; exact h)))
            · exact .inr (.inr (.inl (by rw [ea, eb])))
        · intro k hk
          rcases cases' k hk with ⟨hk, _⟩ | rfl
          · exact word k hk
          · rcases word d hdm.1 with h | h
            · exact absurd h dnp
            · exact .inr (by rw [e]; exact h)
        · intro k hk
          rcases cases' k hk with ⟨hk, _⟩ | rfl
          · exact (i4 k hk).1
          · exact m1
        · intro hu k hk
          rcases cases' k hk with ⟨hk, _⟩ | rfl
          · exact (i4 k hk).2.1 hu
          · exact m2 hu
        · dsimp only
          rw [List.map_map]
          refine List.map_congr_left (fun k hk => ?_)
          simp only [Function.comp]
          by_cases ht : isTypedDict E.S k = true
          · rw [if_pos ht]
            have : 0 < (kids.filter (isTypedDict E.S)).length := List.length_pos_of_mem (List.mem_filter.mpr ⟨hk, ht⟩)
            rw [show (kids.filter (isTypedDict E.S)).length = 1 by omega]
          · rw [if_neg ht]
    · injection h with h
      subst h
      refine ⟨?_, word, fun k hk => (i4 k hk).1, fun hu k hk => (i4 k hk).2.1 hu, rfl⟩
      intro a ha b hb
      rcases pair a ha b hb with h | h | h | h
      · exact .inl h
      · exact .inr (.inl h)
      · exact .inr (.inr (.inl h))
      · exact .inr (.inr (.inr h.2))

/-! ### Construction -/

theorem seq_single {name : Str} {kd : NKind} {root : Bool} {t : Ty} {r : List Slot × List Node}
    (h : r.1 = r.2.map (fun _ => Slot.seq 1)) (hs : ∀ k ∈ r.2, Single k) : Single (.mk ⟨kd, name, root, t, r.1⟩ r.2) := by
  refine ⟨by simp [h], ?_, singles_iff.mpr hs⟩
  intro sk hsk
  have := (List.of_mem_zip hsk).1
  rw [show (Hdr.mk kd name root t r.1).slots = r.1 from rfl, h] at this
  obtain ⟨_, _, e⟩ := List.mem_map.mp this
  rw [← e]
  exact .inl rfl

theorem labelSuffix_letter {U : Uni} {k : Key} (h : AlphaKey k) : labelSuffix U k = keyName k := by
  obtain ⟨h1, c, r, h2, _⟩ := keySuffix_letter (U := U) h
  cases k with
  | none => exact absurd h (by simp [AlphaKey])
  | other t r => exact absurd h (by simp [AlphaKey])
  | str s =>
    have h1 : toCamel U s = keyName (.str s) := h1
    simp only [labelSuffix, labelStr, h1]
    rw [h2]
    rfl

theorem zip_fst_sublist {α β} : ∀ (l : List α) (r : List β), ((l.zip r).map (·.1)).Sublist l
  | [], _ => by simp
  | _ :: _, [] => by simp
  | a :: l, b :: r => by simpa using zip_fst_sublist l r

/-- The names of the columns of a clear frame. -/
theorem frame_clear {E : Env} (hE : E.Fair) {f : Nat} (ih : RecClear E f) {i : FrameInfo} {t : Ty} {ks : List Key} {vs : List Val}
    {name : Str} (hv : ClearNames E.S (.map (.frame i) t ks vs)) (hl : Lettered (.map (.frame i) t ks vs))
    (hd : depthList vs < f) {kids : List (Key × Node)}
    (h : mapKids (build E f false) name (labelSuffix E.U) (ks.zip vs) = .ok kids) {root : Bool} :
    NameTree (.mk ⟨.frame i, name, root, t, kids.map (fun kn => ⟨kn.1, 1⟩)⟩ (kids.map (·.2))) ∧
    (AllUnlike E.S (.map (.frame i) t ks vs) → Single (.mk ⟨.frame i, name, root, t, kids.map (fun kn => ⟨kn.1, 1⟩)⟩ (kids.map (·.2)))) := by
  have hvs := everyList_iff.mp hv.2
  have hls := valAllList_iff.mp hl.2.2
  obtain ⟨hnd, hak, hap⟩ := hv.1.1
  have hk := mapKids_ens (rec := build E f false) (parent := name) (suffix := labelSuffix E.U)
    (R := fun k v n => build E f false (name ++ labelSuffix E.U k) v = .ok n) (Q := fun _ => True) (items := ks.zip vs) (by
      intro kv _
      unfold Ens
      split
      · rename_i e; exact e
      · trivial)
  rw [h] at hk
  obtain ⟨hk1, hk2⟩ := hk
  have hn : (kids.map (·.1)).Nodup := by
    rw [hk1]
    exact hnd.sublist (zip_fst_sublist ks vs)
  have hok : ∀ kn ∈ kids, ∃ v, (kn.1, v) ∈ ks.zip vs ∧ KidOk E name kn.1 v kn.2 := by
    intro kn hkn
    obtain ⟨v, hz, hb⟩ := hk2 kn hkn
    have hdv : v.depth < f := by
      have := zip_depth hz
      dsimp only at this
      omega
    obtain ⟨e1, e2, e3, _⟩ := build_facts hE hb hdv
    have hmv := (List.of_mem_zip hz).2
    have ha : AlphaKey kn.1 := hak _ (List.of_mem_zip hz).1
    obtain ⟨s1, s2⟩ := keySuffix_letter (U := E.U) ha
    obtain ⟨t1, t2⟩ := ih _ _ _ (hvs v hmv) (hls v hmv) hdv hb
    refine ⟨v, hz, by rw [e1, labelSuffix_letter ha], s2, ?_, e2, valAll_ty (hls v hmv), by rw [e3, plainKind_kindOf],
      fun hr => plainNode_build hE hr hb hdv, t1, t2⟩
    rintro e
    rw [e] at ha
    exact ha
  constructor
  · refine ⟨?_, ?_, nameTrees_iff.mpr ?_⟩
    · intro a ha b hb
      obtain ⟨⟨k, a⟩, hka, rfl⟩ := List.mem_map.mp ha
      obtain ⟨⟨k', b⟩, hkb, rfl⟩ := List.mem_map.mp hb
      obtain ⟨v, hz, ok⟩ := hok _ hka
      obtain ⟨v', hz', ok'⟩ := hok _ hkb
      dsimp only at hz hz' ok ok'
      cases hr : rich v with
      | false => exact .inl (ok.plain hr)
      | true =>
      cases hr' : rich v' with
      | false => exact .inr (.inl (ok'.plain hr'))
      | true =>
        by_cases e : k = k'
        · subst e
          exact .inr (.inr (.inl (nodup_fst_unique hn hka hkb)))
        · refine .inr (.inr (.inr ?_))
          rw [ok.name, ok'.name, separate_append]
          exact hap _ hz _ hz' e hr hr'
    · intro a ha
      obtain ⟨⟨k, a⟩, hka, rfl⟩ := List.mem_map.mp ha
      obtain ⟨v, hz, ok⟩ := hok _ hka
      exact .inr ⟨_, ok.start, ok.name⟩
    · intro a ha
      obtain ⟨⟨k, a⟩, hka, rfl⟩ := List.mem_map.mp ha
      obtain ⟨v, hz, ok⟩ := hok _ hka
      exact ok.tree
  · intro hu
    refine ⟨by simp, ?_, singles_iff.mpr ?_⟩
    · intro sk hsk
      have := (List.of_mem_zip hsk).1
      obtain ⟨_, _, e⟩ := List.mem_map.mp this
      rw [← e]
      exact .inl rfl
    · intro a ha
      obtain ⟨⟨k, a⟩, hka, rfl⟩ := List.mem_map.mp ha
      obtain ⟨v, hz, ok⟩ := hok _ hka
      exact ok.single (everyList_iff.mp hu.2 _ (List.of_mem_zip hz).2)

theorem mapShared_clear {E : Env} (hE : E.Fair) {f : Nat} (ih : RecClear E f) {kd : MapKind} (hkd : ∀ i, kd ≠ .frame i) {t : Ty} {ks : List Key} {vs : List Val}
    {items : List (Key × Val)} {name : Str} (hv : ClearNames E.S (.map kd t ks vs)) (hl : Lettered (.map kd t ks vs))
    (hd : depthList vs < f) (hsub : items.Sublist (ks.zip vs)) {kids : List (Key × Node)}
    (h : mapKids (build E f false) name (keySuffix E.U) (visibleItems items) = .ok kids) {k : NKind} {root : Bool} :
    NameTree (.mk ⟨k, name, root, t, (shareEqual E name kids).1⟩ (shareEqual E name kids).2) ∧
    (AllUnlike E.S (.map kd t ks vs) → Single (.mk ⟨k, name, root, t, (shareEqual E name kids).1⟩ (shareEqual E name kids).2)) := by
  have hvs := everyList_iff.mp hv.2
  have hls := valAllList_iff.mp hl.2.2
  have hwk : ks.Nodup ∧ ks.length = vs.length ∧ ∀ k ∈ ks, k.hidden = true ∨ AlphaKey k := by
    have := hv.1.1
    cases kd with
    | frame i => exact absurd rfl (hkd i)
    | dict => exact this
    | proxy => exact this
  have hvis : ∀ kv ∈ visibleItems items, kv ∈ ks.zip vs ∧ kv.1.hidden = false := by
    intro kv hkv
    rw [visibleItems, List.mem_filter] at hkv
    exact ⟨hsub.subset hkv.1, by simpa using hkv.2⟩
  have hfam : ∀ kv ∈ visibleItems items, kv ∈ family (.map kd t ks vs) := by
    intro kv hkv
    obtain ⟨h1, h2⟩ := hvis kv hkv
    simp [family, entries, h1, h2]
  have hk := mapKids_ens (rec := build E f false) (parent := name) (suffix := keySuffix E.U)
    (R := fun k v n => build E f false (name ++ keySuffix E.U k) v = .ok n) (Q := fun _ => True) (items := visibleItems items) (by
      intro kv _
      unfold Ens
      split
      · rename_i e; exact e
      · trivial)
  rw [h] at hk
  obtain ⟨hk1, hk2⟩ := hk
  have hzip : (ks.zip vs).map (·.1) = ks := List.map_fst_zip (Nat.le_of_eq hwk.2.1)
  have hn : (kids.map (·.1)).Nodup := by
    rw [hk1]
    have : ((visibleItems items).map (·.1)).Sublist ks := by
      rw [← hzip]
      exact (List.filter_sublist.trans hsub).map _
    exact hwk.1.sublist this
  have hdep : ∀ kv ∈ ks.zip vs, kv.2.depth < f := by
    intro kv hkv
    have := zip_depth hkv
    omega
  have hok : ∀ kn ∈ kids, ∀ v, (kn.1, v) ∈ visibleItems items → build E f false (name ++ keySuffix E.U kn.1) v = .ok kn.2 →
      KidOk E name kn.1 v kn.2 := by
    intro kn hkn v hm hb
    obtain ⟨hz, hh⟩ := hvis _ hm
    have hdv := hdep _ hz
    obtain ⟨e1, e2, e3, _⟩ := build_facts hE hb hdv
    have hmv := (List.of_mem_zip hz).2
    have ha : AlphaKey kn.1 := by
      rcases hwk.2.2 kn.1 (List.of_mem_zip hz).1 with h | h
      · dsimp only at hh; rw [hh] at h; cases h
      · exact h
    obtain ⟨s1, s2⟩ := keySuffix_letter (U := E.U) ha
    obtain ⟨t1, t2⟩ := ih _ _ _ (hvs v hmv) (hls v hmv) hdv hb
    refine ⟨by rw [e1, s1], s2, ?_, e2, valAll_ty (hls v hmv), by rw [e3, plainKind_kindOf], fun hr => plainNode_build hE hr hb hdv, t1, t2⟩
    rintro e
    rw [e] at ha
    exact ha
  have := shareEqual_clear (E := E) (parent := name) (kids := kids) (G := family (.map kd t ks vs)) hn
    (by
      intro kn hkn
      obtain ⟨v, h1, h2⟩ := hk2 kn hkn
      exact ⟨v, hfam _ h1, hok kn hkn v h1 h2⟩)
    (by
      intro hu a ha b hb hne hpa hpb
      obtain ⟨v, h1, h2⟩ := hk2 a ha
      obtain ⟨w, h1', h2'⟩ := hk2 b hb
      have oka := hok a ha v h1 h2
      have okb := hok b hb w h1' h2'
      have hra : rich v = true := by have := oka.kind; rw [hpa] at this; simpa using this
      have hrb : rich w = true := by have := okb.kind; rw [hpb] at this; simpa using this
      have hz := (hvis _ h1).1
      have hz' := (hvis _ h1').1
      exact apart_nodeEq hE (hu _ (hfam _ h1) _ (hfam _ h1') hne hra hrb) (every_self (hvs v (List.of_mem_zip hz).2)).1
        (every_self (hvs w (List.of_mem_zip hz').2)).1 h2 h2' (hdep _ hz) (hdep _ hz'))
    hv.1.2.1 hv.1.2.2
  obtain ⟨r1, r2, r3, r4⟩ := this
  refine ⟨⟨r1, r2, nameTrees_iff.mpr r3⟩, ?_⟩
  intro hu
  have hall : ∀ x ∈ family (.map kd t ks vs), Every (fun u => Unlike E.S (family u)) x.2 := by
    intro x hx
    simp only [family, entries, List.mem_filter] at hx
    exact everyList_iff.mp hu.2 _ (List.of_mem_zip hx.1).2
  obtain ⟨s1, s2⟩ := r4 hu.1 hall
  exact ⟨shareEqual_length E name kids, s1, singles_iff.mpr s2⟩

theorem clear_build {E : Env} (hE : E.Fair) (hm : 0 < E.S.merge) : ∀ (f : Nat) {root : Bool} {name : Str} {v : Val} {n : Node},
    ClearNames E.S v → Lettered v → v.depth < f → build E f root name v = .ok n → NameTree n ∧ (AllUnlike E.S v → Single n)
  | 0, _, _, _, _, _, _, hf, _ => by omega
  | f + 1, root, name, v, n, hv, hl, hf, h => by
    have ih : RecClear E f := fun nm v n h1 h2 h3 h4 => clear_build hE hm f h1 h2 h3 h4
    have leafOk : ∀ {k : NKind} {t : Ty}, NameTree (.mk ⟨k, name, root, t, []⟩ []) ∧ Single (.mk ⟨k, name, root, t, []⟩ []) := by
      intro k t
      exact ⟨by simp [NameTree, NameTrees], rfl, by simp, trivial⟩
    have leaf : ∀ {k : NKind} {t : Ty}, (if nameOk E.U name then Except.ok (Node.mk ⟨k, name, root, t, []⟩ []) else .error (Err.badName name)) =
        .ok n → NameTree n ∧ (AllUnlike E.S v → Single n) := by
      intro k t h
      split at h
      · injection h with h; subst h; exact ⟨leafOk.1, fun _ => leafOk.2⟩
      · cases h
    cases v with
    | inst t x => exact leaf h
    | cls m n => exact leaf h
    | module t => exact leaf h
    | io t => exact leaf h
    | ndarray t d => exact leaf h
    | func fi =>
      simp only [build] at h
      split at h
      · cases h
      · rename_i m hm'
        split at h
        · cases h
        · injection h with h
          subst h
          exact leaf hm'
    | map k t ks vs =>
      have hd : depthList vs < f := by simp only [Val.depth] at hf; omega
      cases k with
      | frame i =>
        obtain ⟨kids, hk, rfl⟩ := build_frame h
        exact frame_clear hE ih hv hl hd hk
      | dict =>
        obtain ⟨kids, hk, rfl⟩ := build_dict h
        refine mapShared_clear hE ih (by simp) hv hl hd ?_ hk
        unfold dictData
        split
        · exact List.Sublist.refl _
        · exact limit_sublist
      | proxy =>
        obtain ⟨kids, hk, rfl⟩ := build_proxy h
        exact mapShared_clear hE ih (by simp) hv hl hd limit_sublist hk
    | seq k t es =>
      have hd : depthList es < f := by simp only [Val.depth] at hf; omega
      rw [build_seq] at h
      split at h
      · split at h
        · rename_i slots kids hr
          injection h with h
          subst h
          by_cases hc : k = .tuple ∧ E.S.tuple = .fixed
          · rw [if_pos hc] at hr
            obtain ⟨rfl, hS⟩ := hc
            obtain ⟨h1, h2, h3, h4, h5⟩ := tupleChildren_clear hE ih hv hl hd hS hr
            refine ⟨⟨h1, ?_, nameTrees_iff.mpr h3⟩, fun hu => seq_single (r := (slots, kids)) h5 (h4 hu)⟩
            intro k hk
            rcases h2 k hk with h | ⟨t, ht, e⟩
            · exact .inl h
            · exact .inr ⟨t, ht.start, e⟩
          · rw [if_neg hc] at hr
            obtain ⟨h1, h2, h3, h4, h5⟩ := setChildren_clear hE hm ih hv hl hd hr
            refine ⟨⟨?_, ?_, nameTrees_iff.mpr h3⟩, fun hu => seq_single (r := (slots, kids)) h5 (h4 hu)⟩
            · intro a ha b hb
              exact .inr (.inr (h1 a ha b hb))
            · intro k hk
              obtain ⟨t, ht, e⟩ := h2 k hk
              exact .inr ⟨t, ht.start, e⟩
        · cases h
      · cases h

end Verif
