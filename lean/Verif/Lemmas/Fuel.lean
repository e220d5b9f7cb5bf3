import Verif.Lemmas.Total
/-
The result of construction does not depend on the fuel, once it exceeds the nesting depth.
-/
namespace Verif

theorem foldE_congr {α β} {f g : β → α → Except Err β} : ∀ {l : List α} {b : β}, (∀ b, ∀ a ∈ l, f b a = g b a) →
    foldE f b l = foldE g b l
  | [], _, _ => rfl
  | a :: r, b, h => by
    simp only [foldE, h b a (by simp)]
    split
    · exact foldE_congr (fun b a ha => h b a (by simp [ha]))
    · rfl

section
variable {E : Env} {r1 r2 : Str → Val → Except Err Node} {D : Nat}

/-- The two recursive functions agree on values of depth at most `D`. -/
def Agree (r1 r2 : Str → Val → Except Err Node) (D : Nat) : Prop := ∀ name v, v.depth ≤ D → r1 name v = r2 name v

/-- The invariant without any requirements. -/
theorem trivialInv (E : Env) : Inv E (fun _ => True) (fun _ _ => True) (fun _ => True) (fun _ => True) (fun _ => True) := by
  constructor <;> intros <;> trivial

theorem mergeDicts_congr (h : Agree r1 r2 D) {ds : List Node}
    (hd : ∀ d ∈ ds, DataOk (fun _ _ => True) D d ∧ (nodeMeta d).isSome) : mergeDicts r1 ds = mergeDicts r2 ds := by
  cases ds with
  | nil => rfl
  | cons d ds =>
    unfold mergeDicts
    dsimp only
    rw [h _ _ ?_]
    obtain ⟨m, hm⟩ := Option.isSome_iff_exists.mp (hd d (by simp)).2
    apply depth_dict ((hd d (by simp)).1 m hm).1
    intro kv hkv
    rcases mem_foldl_updateDict hkv with h | ⟨n, hn, h⟩
    · simp at h
    · obtain ⟨m', hm'⟩ := Option.isSome_iff_exists.mp (hd n hn).2
      exact (((hd n hn).1 m' hm').2.1 kv h).2

theorem setChildren_congr (hE : E.Fair) (h : Agree r1 r2 D) {name : Str} {es : List Val} (hes : ∀ e ∈ es, e.depth ≤ D)
    (hs : RecSpec E r1 name es (DataOk (fun _ _ => True) D) (fun _ => True)) :
    setChildren E r1 name es = setChildren E r2 name es := by
  unfold setChildren
  have hf : foldE (setStep E r1 name) ([], []) (limit E.S.checkMax es) = foldE (setStep E r2 name) ([], []) (limit E.S.checkMax es) := by
    apply foldE_congr
    intro b a ha
    unfold setStep; dsimp only
    rw [h _ _ (hes a (limit_subset ha))]
  rw [← hf]
  have hk := setFold_ens hs
  cases hfold : foldE (setStep E r1 name) ([], []) (limit E.S.checkMax es) with
  | error e => rfl
  | ok acc =>
    rw [hfold] at hk
    obtain ⟨kids, names⟩ := acc
    have hk : ∀ k ∈ kids, DataOk (fun _ _ => True) D k := hk
    change (if _ then _ else _) = (if _ then _ else _)
    rw [mergeDicts_congr (r1 := r1) (r2 := r2) h]
    intro d hd
    rw [List.mem_filter, (hE 1 kids).mem_iff] at hd
    exact ⟨hk d hd.1, nodeMeta_of_isTypedDict hd.2⟩

theorem tupleChildren_congr (h : Agree r1 r2 D) {name : Str} {es : List Val} (hes : ∀ e ∈ es, e.depth ≤ D)
    (hs : RecSpec E r1 name es (DataOk (fun _ _ => True) D) (fun _ => True)) :
    tupleChildren E r1 name es = tupleChildren E r2 name es := by
  unfold tupleChildren
  have hf : foldE (tupleStep E r1 name) ([], []) (limit E.S.checkMax es) = foldE (tupleStep E r2 name) ([], []) (limit E.S.checkMax es) := by
    apply foldE_congr
    intro b a ha
    unfold tupleStep; dsimp only
    rw [h _ _ (hes a (limit_subset ha))]
  rw [← hf]
  have hk := tupleFold_ens hs (fun k c hk hc => hc.rename)
  cases hfold : foldE (tupleStep E r1 name) ([], []) (limit E.S.checkMax es) with
  | error e => rfl
  | ok acc =>
    rw [hfold] at hk
    obtain ⟨kids, names⟩ := acc
    have hk : ∀ k ∈ kids, DataOk (fun _ _ => True) D k := hk.1
    change (if _ then _ else _) = (if _ then _ else _)
    rw [mergeDicts_congr (r1 := r1) (r2 := r2) h]
    intro d hd
    rw [List.mem_filter] at hd
    exact ⟨hk d hd.1, nodeMeta_of_isTypedDict hd.2⟩

theorem mapKids_congr {parent suffix} : ∀ {items : List (Key × Val)}, (∀ kv ∈ items, ∀ name, r1 name kv.2 = r2 name kv.2) →
    mapKids r1 parent suffix items = mapKids r2 parent suffix items
  | [], _ => rfl
  | (k, v) :: r, h => by
    simp only [mapKids]
    rw [h (k, v) (by simp), mapKids_congr (fun kv hkv => h kv (by simp [hkv]))]

end

/-- One more unit of fuel changes nothing. -/
theorem build_succ {E : Env} (hE : E.Fair) : ∀ (f : Nat) (root : Bool) (name : Str) (v : Val), v.depth < f →
    build E (f + 1) root name v = build E f root name v
  | 0, _, _, _, h => by omega
  | f + 1, root, name, v, hf => by
    have agree : ∀ D, D < f → Agree (build E (f + 1) false) (build E f false) D := fun D hD nm w hw =>
      build_succ hE f false nm w (by omega)
    have spec : ∀ (es : List Val) (D : Nat), (∀ e ∈ es, e.depth ≤ D) → D < f + 1 →
        RecSpec E (build E (f + 1) false) name es (DataOk (fun _ _ => True) D) (fun _ => True) := by
      intro es D hes hD
      have h := recSpec_of (trivialInv E) (fuel := f + 1) (D := D) (name := name) (es := es) ((trivialInv E).step trivial) (fun _ _ => trivial) hes hD
        (fun nm w _ _ hw => (build_ens hE (trivialInv E) (f + 1) false nm w trivial trivial hw).imp (fun _ h => h.1) (fun _ h => h))
      have triv : ∀ n, Built (fun _ _ => True) (fun _ => True) (fun _ => True) D n ↔ DataOk (fun _ _ => True) D n := fun n =>
        ⟨fun h => h.2.1, fun h => ⟨nodeAll_all (fun _ => trivial) n, h, trivial⟩⟩
      have : Built (fun _ _ => True) (fun _ => True) (fun _ => True) D = DataOk (fun _ _ => True) D := by
        funext n; exact propext (triv n)
      rw [this] at h
      exact h
    cases v with
    | inst t x => rfl
    | cls m n => rfl
    | module t => rfl
    | io t => rfl
    | ndarray t d => rfl
    | func g => rfl
    | seq k t es =>
      have hd : depthList es < f := by simp only [Val.depth] at hf; omega
      have hes : ∀ e ∈ es, e.depth ≤ depthList es := fun e he => depth_le_depthList he
      have h1 := setChildren_congr hE (agree _ hd) hes (spec es _ hes (by omega))
      have h2 := tupleChildren_congr (agree _ hd) hes (spec es _ hes (by omega))
      simp only [build] at h1 h2 ⊢
      rw [h1, h2]
    | map k t ks vs =>
      have hd : depthList vs < f := by simp only [Val.depth] at hf; omega
      have hz : ∀ kv ∈ ks.zip vs, ∀ nm, build E (f + 1) false nm kv.2 = build E f false nm kv.2 := by
        intro kv hkv nm
        exact agree _ hd nm kv.2 (zip_depth hkv)
      cases k with
      | dict =>
        have : mapChildren E (build E (f + 1) false) name (dictData E.S (ks.zip vs)) =
            mapChildren E (build E f false) name (dictData E.S (ks.zip vs)) := by
          unfold mapChildren
          rw [mapKids_congr]
          intro kv hkv
          exact hz kv (dictData_subset (List.mem_filter.mp hkv).1)
        simp only [build] at this ⊢
        rw [this]
      | proxy =>
        have : mapChildren E (build E (f + 1) false) name (limit E.S.checkMax (ks.zip vs)) =
            mapChildren E (build E f false) name (limit E.S.checkMax (ks.zip vs)) := by
          unfold mapChildren
          rw [mapKids_congr]
          intro kv hkv
          exact hz kv (limit_subset (List.mem_filter.mp hkv).1)
        simp only [build] at this ⊢
        rw [this]
      | frame i =>
        have : frameChildren E (build E (f + 1) false) name (ks.zip vs) =
            frameChildren E (build E f false) name (ks.zip vs) := by
          unfold frameChildren
          rw [mapKids_congr]
          exact hz
        simp only [build] at this ⊢
        rw [this]

/-- Any fuel above the nesting depth gives the same result. -/
theorem build_fuel {E : Env} (hE : E.Fair) {f f' : Nat} {root : Bool} {name : Str} {v : Val} (h : v.depth < f)
    (hf : f ≤ f') : build E f' root name v = build E f root name v := by
  induction hf with
  | refl => rfl
  | step hm ih =>
    rename_i m
    rw [build_succ hE m root name v (by have : f ≤ m := hm; omega), ih]

end Verif
