import Verif.Lemmas.Bare
import Verif.Lemmas.Fuel
/-
Construction commutes with the removal of comments.
-/
namespace Verif
open Verif.Spec

/-- Construction commutes with the removal of comments. -/
def Strips (S : Strategies) (r : Str → Val → Except Err Node) : Prop := ∀ nm v, Commented S v →
  r nm (withoutComments v) = (r nm v).map bareTree ∧ ∀ n, r nm v = .ok n → NodeAll (CladHdr S) n

theorem commented_dict {S : Strategies} {d : List (Key × Val)} (hS : S.dict = .typedDict) (h : Clad S d) : Commented S (.dict d) := by
  unfold Commented Val.dict
  simp only [Every]
  refine ⟨⟨by simp, h.owned, ?_, .inl ⟨rfl, hS⟩⟩, ?_⟩
  · rw [zip_of_parts]; exact h.text
  · rw [everyList_iff]
    intro v hv
    obtain ⟨kv, hkv, rfl⟩ := List.mem_map.mp hv
    exact h.vals kv hkv

theorem foldl_updateDict_bare : ∀ (ns : List Node) (d : List (Key × Val)),
    bareData (ns.foldl (fun acc n => updateDict acc (nodeData n)) d) =
      (ns.map bareTree).foldl (fun acc n => updateDict acc (nodeData n)) (bareData d)
  | [], _ => rfl
  | n :: r, d => by
    simp only [List.foldl_cons, List.map_cons]
    rw [foldl_updateDict_bare r, updateDict_bare, nodeData_bare]

theorem foldl_updateDict_clad {S : Strategies} : ∀ (ns : List Node) (d : List (Key × Val)), (∀ n ∈ ns, NodeAll (CladHdr S) n) → Clad S d →
    Clad S (ns.foldl (fun acc n => updateDict acc (nodeData n)) d)
  | [], _, _, h => h
  | n :: r, d, hn, h => foldl_updateDict_clad r _ (fun n h => hn n (by simp [h])) (h.updateDict (clad_nodeData (hn n (by simp))))

theorem foldl_minStr_bare : ∀ (ns : List Node) (s : Str),
    (ns.map bareTree).foldl (fun acc n => minStr acc n.name) s = ns.foldl (fun acc n => minStr acc n.name) s
  | [], _ => rfl
  | n :: r, s => by simp only [List.map_cons, List.foldl_cons, bare_name, foldl_minStr_bare r]

theorem foldl_update_bare {S : Strategies} : ∀ (ms : List DMeta) (m : DMeta), (∀ o ∈ ms, CladMeta S o) → CladMeta S m →
    bareMeta (ms.foldl DMeta.update m) = (ms.map bareMeta).foldl DMeta.update (bareMeta m) ∧ CladMeta S (ms.foldl DMeta.update m)
  | [], _, _, h => ⟨rfl, h⟩
  | o :: r, m, ho, h => by
    have := foldl_update_bare r _ (fun o h => ho o (by simp [h])) (h.update (ho o (by simp)))
    simp only [List.foldl_cons, List.map_cons]
    rw [this.1, update_bare h (ho o (by simp))]
    exact ⟨rfl, this.2⟩

theorem filterMap_clad {S : Strategies} {ns : List Node} (h : ∀ n ∈ ns, NodeAll (CladHdr S) n) : ∀ m ∈ ns.filterMap nodeMeta, CladMeta S m := by
  intro m hm
  obtain ⟨n, hn, e⟩ := List.mem_filterMap.mp hm
  exact clad_nodeMeta (h n hn) e

theorem mergeDicts_bare {S : Strategies} {r : Str → Val → Except Err Node} (hr : Strips S r) {ds : List Node}
    (hc : ∀ n ∈ ds, NodeAll (CladHdr S) n) (ht : ∀ n ∈ ds, isTypedDict S n = true) :
    mergeDicts r (ds.map bareTree) = (mergeDicts r ds).map bareTree ∧ ∀ n, mergeDicts r ds = .ok n → NodeAll (CladHdr S) n := by
  cases ds with
  | nil => exact ⟨rfl, fun _ h => by cases h⟩
  | cons d ds =>
    have hS : S.dict = .typedDict := by
      have := ht d (by simp)
      obtain ⟨h, kids⟩ := d
      simp only [isTypedDict] at this
      split at this
      · simp only [DMeta.isTyped, Bool.and_eq_true, decide_eq_true_eq] at this
        exact this.2
      · cases this
    obtain ⟨m, hm⟩ := Option.isSome_iff_exists.mp (nodeMeta_of_isTypedDict (ht d (by simp)))
    simp only [mergeDicts, List.map_cons, bind, Except.bind, pure, Except.pure]
    rw [← List.map_cons, filterMap_nodeMeta_bare, bare_name, foldl_minStr_bare, nodeMeta_bare, hm]
    have hd := foldl_updateDict_bare (d :: ds) []
    rw [bareData_nil] at hd
    rw [← hd, ← bare_dict]
    have hcl := foldl_updateDict_clad (d :: ds) [] hc clad_nil
    generalize hD : (d :: ds).foldl (fun acc n => updateDict acc (nodeData n)) [] = D at hcl ⊢
    have hme := foldl_update_bare _ m (filterMap_clad hc) (clad_nodeMeta (hc d (by simp)) hm)
    have hme1 : (List.map bareMeta (List.filterMap nodeMeta (d :: ds))).foldl DMeta.update (((some m).map bareMeta).getD (DMeta.ofData [])) =
        bareMeta (List.foldl DMeta.update m (List.filterMap nodeMeta (d :: ds))) := hme.1.symm
    rw [hme1]
    obtain ⟨h1, h2⟩ := hr (ds.foldl (fun acc n => minStr acc n.name) d.name) (.dict D) (commented_dict hS hcl)
    rw [h1]
    cases hb : r (ds.foldl (fun acc n => minStr acc n.name) d.name) (.dict D) with
    | error e => exact ⟨rfl, fun _ h => by cases h⟩
    | ok n =>
      obtain ⟨h, kids⟩ := n
      have h3 := h2 _ hb
      refine ⟨rfl, ?_⟩
      intro n' hn'
      injection hn' with hn'
      subst hn'
      simp only [NodeAll] at h3 ⊢
      exact ⟨⟨hcl, hme.2⟩, h3.2⟩

theorem foldE_commute {α β β'} {f : β → α → Except Err β} {f' : β' → α → Except Err β'} {g : β → β'} {t : α → α} {I : β → Prop} : ∀ {l : List α} {b : β},
    (∀ b, ∀ a ∈ l, I b → f' (g b) (t a) = (f b a).map g ∧ ∀ b', f b a = .ok b' → I b') → I b →
    foldE f' (g b) (l.map t) = (foldE f b l).map g ∧ ∀ b', foldE f b l = .ok b' → I b'
  | [], b, _, hb => ⟨rfl, fun b' h => by injection h with h; exact h ▸ hb⟩
  | a :: r, b, hf, hb => by
    obtain ⟨h1, h2⟩ := hf b a (by simp) hb
    simp only [List.map_cons, foldE]
    rw [h1]
    cases h : f b a with
    | error e => exact ⟨rfl, fun _ h => by cases h⟩
    | ok b' => exact foldE_commute (fun b a ha => hf b a (by simp [ha])) (h2 b' h)

theorem any_nodeEq_bare {S : Strategies} (c : Node) (l : List Node) : (l.map bareTree).any (nodeEq S (bareTree c)) = l.any (nodeEq S c) := by
  rw [List.any_map]
  congr 1
  funext x
  exact nodeEq_bare S c x

section
variable {E : Env} {r : Str → Val → Except Err Node}

theorem setStep_bare (hr : Strips E.S r) {parent : Str} {acc : List Node × List Str} {v : Val} (hv : Commented E.S v)
    (ha : ∀ n ∈ acc.1, NodeAll (CladHdr E.S) n) :
    setStep E r parent (acc.1.map bareTree, acc.2) (withoutComments v) = (setStep E r parent acc v).map (fun a => (a.1.map bareTree, a.2)) ∧
      ∀ a, setStep E r parent acc v = .ok a → ∀ n ∈ a.1, NodeAll (CladHdr E.S) n := by
  simp only [setStep, bare_ty, bind, Except.bind, pure, Except.pure]
  generalize freshName (parent ++ E.U.capitalize v.ty.name) acc.2 = name
  obtain ⟨h1, h2⟩ := hr name v hv
  rw [h1]
  cases hb : r name v with
  | error e => exact ⟨rfl, fun _ h => by cases h⟩
  | ok c =>
    have hc := h2 c hb
    simp only [Except.map, any_nodeEq_bare, isTypedDict_bare]
    split
    · split
      · constructor
        · simp only [List.map_map]
          congr 2
          apply List.map_congr_left
          intro k hk
          simp only [Function.comp, nodeEq_bare]
          split
          · exact (updateNode_bare (ha k hk) hc).symm
          · rfl
        · intro a h
          injection h with h
          subst h
          intro n hn
          obtain ⟨k, hk, rfl⟩ := List.mem_map.mp hn
          split
          · exact clad_updateNode (ha k hk) hc
          · exact ha k hk
      · exact ⟨rfl, fun a h => by injection h with h; exact h ▸ ha⟩
    · refine ⟨by simp, fun a h => ?_⟩
      injection h with h
      subst h
      intro n hn
      rcases List.mem_append.mp hn with hn | hn
      · exact ha n hn
      · simp only [List.mem_singleton] at hn; exact hn ▸ hc

theorem findEq_bare (S : Strategies) (c : Node) : ∀ l : List (Node × Str), findEq S (bareTree c) (l.map fun p => (bareTree p.1, p.2)) = findEq S c l
  | [] => rfl
  | (n, s) :: r => by simp only [List.map_cons, findEq, nodeEq_bare, findEq_bare S c r]

theorem tupleStep_bare (hr : Strips E.S r) {parent : Str} {acc : List Node × List (Node × Str)} {v : Val} (hv : Commented E.S v)
    (ha : ∀ n ∈ acc.1, NodeAll (CladHdr E.S) n) :
    tupleStep E r parent (acc.1.map bareTree, acc.2.map fun p => (bareTree p.1, p.2)) (withoutComments v) =
      (tupleStep E r parent acc v).map (fun a => (a.1.map bareTree, a.2.map fun p => (bareTree p.1, p.2))) ∧
      ∀ a, tupleStep E r parent acc v = .ok a → ∀ n ∈ a.1, NodeAll (CladHdr E.S) n := by
  simp only [tupleStep, bare_ty, bind, Except.bind, pure, Except.pure, List.map_map]
  have e : (List.map ((fun x => x.snd) ∘ fun (p : Node × Str) => (bareTree p.fst, p.snd)) acc.2) = acc.2.map (·.2) := rfl
  rw [e]
  generalize freshName (parent ++ E.U.capitalize v.ty.name) (acc.2.map (·.2)) = name
  obtain ⟨h1, h2⟩ := hr name v hv
  rw [h1]
  cases hb : r name v with
  | error e => exact ⟨rfl, fun _ h => by cases h⟩
  | ok c =>
    have hc := h2 c hb
    simp only [Except.map, findEq_bare]
    cases hf : findEq E.S c acc.2 with
    | some old =>
      refine ⟨by simp [rename_bare], fun a h => ?_⟩
      injection h with h
      subst h
      intro n hn
      rcases List.mem_append.mp hn with hn | hn
      · exact ha n hn
      · simp only [List.mem_singleton] at hn; exact hn ▸ clad_rename hc
    | none =>
      refine ⟨by simp [bare_name], fun a h => ?_⟩
      injection h with h
      subst h
      intro n hn
      rcases List.mem_append.mp hn with hn | hn
      · exact ha n hn
      · simp only [List.mem_singleton] at hn; exact hn ▸ hc

theorem limit_map_bare {α β} (n : Nat) (f : α → β) (l : List α) : limit n (l.map f) = (limit n l).map f := by
  unfold limit
  split
  · rfl
  · simp [List.map_take]

theorem filter_typed_bare (S : Strategies) (l : List Node) : (l.map bareTree).filter (isTypedDict S) = (l.filter (isTypedDict S)).map bareTree := by
  rw [List.filter_map]
  congr 2
  funext x
  exact isTypedDict_bare S x

theorem filter_untyped_bare (S : Strategies) (l : List Node) :
    (l.map bareTree).filter (fun k => !isTypedDict S k) = (l.filter (fun k => !isTypedDict S k)).map bareTree := by
  rw [List.filter_map]
  congr 2
  funext x
  simp [isTypedDict_bare S x]

/-- Slots and children without comments. -/
def bareKids (c : List Slot × List Node) : List Slot × List Node := (c.1, c.2.map bareTree)

theorem setChildren_bare (hE : E.Fair) (hO : OrderIgnoresComments E) (hr : Strips E.S r) {parent : Str} {es : List Val} (hes : ∀ e ∈ es, Commented E.S e) :
    setChildren E r parent (es.map withoutComments) = (setChildren E r parent es).map bareKids ∧
      ∀ c, setChildren E r parent es = .ok c → ∀ n ∈ c.2, NodeAll (CladHdr E.S) n := by
  simp only [setChildren, bind, Except.bind, pure, Except.pure, limit_map_bare]
  obtain ⟨h1, h2⟩ := foldE_commute (f := setStep E r parent) (f' := setStep E r parent) (g := fun a => (a.1.map bareTree, a.2)) (t := withoutComments)
    (I := fun a => ∀ n ∈ a.1, NodeAll (CladHdr E.S) n) (l := limit E.S.checkMax es) (b := ([], []))
    (fun b a ha hb => setStep_bare hr (hes a (limit_subset ha)) hb) (by simp)
  simp only [List.map_nil] at h1
  rw [h1]
  cases hf : foldE (setStep E r parent) ([], []) (limit E.S.checkMax es) with
  | error e => exact ⟨rfl, fun _ h => by cases h⟩
  | ok a =>
    have ha := h2 a hf
    obtain ⟨kids, names⟩ := a
    have ho : ∀ i, ∀ n ∈ E.order i kids, NodeAll (CladHdr E.S) n := fun i n hn => ha n ((hE i kids).mem_iff.mp hn)
    have ht : ∀ i, ∀ n ∈ (E.order i kids).filter (isTypedDict E.S), NodeAll (CladHdr E.S) n := fun i n hn => ho i n (List.mem_filter.mp hn).1
    simp only [Except.map, hO 0 kids, hO 1 kids, filter_typed_bare, shouldMerge_bare (ht 0)]
    split
    · obtain ⟨m1, m2⟩ := mergeDicts_bare hr (ht 1) (fun n hn => (List.mem_filter.mp hn).2)
      rw [m1]
      cases hm : mergeDicts r ((E.order 1 kids).filter (isTypedDict E.S)) with
      | error e => exact ⟨rfl, fun _ h => by cases h⟩
      | ok merged =>
        have hmc := m2 _ hm
        have e1 : (kids.map bareTree).filter (fun k => !isTypedDict E.S k) ++ [bareTree merged] =
            (kids.filter (fun k => !isTypedDict E.S k) ++ [merged]).map bareTree := by simp [filter_untyped_bare]
        simp only [Except.map, e1, hO 2]
        refine ⟨by simp [bareKids], fun c h => ?_⟩
        injection h with h
        subst h
        intro n hn
        rcases List.mem_append.mp ((hE 2 _).mem_iff.mp hn) with hn | hn
        · exact ha n (List.mem_filter.mp hn).1
        · simp only [List.mem_singleton] at hn; exact hn ▸ hmc
    · refine ⟨by simp [bareKids], fun c h => ?_⟩
      injection h with h
      subst h
      exact ho 0

theorem tupleChildren_bare (hr : Strips E.S r) {parent : Str} {es : List Val} (hes : ∀ e ∈ es, Commented E.S e) :
    tupleChildren E r parent (es.map withoutComments) = (tupleChildren E r parent es).map bareKids ∧
      ∀ c, tupleChildren E r parent es = .ok c → ∀ n ∈ c.2, NodeAll (CladHdr E.S) n := by
  simp only [tupleChildren, bind, Except.bind, pure, Except.pure, limit_map_bare]
  obtain ⟨h1, h2⟩ := foldE_commute (f := tupleStep E r parent) (f' := tupleStep E r parent)
    (g := fun a => (a.1.map bareTree, a.2.map fun p => (bareTree p.1, p.2))) (t := withoutComments)
    (I := fun a => ∀ n ∈ a.1, NodeAll (CladHdr E.S) n) (l := limit E.S.checkMax es) (b := ([], []))
    (fun b a ha hb => tupleStep_bare hr (hes a (limit_subset ha)) hb) (by simp)
  simp only [List.map_nil] at h1
  rw [h1]
  cases hf : foldE (tupleStep E r parent) ([], []) (limit E.S.checkMax es) with
  | error e => exact ⟨rfl, fun _ h => by cases h⟩
  | ok a =>
    have ha := h2 a hf
    obtain ⟨kids, names⟩ := a
    have ht : ∀ n ∈ kids.filter (isTypedDict E.S), NodeAll (CladHdr E.S) n := fun n hn => ha n (List.mem_filter.mp hn).1
    simp only [Except.map, filter_typed_bare, shouldMerge_bare ht]
    split
    · obtain ⟨m1, m2⟩ := mergeDicts_bare hr ht (fun n hn => (List.mem_filter.mp hn).2)
      rw [m1]
      cases hm : mergeDicts r (kids.filter (isTypedDict E.S)) with
      | error e => exact ⟨rfl, fun _ h => by cases h⟩
      | ok merged =>
        have hmc := m2 _ hm
        refine ⟨?_, fun c h => ?_⟩
        · simp only [Except.map, bareKids, List.map_map, List.length_map]
          congr 2
          · apply List.map_congr_left
            intro k _
            simp only [Function.comp, isTypedDict_bare]
          · apply List.map_congr_left
            intro k _
            simp only [Function.comp, isTypedDict_bare]
            split <;> rfl
        · injection h with h
          subst h
          intro n hn
          obtain ⟨k, hk, rfl⟩ := List.mem_map.mp hn
          split
          · exact hmc
          · exact ha k hk
    · refine ⟨by simp [bareKids], fun c h => ?_⟩
      injection h with h
      subst h
      exact ha

/-! ### Mappings -/

/-- Keyed trees without comments. -/
def bareItem (kn : Key × Node) : Key × Node := (kn.1, bareTree kn.2)

theorem mapKids_bare (hr : Strips E.S r) {parent : Str} {suffix : Key → Str} : ∀ {items : List (Key × Val)}, (∀ kv ∈ items, Commented E.S kv.2) →
    mapKids r parent suffix (items.map fun kv => (kv.1, withoutComments kv.2)) = (mapKids r parent suffix items).map (fun l => l.map bareItem) ∧
      ∀ l, mapKids r parent suffix items = .ok l → ∀ kn ∈ l, NodeAll (CladHdr E.S) kn.2
  | [], _ => ⟨rfl, fun l h => by injection h with h; subst h; simp⟩
  | (k, v) :: rest, hi => by
    obtain ⟨h1, h2⟩ := hr (parent ++ suffix k) v (hi (k, v) (by simp))
    obtain ⟨i1, i2⟩ := mapKids_bare hr (items := rest) (parent := parent) (suffix := suffix) (fun kv h => hi kv (by simp [h]))
    simp only [List.map_cons, mapKids, bind, Except.bind, pure, Except.pure]
    rw [h1, i1]
    cases hb : r (parent ++ suffix k) v with
    | error e => exact ⟨rfl, fun _ h => by cases h⟩
    | ok n =>
      cases hm : mapKids r parent suffix rest with
      | error e => exact ⟨rfl, fun _ h => by cases h⟩
      | ok l =>
        refine ⟨rfl, fun l' h => ?_⟩
        injection h with h
        subst h
        intro kn hkn
        rcases List.mem_cons.mp hkn with rfl | hkn
        · exact h2 n hb
        · exact i2 l hm kn hkn

/-- Groups of keys without comments. -/
def bareGroup (g : Node × List Key) : Node × List Key := (bareTree g.1, g.2)

theorem addGroup_bare (S : Strategies) (key : Key) (n : Node) : ∀ g : List (Node × List Key),
    addGroup S key (bareTree n) (g.map bareGroup) = (addGroup S key n g).map bareGroup
  | [] => rfl
  | (m, ks) :: rest => by
    have e : ((m, ks) :: rest).map bareGroup = (bareTree m, ks) :: rest.map bareGroup := rfl
    rw [e]
    simp only [addGroup, nodeEq_bare, addGroup_bare S key n rest]
    split <;> rfl

theorem addGroup_clad {S : Strategies} {key : Key} {n : Node} (hn : NodeAll (CladHdr S) n) : ∀ {g : List (Node × List Key)},
    (∀ x ∈ g, NodeAll (CladHdr S) x.1) → ∀ x ∈ addGroup S key n g, NodeAll (CladHdr S) x.1
  | [], _ => by simp [addGroup, hn]
  | (m, ks) :: rest, hg => by
    intro x hx
    simp only [addGroup] at hx
    split at hx
    · rcases List.mem_cons.mp hx with rfl | hx
      · exact hg (m, ks) (by simp)
      · exact hg x (by simp [hx])
    · rcases List.mem_cons.mp hx with rfl | hx
      · exact hg (m, ks) (by simp)
      · exact addGroup_clad hn (fun x h => hg x (by simp [h])) x hx

theorem foldl_addGroup_bare (S : Strategies) : ∀ (kids : List (Key × Node)) (g : List (Node × List Key)),
    (kids.map bareItem).foldl (fun g kn => addGroup S kn.1 kn.2 g) (g.map bareGroup) =
      (kids.foldl (fun g kn => addGroup S kn.1 kn.2 g) g).map bareGroup
  | [], _ => rfl
  | kn :: rest, g => by
    simp only [List.map_cons, List.foldl_cons, bareItem]
    rw [addGroup_bare, ← foldl_addGroup_bare S rest]

theorem foldl_addGroup_clad {S : Strategies} : ∀ (kids : List (Key × Node)) (g : List (Node × List Key)),
    (∀ kn ∈ kids, NodeAll (CladHdr S) kn.2) → (∀ x ∈ g, NodeAll (CladHdr S) x.1) →
      ∀ x ∈ kids.foldl (fun g kn => addGroup S kn.1 kn.2 g) g, NodeAll (CladHdr S) x.1
  | [], _, _, hg => hg
  | kn :: rest, g, hk, hg => foldl_addGroup_clad rest _ (fun x h => hk x (by simp [h])) (addGroup_clad (hk kn (by simp)) hg)

theorem renameGroups_bare (U : Uni) (parent : Str) : ∀ (g : List (Node × List Key)) (counts : List (Ty × Nat)),
    renameGroups U parent counts (g.map bareGroup) = (renameGroups U parent counts g).map bareGroup
  | [], _ => rfl
  | (n, ks) :: rest, counts => by
    have e : ((n, ks) :: rest).map bareGroup = (bareTree n, ks) :: rest.map bareGroup := rfl
    rw [e]
    simp only [renameGroups, bare_hdr_ty]
    split
    · split <;> simp only [List.map_cons, bareGroup, rename_bare] <;> rw [← renameGroups_bare U parent rest] <;> rfl
    · simp only [List.map_cons, bareGroup]; rw [← renameGroups_bare U parent rest]

theorem renameGroups_clad {S : Strategies} {U : Uni} {parent : Str} : ∀ (g : List (Node × List Key)) (counts : List (Ty × Nat)),
    (∀ x ∈ g, NodeAll (CladHdr S) x.1) → ∀ x ∈ renameGroups U parent counts g, NodeAll (CladHdr S) x.1
  | [], _, _ => by simp [renameGroups]
  | (n, ks) :: rest, counts, hg => by
    intro x hx
    have ih := fun c => renameGroups_clad (U := U) (parent := parent) rest c (fun x h => hg x (by simp [h]))
    have hn := hg (n, ks) (by simp)
    simp only [renameGroups] at hx
    split at hx
    · split at hx
      · rcases List.mem_cons.mp hx with rfl | hx
        · exact clad_rename hn
        · exact ih _ x hx
      · rcases List.mem_cons.mp hx with rfl | hx
        · exact clad_rename hn
        · exact ih _ x hx
    · rcases List.mem_cons.mp hx with rfl | hx
      · exact hn
      · exact ih _ x hx

theorem findGroup_bare (key : Key) : ∀ g : List (Node × List Key), findGroup key (g.map bareGroup) = (findGroup key g).map bareGroup
  | [] => rfl
  | (n, ks) :: rest => by
    have e : ((n, ks) :: rest).map bareGroup = (bareTree n, ks) :: rest.map bareGroup := rfl
    rw [e]
    simp only [findGroup, findGroup_bare key rest]
    split <;> rfl

theorem findGroup_mem' {key : Key} {x} : ∀ {g : List (Node × List Key)}, findGroup key g = some x → x ∈ g
  | [], h => by cases h
  | (n, ks) :: rest, h => by
    simp only [findGroup] at h
    split at h
    · injection h with h; simp [h]
    · simp [findGroup_mem' h]

theorem shareEqual_bare {parent : Str} {kids : List (Key × Node)} (hk : ∀ kn ∈ kids, NodeAll (CladHdr E.S) kn.2) :
    shareEqual E parent (kids.map bareItem) = bareKids (shareEqual E parent kids) ∧ ∀ n ∈ (shareEqual E parent kids).2, NodeAll (CladHdr E.S) n := by
  have e1 : (kids.map bareItem).map (·.1) = kids.map (·.1) := by simp [bareItem, Function.comp_def]
  have e2 : (kids.map bareItem).foldl (fun g kn => addGroup E.S kn.1 kn.2 g) [] = (kids.foldl (fun g kn => addGroup E.S kn.1 kn.2 g) []).map bareGroup :=
    foldl_addGroup_bare E.S kids []
  have hg := renameGroups_clad (U := E.U) (parent := parent) _ [] (foldl_addGroup_clad kids [] hk (by simp))
  simp only [shareEqual, e1, e2, renameGroups_bare]
  generalize renameGroups E.U parent [] (kids.foldl (fun g kn => addGroup E.S kn.1 kn.2 g) []) = groups at hg
  constructor
  · simp only [bareKids, List.map_map]
    congr 1
    · apply List.map_congr_left
      intro kn _
      simp only [Function.comp, bareItem, findGroup_bare]
      cases findGroup kn.1 groups <;> rfl
    · apply List.map_congr_left
      intro kn _
      simp only [Function.comp, bareItem, findGroup_bare]
      cases findGroup kn.1 groups <;> rfl
  · intro n hn
    obtain ⟨x, hx, rfl⟩ := List.mem_map.mp hn
    obtain ⟨kn, hkn, rfl⟩ := List.mem_map.mp hx
    cases hf : findGroup kn.1 groups with
    | none => exact hk kn hkn
    | some g => exact hg g (findGroup_mem' hf)

theorem mapChildren_bare (hr : Strips E.S r) {parent : Str} {items : List (Key × Val)} (hi : ∀ kv ∈ items, Commented E.S kv.2) :
    mapChildren E r parent (bareData items) = (mapChildren E r parent items).map bareKids ∧
      ∀ c, mapChildren E r parent items = .ok c → ∀ n ∈ c.2, NodeAll (CladHdr E.S) n := by
  obtain ⟨h1, h2⟩ := mapKids_bare (E := E) hr (parent := parent) (suffix := keySuffix E.U) (items := items.filter fun kv => !kv.1.hidden)
    (fun kv h => hi kv (List.mem_filter.mp h).1)
  simp only [mapChildren, bind, Except.bind, pure, Except.pure, filter_visible_bareData]
  have e : bareData items = (items.filter fun kv => !kv.1.hidden).map fun kv => (kv.1, withoutComments kv.2) := rfl
  rw [e, h1]
  cases hm : mapKids r parent (keySuffix E.U) (items.filter fun kv => !kv.1.hidden) with
  | error e => exact ⟨rfl, fun _ h => by cases h⟩
  | ok kids =>
    obtain ⟨s1, s2⟩ := shareEqual_bare (E := E) (parent := parent) (h2 kids hm)
    simp only [Except.map, s1]
    refine ⟨trivial, fun c h => ?_⟩
    injection h with h
    subst h
    exact s2

theorem frameChildren_bare (hr : Strips E.S r) {parent : Str} {items : List (Key × Val)} (hi : ∀ kv ∈ items, Commented E.S kv.2) :
    frameChildren E r parent (items.map fun kv => (kv.1, withoutComments kv.2)) = (frameChildren E r parent items).map bareKids ∧
      ∀ c, frameChildren E r parent items = .ok c → ∀ n ∈ c.2, NodeAll (CladHdr E.S) n := by
  obtain ⟨h1, h2⟩ := mapKids_bare (E := E) hr (parent := parent) (suffix := labelSuffix E.U) (items := items) hi
  simp only [frameChildren, bind, Except.bind, pure, Except.pure]
  rw [h1]
  cases hm : mapKids r parent (labelSuffix E.U) items with
  | error e => exact ⟨rfl, fun _ h => by cases h⟩
  | ok kids =>
    refine ⟨by simp [Except.map, bareKids, bareItem, Function.comp_def], fun c h => ?_⟩
    injection h with h
    subst h
    intro n hn
    obtain ⟨kn, hkn, rfl⟩ := List.mem_map.mp hn
    exact h2 kids hm kn hkn

end

/-! ### Construction -/

theorem limit_all {α} {S : Strategies} {l : List α} (h : Inspected S l.length) : limit S.checkMax l = l := by
  unfold limit
  split
  · rfl
  · rcases h with h | h
    · contradiction
    · exact List.take_of_length_le h

theorem bareData_length (d : List (Key × Val)) : (bareData d).length ≤ d.length := by
  simp only [bareData, List.length_map]
  exact List.length_filter_le _ _

theorem every_map_values {p : Val → Prop} {k t ks vs} (h : Every p (.map k t ks vs)) : ∀ kv ∈ ks.zip vs, Every p kv.2 := by
  simp only [Every] at h
  intro kv hkv
  exact everyList_iff.mp h.2 kv.2 (List.of_mem_zip hkv).2

theorem build_bare {E : Env} (hE : E.Fair) (hO : OrderIgnoresComments E) : ∀ (f : Nat) (root : Bool) (name : Str) (v : Val), Commented E.S v →
    build E f root name (withoutComments v) = (build E f root name v).map bareTree ∧
      ∀ n, build E f root name v = .ok n → NodeAll (CladHdr E.S) n
  | 0, _, _, _, _ => ⟨rfl, fun _ h => by cases h⟩
  | f + 1, root, name, v, hv => by
    have hr : Strips E.S (build E f false) := fun nm v hv => build_bare hE hO f false nm v hv
    have hty := bare_ty v
    have leaf : ∀ k : NKind, (∀ d m, k ≠ .dict d m) → NodeAll (CladHdr E.S) (.mk { kind := k, name, root, ty := v.ty, slots := [] } []) := by
      intro k hk
      simp only [NodeAll, NodeAllList, CladHdr, and_true]
    cases v with
    | inst t x =>
      simp only [withoutComments, build]
      split
      · exact ⟨rfl, fun n h => by injection h with h; exact h ▸ leaf _ (by simp)⟩
      · exact ⟨rfl, fun n h => by cases h⟩
    | cls t x =>
      simp only [withoutComments, build]
      split
      · exact ⟨rfl, fun n h => by injection h with h; exact h ▸ leaf _ (by simp)⟩
      · exact ⟨rfl, fun n h => by cases h⟩
    | module t =>
      simp only [withoutComments, build]
      split
      · exact ⟨rfl, fun n h => by injection h with h; exact h ▸ leaf _ (by simp)⟩
      · exact ⟨rfl, fun n h => by cases h⟩
    | io t =>
      simp only [withoutComments, build]
      split
      · exact ⟨rfl, fun n h => by injection h with h; exact h ▸ leaf _ (by simp)⟩
      · exact ⟨rfl, fun n h => by cases h⟩
    | ndarray t x =>
      simp only [withoutComments, build]
      split
      · exact ⟨rfl, fun n h => by injection h with h; exact h ▸ leaf _ (by simp)⟩
      · exact ⟨rfl, fun n h => by cases h⟩
    | func i =>
      simp only [withoutComments, build]
      split
      · rename_i e h1
        exact ⟨rfl, fun n h => by cases h⟩
      · rename_i n h1
        split at h1
        · injection h1 with h1
          subst h1
          split
          · exact ⟨rfl, fun n h => by cases h⟩
          · exact ⟨rfl, fun n h => by injection h with h; exact h ▸ leaf _ (by simp)⟩
        · cases h1
    | seq k t es =>
      have hes : ∀ e ∈ es, Commented E.S e := by
        unfold Commented at hv
        simp only [Every] at hv
        exact everyList_iff.mp hv.2
      have key : (if k = .tuple ∧ E.S.tuple = .fixed then tupleChildren E (build E f false) name (es.map withoutComments)
            else setChildren E (build E f false) name (es.map withoutComments)) =
          (if k = .tuple ∧ E.S.tuple = .fixed then tupleChildren E (build E f false) name es
            else setChildren E (build E f false) name es).map bareKids ∧
          ∀ c, (if k = .tuple ∧ E.S.tuple = .fixed then tupleChildren E (build E f false) name es
            else setChildren E (build E f false) name es) = .ok c → ∀ n ∈ c.2, NodeAll (CladHdr E.S) n := by
        split
        · exact tupleChildren_bare hr hes
        · exact setChildren_bare hE hO hr hes
      simp only [withoutComments, build, bareList_map]
      split
      · rw [key.1]
        cases hc : (if k = .tuple ∧ E.S.tuple = .fixed then tupleChildren E (build E f false) name es
            else setChildren E (build E f false) name es) with
        | error e => exact ⟨rfl, fun n h => by cases h⟩
        | ok c =>
          have hk := key.2 c hc
          obtain ⟨slots, kids⟩ := c
          refine ⟨by simp [Except.map, bareKids, bareTree, bareKind, bareTrees_map, Val.ty], fun n h => ?_⟩
          injection h with h
          subst h
          simp only [NodeAll, CladHdr, true_and]
          exact nodeAllList_iff.mpr hk
      · exact ⟨rfl, fun n h => by cases h⟩
    | map k t ks vs =>
      have hvals := every_map_values hv
      cases k with
      | dict =>
        unfold Commented at hv
        simp only [Every] at hv
        obtain ⟨hlen, hown, htext, hlim⟩ := hv.1
        have hcl : Clad E.S (ks.zip vs) := ⟨hvals, by rw [List.map_fst_zip (Nat.le_of_eq hlen)]; exact hown, htext⟩
        have hd1 : dictData E.S (ks.zip vs) = ks.zip vs := by
          unfold dictData
          split
          · rfl
          · rename_i hS
            rcases hlim with h | h
            · exact absurd h.2 hS
            · exact limit_all (by rw [List.length_zip, ← hlen, Nat.min_self]; exact h)
        have hd2 : dictData E.S (bareData (ks.zip vs)) = bareData (ks.zip vs) := by
          unfold dictData
          split
          · rfl
          · rename_i hS
            rcases hlim with h | h
            · exact absurd h.2 hS
            · have hle := bareData_length (ks.zip vs)
              rw [List.length_zip, ← hlen, Nat.min_self] at hle
              exact limit_all (h.imp id (fun h => Nat.le_trans hle h))
        rw [bare_dictMap]
        simp only [build, zip_of_parts, hd1, hd2]
        obtain ⟨m1, m2⟩ := mapChildren_bare (E := E) hr (parent := name) hvals
        rw [m1, ← bareMeta_ofData]
        cases hc : mapChildren E (build E f false) name (ks.zip vs) with
        | error e => exact ⟨rfl, fun n h => by cases h⟩
        | ok c =>
          have hk := m2 c hc
          obtain ⟨slots, kids⟩ := c
          refine ⟨by simp [Except.map, bareKids, bareTree, bareKind, bareTrees_map, Val.ty], fun n h => ?_⟩
          injection h with h
          subst h
          simp only [NodeAll, CladHdr]
          exact ⟨⟨hcl, clad_ofData hcl⟩, nodeAllList_iff.mpr hk⟩
      | proxy =>
        unfold Commented at hv
        simp only [Every] at hv
        obtain ⟨hlen, hown, htext, hlim⟩ := hv.1
        have hins : Inspected E.S ks.length := by
          rcases hlim with h | h
          · cases h.1
          · exact h
        have hd1 : limit E.S.checkMax (ks.zip vs) = ks.zip vs := limit_all (by rw [List.length_zip, ← hlen, Nat.min_self]; exact hins)
        have hd2 : limit E.S.checkMax (bareData (ks.zip vs)) = bareData (ks.zip vs) := by
          have hle := bareData_length (ks.zip vs)
          rw [List.length_zip, ← hlen, Nat.min_self] at hle
          exact limit_all (hins.imp id (fun h => Nat.le_trans hle h))
        rw [bare_proxyMap]
        simp only [build, zip_of_parts, hd1, hd2]
        obtain ⟨m1, m2⟩ := mapChildren_bare (E := E) hr (parent := name) hvals
        rw [m1]
        split
        · cases hc : mapChildren E (build E f false) name (ks.zip vs) with
          | error e => exact ⟨rfl, fun n h => by cases h⟩
          | ok c =>
            have hk := m2 c hc
            obtain ⟨slots, kids⟩ := c
            refine ⟨by simp [Except.map, bareKids, bareTree, bareKind, bareTrees_map, Val.ty], fun n h => ?_⟩
            injection h with h
            subst h
            simp only [NodeAll, CladHdr, true_and]
            exact nodeAllList_iff.mpr hk
        · exact ⟨rfl, fun n h => by cases h⟩
      | frame i =>
        have ez : ks.zip (vs.map withoutComments) = (ks.zip vs).map fun kv => (kv.1, withoutComments kv.2) := by
          rw [List.zip_map_right]; rfl
        simp only [withoutComments, build, bareList_map, ez]
        obtain ⟨m1, m2⟩ := frameChildren_bare (E := E) hr (parent := name) hvals
        rw [m1]
        split
        · cases hc : frameChildren E (build E f false) name (ks.zip vs) with
          | error e => exact ⟨rfl, fun n h => by cases h⟩
          | ok c =>
            have hk := m2 c hc
            obtain ⟨slots, kids⟩ := c
            refine ⟨by simp [Except.map, bareKids, bareTree, bareKind, bareTrees_map, Val.ty], fun n h => ?_⟩
            injection h with h
            subst h
            simp only [NodeAll, CladHdr, true_and]
            exact nodeAllList_iff.mpr hk
        · exact ⟨rfl, fun n h => by cases h⟩

end Verif
