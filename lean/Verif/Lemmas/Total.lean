import Verif.Model.Generator
import Verif.Lemmas.Build
import Verif.Lemmas.Names
/-
Construction never fails on ordinary data, and all names are extensions of the class name by words.
-/
namespace Verif
open Verif.Spec

mutual
/-- `p` holds for the header of every node of the tree. -/
def NodeAll (p : Hdr → Prop) : Node → Prop
  | .mk h kids => p h ∧ NodeAllList p kids
def NodeAllList (p : Hdr → Prop) : List Node → Prop
  | [] => True
  | k :: r => NodeAll p k ∧ NodeAllList p r
end

theorem nodeAllList_iff {p : Hdr → Prop} : ∀ {l : List Node}, NodeAllList p l ↔ ∀ k ∈ l, NodeAll p k
  | [] => by simp [NodeAllList]
  | k :: r => by simp [NodeAllList, nodeAllList_iff (l := r)]

theorem nodeAll_hdr {p : Hdr → Prop} {n : Node} (h : NodeAll p n) : p n.hdr := by
  cases n; simp only [NodeAll] at h; exact h.1

mutual
theorem nodeAll_imp {p q : Hdr → Prop} (hpq : ∀ h, p h → q h) : ∀ {n : Node}, NodeAll p n → NodeAll q n
  | .mk h kids => by
    simp only [NodeAll]
    intro hh; exact ⟨hpq h hh.1, nodeAllList_imp hpq hh.2⟩
theorem nodeAllList_imp {p q : Hdr → Prop} (hpq : ∀ h, p h → q h) : ∀ {l : List Node}, NodeAllList p l → NodeAllList q l
  | [] => by simp [NodeAllList]
  | k :: r => by
    simp only [NodeAllList]
    intro hh; exact ⟨nodeAll_imp hpq hh.1, nodeAllList_imp hpq hh.2⟩
end

mutual
theorem nodeAll_all {p : Hdr → Prop} (hp : ∀ h, p h) : ∀ (n : Node), NodeAll p n
  | .mk h kids => by simp only [NodeAll]; exact ⟨hp h, nodeAllList_all hp kids⟩
theorem nodeAllList_all {p : Hdr → Prop} (hp : ∀ h, p h) : ∀ (l : List Node), NodeAllList p l
  | [] => trivial
  | n :: r => ⟨nodeAll_all hp n, nodeAllList_all hp r⟩
end

mutual
/-- Renaming preserves a header property that is insensitive to the renamings performed. -/
theorem nodeAll_renameAux {p : Hdr → Prop} {new : Str} {len : Nat}
    (hp : ∀ h c, p h → p { h with name := renameTimes new len c h.name }) :
    ∀ {n : Node} {c : Nat}, NodeAll p n → NodeAll p (n.renameAux new len c)
  | .mk h kids, c => by
    simp only [NodeAll, Node.renameAux]
    intro hh; exact ⟨hp h c hh.1, nodeAll_renameList hp hh.2⟩
theorem nodeAll_renameList {p : Hdr → Prop} {new : Str} {len : Nat}
    (hp : ∀ h c, p h → p { h with name := renameTimes new len c h.name }) :
    ∀ {l : List Node} {ss : List Slot} {c : Nat}, NodeAllList p l → NodeAllList p (renameList new len c ss l)
  | [], _, _ => by simp [renameList, NodeAllList]
  | k :: r, [], c => by
    simp only [NodeAllList, renameList]
    intro hh; exact ⟨nodeAll_renameAux hp hh.1, nodeAll_renameList hp hh.2⟩
  | k :: r, s :: ss, c => by
    simp only [NodeAllList, renameList]
    intro hh; exact ⟨nodeAll_renameAux hp hh.1, nodeAll_renameList hp hh.2⟩
end

/-- The data held by dictionary nodes: keys, values and nesting depth below `D`. -/
def DataOk (q : Key → Val → Prop) (D : Nat) (n : Node) : Prop :=
  ∀ m, nodeMeta n = some m → 1 ≤ D ∧
    (∀ kv ∈ nodeData n, q kv.1 kv.2 ∧ kv.2.depth + 1 ≤ D) ∧ (∀ kv ∈ m.data, q kv.1 kv.2 ∧ kv.2.depth + 1 ≤ D)

theorem DataOk.mono {q : Key → Val → Prop} {D D' : Nat} {n : Node} (h : DataOk q D n) (hd : D ≤ D') : DataOk q D' n := by
  intro m hm
  obtain ⟨h1, h2, h3⟩ := h m hm
  exact ⟨by omega, fun kv hkv => ⟨(h2 kv hkv).1, by have := (h2 kv hkv).2; omega⟩,
    fun kv hkv => ⟨(h3 kv hkv).1, by have := (h3 kv hkv).2; omega⟩⟩

theorem dataOk_leaf {q : Key → Val → Prop} {D : Nat} {n : Node} (h : nodeMeta n = none) : DataOk q D n := by
  intro m hm; rw [h] at hm; cases hm

theorem nodeMeta_updateNode {k c : Node} {m' : DMeta} (h : nodeMeta (updateNode k c) = some m') :
    (nodeMeta k = some m' ∧ nodeData (updateNode k c) = nodeData k) ∨
    ∃ m o, nodeMeta k = some m ∧ nodeMeta c = some o ∧ m' = m.update o ∧ nodeData (updateNode k c) = m'.data := by
  cases k with
  | mk h1 k1 =>
    cases c with
    | mk h2 k2 =>
      revert h
      simp only [updateNode]
      split
      · rename_i d m d' o e1 e2
        simp only [nodeMeta, nodeData, e1, e2, Option.some.injEq]
        intro h
        exact .inr ⟨m, o, rfl, rfl, h.symm, by rw [← h]⟩
      · intro h; exact .inl ⟨h, rfl⟩

theorem DataOk.updateNode {q : Key → Val → Prop} {D : Nat} {k c : Node} (hk : DataOk q D k) (hc : DataOk q D c) :
    DataOk q D (updateNode k c) := by
  intro m' hm'
  rcases nodeMeta_updateNode hm' with ⟨h1, h2⟩ | ⟨m, o, h1, h2, h3, h4⟩
  · rw [h2]; exact hk m' h1
  · obtain ⟨a1, a2, a3⟩ := hk m h1
    obtain ⟨b1, b2, b3⟩ := hc o h2
    have hall : ∀ kv ∈ m'.data, q kv.1 kv.2 ∧ kv.2.depth + 1 ≤ D := by
      intro kv hkv
      rw [h3] at hkv
      rcases mem_update_data hkv with h | h
      · exact a3 kv h
      · exact b3 kv h
    exact ⟨a1, by rw [h4]; exact hall, hall⟩

theorem nodeMeta_rename {n : Node} {new : Str} : nodeMeta (n.rename new) = nodeMeta n ∧ nodeData (n.rename new) = nodeData n := by
  cases n; simp [Node.rename, Node.renameAux, nodeMeta, nodeData]

theorem DataOk.rename {q : Key → Val → Prop} {D : Nat} {n : Node} {new : Str} (h : DataOk q D n) :
    DataOk q D (n.rename new) := by
  intro m hm
  rw [nodeMeta_rename.1] at hm
  rw [nodeMeta_rename.2]
  exact h m hm

/-! ### Depth -/

theorem depth_le_depthList {v : Val} : ∀ {l : List Val}, v ∈ l → v.depth ≤ depthList l
  | [] => by simp
  | w :: r => by
    simp only [List.mem_cons, depthList]
    rintro (rfl | h)
    · omega
    · have := depth_le_depthList h; omega

theorem depthList_le {D : Nat} : ∀ {l : List Val}, (∀ v ∈ l, v.depth ≤ D) → depthList l ≤ D
  | [], _ => by simp [depthList]
  | w :: r, h => by
    simp only [depthList]
    have h1 := h w (by simp)
    have h2 := depthList_le (l := r) (fun v hv => h v (by simp [hv]))
    omega

theorem depth_dict {items : List (Key × Val)} {D : Nat} (hD : 1 ≤ D) (h : ∀ kv ∈ items, kv.2.depth + 1 ≤ D) :
    (Val.dict items).depth ≤ D := by
  simp only [Val.dict, Val.depth]
  have : depthList (items.map (·.2)) ≤ D - 1 := by
    apply depthList_le
    intro v hv
    simp only [List.mem_map] at hv
    obtain ⟨kv, hkv, rfl⟩ := hv
    have := h kv hkv; omega
  omega

theorem valAllList_iff {p : Ty → Prop} {q : Key → Prop} {r : FuncInfo → Prop} :
    ∀ {l : List Val}, ValAllList p q r l ↔ ∀ v ∈ l, ValAll p q r v
  | [] => by simp [ValAllList]
  | v :: l => by simp [ValAllList, valAllList_iff (l := l)]

mutual
theorem valAll_imp {p p' : Ty → Prop} {q q' : Key → Prop} {r r' : FuncInfo → Prop} (hp : ∀ t, p t → p' t)
    (hq : ∀ k, q k → q' k) (hr : ∀ f, r f → r' f) : ∀ {v : Val}, ValAll p q r v → ValAll p' q' r' v
  | .inst _ _, h | .cls _ _, h | .module _, h | .io _, h | .ndarray _ _, h => hp _ h
  | .func _, h => ⟨hp _ h.1, hr _ h.2⟩
  | .seq _ _ _, h => ⟨hp _ h.1, valAllList_imp hp hq hr h.2⟩
  | .map _ _ _ _, h => ⟨hp _ h.1, fun k hk => hq k (h.2.1 k hk), valAllList_imp hp hq hr h.2.2⟩
theorem valAllList_imp {p p' : Ty → Prop} {q q' : Key → Prop} {r r' : FuncInfo → Prop} (hp : ∀ t, p t → p' t)
    (hq : ∀ k, q k → q' k) (hr : ∀ f, r f → r' f) : ∀ {l : List Val}, ValAllList p q r l → ValAllList p' q' r' l
  | [], _ => trivial
  | _ :: _, h => ⟨valAll_imp hp hq hr h.1, valAllList_imp hp hq hr h.2⟩
end

theorem valAll_ty {p : Ty → Prop} {q : Key → Prop} {r : FuncInfo → Prop} : ∀ {v : Val}, ValAll p q r v → p v.ty
  | .inst _ _, h | .cls _ _, h | .module _, h | .io _, h | .ndarray _ _, h => h
  | .func _, h => h.1
  | .seq _ _ _, h => h.1
  | .map _ _ _ _, h => h.1

theorem valAll_dict {p : Ty → Prop} {q : Key → Prop} {r : FuncInfo → Prop} {items : List (Key × Val)}
    (hp : p .dict) (h : ∀ kv ∈ items, q kv.1 ∧ ValAll p q r kv.2) : ValAll p q r (.dict items) := by
  refine ⟨hp, ?_, ?_⟩
  · intro k hk
    obtain ⟨kv, hkv, rfl⟩ := List.mem_map.mp hk
    exact (h kv hkv).1
  · rw [valAllList_iff]
    intro v hv
    obtain ⟨kv, hkv, rfl⟩ := List.mem_map.mp hv
    exact (h kv hkv).2

/-! ### Merging -/

/-- Merging succeeds and yields what the recursive call yields, with the merged metadata. -/
theorem mergeDicts_ens {rec : Str → Val → Except Err Node} {ds : List Node} {P R : Node → Prop} {Q : Err → Prop}
    {q : Key → Val → Prop} {D : Nat} (hne : ds ≠ [] ∨ Q .noTrees) (hP : ∀ d ∈ ds, DataOk q D d ∧ (nodeMeta d).isSome)
    (hrec : ∀ d ∈ ds, ∀ items, (∀ kv ∈ items, q kv.1 kv.2 ∧ kv.2.depth + 1 ≤ D) → 1 ≤ D → Ens (rec d.name (.dict items)) R Q)
    (hset : ∀ h kids data info, R (.mk h kids) → (1 ≤ D) → (∀ kv ∈ data, q kv.1 kv.2 ∧ kv.2.depth + 1 ≤ D) →
      (∀ kv ∈ info.data, q kv.1 kv.2 ∧ kv.2.depth + 1 ≤ D) → P (.mk { h with kind := .dict data info } kids)) :
    Ens (mergeDicts rec ds) P Q := by
  cases ds with
  | nil =>
    rcases hne with h | h
    · exact absurd rfl h
    · exact h
  | cons d ds =>
    unfold mergeDicts
    dsimp only
    have hmeta : ∃ m, nodeMeta d = some m := Option.isSome_iff_exists.mp (hP d (by simp)).2
    obtain ⟨m, hm⟩ := hmeta
    have hD := ((hP d (by simp)).1 m hm).1
    have hdata : ∀ kv ∈ (d :: ds).foldl (fun acc n => updateDict acc (nodeData n)) [],
        q kv.1 kv.2 ∧ kv.2.depth + 1 ≤ D := by
      intro kv hkv
      rcases mem_foldl_updateDict hkv with h | ⟨n, hn, h⟩
      · simp at h
      · obtain ⟨m', hm'⟩ := Option.isSome_iff_exists.mp (hP n hn).2
        exact ((hP n hn).1 m' hm').2.1 kv h
    have hname : ∃ d' ∈ d :: ds, ds.foldl (fun acc n => minStr acc n.name) d.name = d'.name := by
      rcases foldl_minStr_mem (ns := ds) (s := d.name) with h | ⟨n, hn, h⟩
      · exact ⟨d, by simp, h⟩
      · exact ⟨n, by simp [hn], h⟩
    obtain ⟨d', hd', hname⟩ := hname
    rw [hname]
    refine Ens.bind (hrec d' hd' _ hdata hD) ?_
    rintro ⟨h, kids⟩ hR
    apply Ens.pure
    refine hset _ _ _ _ hR hD hdata ?_
    intro kv hkv
    rcases mem_foldl_update_data hkv with h | ⟨o, ho, h⟩
    · rw [hm] at h
      exact ((hP d (by simp)).1 m hm).2.2 kv h
    · obtain ⟨n, hn, hno⟩ := List.mem_filterMap.mp ho
      exact ((hP n hn).1 o hno).2.2 kv h

theorem nodeMeta_of_isTypedDict {S : Strategies} {n : Node} (h : isTypedDict S n = true) : (nodeMeta n).isSome := by
  cases n with
  | mk h' k =>
    simp only [isTypedDict, nodeMeta] at *
    split at h
    · simp
    · cases h

/-! ### The construction principle -/

/-- The kind of the node built for a value. -/
def kindOf (S : Strategies) : Val → NKind
  | .inst _ _ => .inst
  | .func f => .func f
  | .cls _ n => .cls n
  | .module _ => .module
  | .io _ => .io
  | .ndarray _ d => .ndarray d
  | .seq k _ _ => .seq k
  | .map .dict _ ks vs => .dict (dictData S (ks.zip vs)) (DMeta.ofData (dictData S (ks.zip vs)))
  | .map .proxy _ _ _ => .proxy
  | .map (.frame i) _ _ _ => .frame i

/-- A slot of a sequence, or of a mapping with an admissible entry. -/
def SlotOk (q : Key → Val → Prop) (s : Slot) : Prop := s.key = .str [] ∨ ∃ v, q s.key v

/-- An invariant of tree construction: `G` on values, `q` on dictionary entries, `N` on names, `p` on node headers, `Q` on
errors. -/
structure Inv (E : Env) (G : Val → Prop) (q : Key → Val → Prop) (N : Str → Prop) (p : Hdr → Prop) (Q : Err → Prop) :
    Prop where
  seqElem : ∀ {k t es e}, G (.seq k t es) → e ∈ es → G e
  mapEntry : ∀ {k t ks vs kv}, G (.map k t ks vs) → kv ∈ ks.zip vs → q kv.1 kv.2
  entry : ∀ {k v}, q k v → G v
  dict : ∀ {items : List (Key × Val)}, (∀ kv ∈ items, q kv.1 kv.2) → G (.dict items)
  nameElem : ∀ {s v}, N s → G v → N (s ++ E.U.capitalize v.ty.name)
  nameNum : ∀ {s k}, N s → N (s ++ natStr k)
  nameKey : ∀ {s k v}, N s → q k v → N (s ++ keySuffix E.U k)
  nameLabel : ∀ {s k v}, N s → q k v → N (s ++ labelSuffix E.U k)
  nameTy : ∀ {s h}, N s → p h → N (s ++ E.U.capitalize h.ty.name)
  rename : ∀ {h new len c}, p h → N new → p { h with name := renameTimes new len c h.name }
  hdr : ∀ {name v root slots}, N name → G v → (∀ s ∈ slots, SlotOk q s) → p { kind := kindOf E.S v, name, root, ty := v.ty, slots }
  merge : ∀ {h : Hdr} {data : List (Key × Val)} {info : DMeta}, p h → (∀ kv ∈ data, q kv.1 kv.2) →
    (∀ kv ∈ info.data, q kv.1 kv.2) → p { h with kind := .dict data info }
  bad : ∀ {name v}, N name → G v → nameOk E.U name = false → Q (.badName name)
  sig : ∀ {f}, G (.func f) → f.sig = .typeError → Q .signature
  noTrees : ¬ 0 < E.S.merge → Q .noTrees

/-- What construction guarantees for a node built under the invariant from a value nested at most `D` deep. -/
def Built (q : Key → Val → Prop) (N : Str → Prop) (p : Hdr → Prop) (D : Nat) (n : Node) : Prop :=
  NodeAll p n ∧ DataOk q D n ∧ N n.name

theorem nodeAll_updateNode {p : Hdr → Prop} {q : Key → Val → Prop} {D : Nat}
    (hm : ∀ {h : Hdr} {data : List (Key × Val)} {info : DMeta}, p h → (∀ kv ∈ data, q kv.1 kv.2) →
      (∀ kv ∈ info.data, q kv.1 kv.2) → p { h with kind := .dict data info }) {k c : Node}
    (h : NodeAll p k) (hd : DataOk q D (updateNode k c)) : NodeAll p (updateNode k c) := by
  cases k with
  | mk h1 k1 =>
    cases c with
    | mk h2 k2 =>
      revert hd
      simp only [updateNode]
      split
      · intro hd
        simp only [NodeAll] at h ⊢
        obtain ⟨_, a, b⟩ := hd _ rfl
        exact ⟨hm h.1 (fun kv hkv => (a kv hkv).1) (fun kv hkv => (b kv hkv).1), h.2⟩
      · exact fun _ => h

theorem name_updateNode {k c : Node} : (updateNode k c).name = k.name := by
  cases k with
  | mk h1 k1 =>
    cases c with
    | mk h2 k2 =>
      simp only [updateNode]
      split <;> rfl

theorem drop_self_append (a : Str) : a.drop a.length = [] := by simp

theorem name_rename {n : Node} {new : Str} : (n.rename new).name = new := by
  cases n; simp [Node.rename, Node.renameAux, Node.name, Node.hdr, renameTimes]

section
variable {E : Env} {G : Val → Prop} {q : Key → Val → Prop} {N : Str → Prop} {p : Hdr → Prop} {Q : Err → Prop}

theorem Built.rename (I : Inv E G q N p Q) {D n new} (h : Built q N p D n) (hn : N new) : Built q N p D (n.rename new) :=
  ⟨nodeAll_renameAux (fun _ _ hh => I.rename hh hn) h.1, h.2.1.rename, by rw [name_rename]; exact hn⟩

theorem Built.mono {D D' n} (h : Built q N p D n) (hd : D ≤ D') : Built q N p D' n := ⟨h.1, h.2.1.mono hd, h.2.2⟩

/-- The names given to the children of a node called `name` are admissible. -/
structure Step (E : Env) (G : Val → Prop) (q : Key → Val → Prop) (N : Str → Prop) (p : Hdr → Prop) (name : Str) : Prop where
  elem : ∀ {v}, G v → N (name ++ E.U.capitalize v.ty.name)
  key : ∀ {k v}, q k v → N (name ++ keySuffix E.U k)
  label : ∀ {k v}, q k v → N (name ++ labelSuffix E.U k)
  ty : ∀ {h}, p h → N (name ++ E.U.capitalize h.ty.name)

theorem Inv.step (I : Inv E G q N p Q) {name : Str} (hN : N name) : Step E G q N p name :=
  ⟨I.nameElem hN, I.nameKey hN, I.nameLabel hN, I.nameTy hN⟩

theorem recSpec_of (I : Inv E G q N p Q) {fuel D : Nat} {name : Str} {es : List Val} (hN : Step E G q N p name) (hes : ∀ e ∈ es, G e)
    (hD : ∀ e ∈ es, e.depth ≤ D) (hf : D < fuel)
    (ih : ∀ name v, N name → G v → v.depth < fuel → Ens (build E fuel false name v) (Built q N p v.depth) Q) :
    RecSpec E (build E fuel false) name es (Built q N p D) Q where
  elem v hv nm hnm := by
    have h1 : N nm := by
      rcases hnm with rfl | ⟨k, rfl⟩
      · exact hN.elem (hes v hv)
      · exact I.nameNum (hN.elem (hes v hv))
    have := hD v hv
    exact (ih nm v h1 (hes v hv) (by omega)).imp (fun n hn => hn.mono this) (fun _ h => h)
  upd k c hk hc := ⟨nodeAll_updateNode I.merge hk.1 (hk.2.1.updateNode hc.2.1), hk.2.1.updateNode hc.2.1, by rw [name_updateNode]; exact hk.2.2⟩
  merge ds hds hne := by
    refine mergeDicts_ens (R := Built q N p D) (q := q) (D := D) ?_ ?_ ?_ ?_
    · by_cases h : 0 < E.S.merge
      · exact .inl (hne h)
      · exact .inr (I.noTrees h)
    · intro d hd
      exact ⟨(hds d hd).1.2.1, nodeMeta_of_isTypedDict (hds d hd).2⟩
    · intro d hd items hitems h1
      have hdep := depth_dict h1 (fun kv hkv => (hitems kv hkv).2)
      exact (ih d.name (.dict items) (hds d hd).1.2.2 (I.dict (fun kv hkv => (hitems kv hkv).1)) (by omega)).imp
        (fun n hn => hn.mono hdep) (fun _ h => h)
    · intro h kids data info hR h1 hdata hinfo
      refine ⟨?_, ?_, hR.2.2⟩
      · have := hR.1
        simp only [NodeAll] at this ⊢
        exact ⟨I.merge this.1 (fun kv hkv => (hdata kv hkv).1) (fun kv hkv => (hinfo kv hkv).1), this.2⟩
      · intro m hm
        simp only [nodeMeta, Option.some.injEq] at hm
        subst hm
        exact ⟨h1, hdata, hinfo⟩

theorem dictData_subset {S : Strategies} {items : List (Key × Val)} {kv} (h : kv ∈ dictData S items) : kv ∈ items := by
  unfold dictData at h
  split at h
  · exact h
  · exact limit_subset h

theorem zip_depth {ks : List Key} {vs : List Val} {kv : Key × Val} (h : kv ∈ ks.zip vs) : kv.2.depth ≤ depthList vs :=
  depth_le_depthList (List.of_mem_zip h).2

theorem mapChildren_built (I : Inv E G q N p Q) {fuel D : Nat} {name : Str} {items : List (Key × Val)} (hN : Step E G q N p name)
    (hitems : ∀ kv ∈ items, q kv.1 kv.2 ∧ kv.2.depth ≤ D) (hf : D < fuel)
    (ih : ∀ name v, N name → G v → v.depth < fuel → Ens (build E fuel false name v) (Built q N p v.depth) Q) :
    Ens (mapChildren E (build E fuel false) name items)
      (fun r => (∀ k ∈ r.2, Built q N p D k) ∧ ∀ s ∈ r.1, SlotOk q s) Q := by
  unfold mapChildren
  refine Ens.bind (mapKids_ens (R := fun _ _ n => Built q N p D n) ?_) ?_
  · intro kv hkv
    have hkv := hitems kv (List.mem_filter.mp hkv).1
    exact (ih _ _ (hN.key hkv.1) (I.entry hkv.1) (by omega)).imp (fun n hn => hn.mono hkv.2) (fun _ h => h)
  · intro kids hk
    apply Ens.pure
    refine ⟨?_, ?_⟩
    rotate_left
    · intro s hs
      have hm : s.key ∈ (shareEqual E name kids).1.map (·.key) := List.mem_map_of_mem hs
      rw [shareEqual_keys, hk.1] at hm
      obtain ⟨kv, hkv, hkey⟩ := List.mem_map.mp hm
      exact .inr ⟨kv.2, by rw [← hkey]; exact (hitems kv (List.mem_filter.mp hkv).1).1⟩
    apply shareEqual_all (P := Built q N p D)
    · intro kn hkn
      obtain ⟨v, _, h⟩ := hk.2 kn hkn
      exact h
    · intro n nm hn hnm
      apply hn.rename I
      have hp := nodeAll_hdr hn.1
      rcases hnm with rfl | ⟨k, rfl⟩
      · exact hN.ty hp
      · exact I.nameNum (hN.ty hp)

theorem frameChildren_built (I : Inv E G q N p Q) {fuel D : Nat} {name : Str} {items : List (Key × Val)} (hN : Step E G q N p name)
    (hitems : ∀ kv ∈ items, q kv.1 kv.2 ∧ kv.2.depth ≤ D) (hf : D < fuel)
    (ih : ∀ name v, N name → G v → v.depth < fuel → Ens (build E fuel false name v) (Built q N p v.depth) Q) :
    Ens (frameChildren E (build E fuel false) name items)
      (fun r => (∀ k ∈ r.2, Built q N p D k) ∧ ∀ s ∈ r.1, SlotOk q s) Q := by
  unfold frameChildren
  refine Ens.bind (mapKids_ens (R := fun _ _ n => Built q N p D n) ?_) ?_
  · intro kv hkv
    have hkv := hitems kv hkv
    exact (ih _ _ (hN.label hkv.1) (I.entry hkv.1) (by omega)).imp (fun n hn => hn.mono hkv.2) (fun _ h => h)
  · intro kids hk
    apply Ens.pure
    refine ⟨?_, ?_⟩
    · intro k hkk
      obtain ⟨kn, hkn, rfl⟩ := List.mem_map.mp hkk
      obtain ⟨v, _, h⟩ := hk.2 kn hkn
      exact h
    · intro s hs
      obtain ⟨kn, hkn, rfl⟩ := List.mem_map.mp hs
      obtain ⟨v, hv, _⟩ := hk.2 kn hkn
      exact .inr ⟨v, (hitems _ hv).1⟩

/-- Construction under an invariant. -/
theorem build_ens (hE : E.Fair) (I : Inv E G q N p Q) : ∀ (fuel : Nat) (root : Bool) (name : Str) (v : Val),
    N name → G v → v.depth < fuel →
    Ens (build E fuel root name v) (fun n => Built q N p v.depth n ∧ n.name = name ∧ n.hdr.ty = v.ty ∧
      n.hdr.kind = kindOf E.S v ∧ n.hdr.root = root) Q
  | 0, _, _, _, _, _, h => by omega
  | fuel + 1, root, name, v, hN, hG, hf => by
    have ih : ∀ name v, N name → G v → v.depth < fuel →
        Ens (build E fuel false name v) (Built q N p v.depth) Q := fun name v h1 h2 h3 =>
      (build_ens hE I fuel false name v h1 h2 h3).imp (fun _ h => h.1) (fun _ h => h)
    have hleaf : ∀ k : NKind, k = kindOf E.S v → (∀ d m, k ≠ .dict d m) →
        Ens (if nameOk E.U name then .ok (.mk { kind := k, name, root, ty := v.ty, slots := [] } []) else .error (.badName name))
        (fun n : Node => Built q N p v.depth n ∧ n.name = name ∧ n.hdr.ty = v.ty ∧ n.hdr.kind = kindOf E.S v ∧
          n.hdr.root = root) Q := by
      rintro k rfl hk
      split
      · refine ⟨⟨?_, ?_, hN⟩, rfl, rfl, rfl, rfl⟩
        · simp only [NodeAll, NodeAllList, and_true]
          exact I.hdr hN hG (by simp)
        · apply dataOk_leaf
          simp only [nodeMeta]
      · rename_i hb
        exact I.bad hN hG (by simpa using hb)
    have hnode : ∀ (k : NKind) (c : Except Err (List Slot × List Node)) (D : Nat), k = kindOf E.S v →
        (∀ d m, k = .dict d m → 1 ≤ v.depth ∧ (∀ kv ∈ d, q kv.1 kv.2 ∧ kv.2.depth + 1 ≤ v.depth) ∧ m.data = d) →
        Ens c (fun r => (∀ k ∈ r.2, Built q N p D k) ∧ ∀ s ∈ r.1, SlotOk q s) Q →
        Ens (match c with
          | .ok (slots, kids) => .ok (.mk { kind := k, name, root, ty := v.ty, slots } kids)
          | .error e => .error e)
        (fun n : Node => Built q N p v.depth n ∧ n.name = name ∧ n.hdr.ty = v.ty ∧ n.hdr.kind = kindOf E.S v ∧
          n.hdr.root = root) Q := by
      rintro k c D rfl hk hc
      cases c with
      | error e => exact hc
      | ok r =>
        obtain ⟨slots, kids⟩ := r
        refine ⟨⟨?_, ?_, hN⟩, rfl, rfl, rfl, rfl⟩
        · simp only [NodeAll]
          refine ⟨I.hdr hN hG hc.2, ?_⟩
          rw [nodeAllList_iff]
          intro kid hkid
          exact (hc.1 kid hkid).1
        · intro m hm
          cases hkk : kindOf E.S v with
          | dict d m' =>
            simp only [nodeMeta, hkk, Option.some.injEq] at hm
            subst hm
            have := hk d m' hkk
            simp only [nodeData]
            exact ⟨this.1, this.2.1, by rw [this.2.2]; exact this.2.1⟩
          | _ => simp [nodeMeta, hkk] at hm
    have hchecked : ∀ (k : NKind) (c : Except Err (List Slot × List Node)) (D : Nat), k = kindOf E.S v →
        (∀ d m, k ≠ .dict d m) →
        Ens c (fun r => (∀ k ∈ r.2, Built q N p D k) ∧ ∀ s ∈ r.1, SlotOk q s) Q →
        Ens (if nameOk E.U name then (match c with
          | .ok (slots, kids) => .ok (.mk { kind := k, name, root, ty := v.ty, slots } kids)
          | .error e => .error e) else .error (.badName name))
        (fun n : Node => Built q N p v.depth n ∧ n.name = name ∧ n.hdr.ty = v.ty ∧ n.hdr.kind = kindOf E.S v ∧
          n.hdr.root = root) Q := by
      intro k c D hk hkd hc
      split
      · exact hnode k c D hk (fun d m h => absurd h (hkd d m)) hc
      · rename_i hb
        exact I.bad hN hG (by simpa using hb)
    cases v with
    | inst t x => exact hleaf .inst rfl (by simp)
    | cls m n => exact hleaf (.cls n) rfl (by simp)
    | module t => exact hleaf .module rfl (by simp)
    | io t => exact hleaf .io rfl (by simp)
    | ndarray t d => exact hleaf (.ndarray d) rfl (by simp)
    | func f =>
      have h := hleaf (.func f) rfl (by simp)
      simp only [build]
      by_cases hb : nameOk E.U name = true
      · rw [if_pos hb] at h ⊢
        dsimp only
        split
        · rename_i hs
          simp only [Bool.and_eq_true, Bool.not_eq_true', decide_eq_true_eq] at hs
          exact I.sig hG hs.2
        · exact h
      · rw [if_neg hb] at h ⊢
        exact h
    | seq k t es =>
      have hd : depthList es < fuel := by simp only [Val.depth] at hf; omega
      have hr := recSpec_of I (I.step hN) (fun e he => I.seqElem hG he) (fun e he => depth_le_depthList he) hd ih
      refine hchecked (.seq k) _ (depthList es) rfl (by simp) ?_
      split
      · exact (tupleChildren_ens hr (fun k c hk hc => hc.rename I hk.2.2)).imp (fun r hr => ⟨hr.1, fun s hs => by
          obtain ⟨m, _, rfl⟩ := hr.2.2 s hs
          exact .inl rfl⟩) (fun _ h => h)
      · exact (setChildren_ens hE hr).imp (fun r hr => ⟨hr.1, fun s hs => by
          rw [hr.2] at hs
          obtain ⟨_, _, rfl⟩ := List.mem_map.mp hs
          exact .inl rfl⟩) (fun _ h => h)
    | map k t ks vs =>
      have hd : depthList vs < fuel := by simp only [Val.depth] at hf; omega
      have hentry : ∀ kv ∈ ks.zip vs, q kv.1 kv.2 ∧ kv.2.depth ≤ depthList vs := fun kv hkv =>
        ⟨I.mapEntry hG hkv, zip_depth hkv⟩
      cases k with
      | dict =>
        have hentry' : ∀ kv ∈ dictData E.S (ks.zip vs), q kv.1 kv.2 ∧ kv.2.depth ≤ depthList vs :=
          fun kv hkv => hentry kv (dictData_subset hkv)
        refine hnode (.dict (dictData E.S (ks.zip vs)) (DMeta.ofData (dictData E.S (ks.zip vs)))) _ (depthList vs) rfl ?_
          (mapChildren_built I (I.step hN) hentry' hd ih)
        intro d m hdm
        simp only [NKind.dict.injEq] at hdm
        obtain ⟨rfl, rfl⟩ := hdm
        refine ⟨by simp [Val.depth], ?_, rfl⟩
        intro kv hkv
        have := hentry' kv hkv
        refine ⟨this.1, ?_⟩
        simp only [Val.depth]; omega
      | proxy =>
        refine hchecked .proxy _ (depthList vs) rfl (by simp) (mapChildren_built I (I.step hN) ?_ hd ih)
        exact fun kv hkv => hentry kv (limit_subset hkv)
      | frame i =>
        exact hchecked (.frame i) _ (depthList vs) rfl (by simp) (frameChildren_built I (I.step hN) hentry hd ih)

/-- The children of a node whose own name need not be admissible. -/
theorem build_kids (hE : E.Fair) (I : Inv E G q N p Q) {fuel : Nat} {root : Bool} {name : Str} {v : Val} {n : Node}
    (hN : Step E G q N p name) (hG : G v) (hf : v.depth < fuel) (hb : build E fuel root name v = .ok n) :
    ∀ k ∈ n.kids, NodeAll p k := by
  cases fuel with
  | zero => omega
  | succ fuel =>
    have ih : ∀ name v, N name → G v → v.depth < fuel →
        Ens (build E fuel false name v) (Built q N p v.depth) Q := fun name v h1 h2 h3 =>
      (build_ens hE I fuel false name v h1 h2 h3).imp (fun _ h => h.1) (fun _ h => h)
    have hnode : ∀ (k : NKind) (c : Except Err (List Slot × List Node)) (D : Nat),
        Ens c (fun r => (∀ k ∈ r.2, Built q N p D k) ∧ ∀ s ∈ r.1, SlotOk q s) Q →
        (match c with
          | .ok (slots, kids) => .ok (.mk { kind := k, name, root, ty := v.ty, slots } kids)
          | .error e => .error e) = Except.ok (ε := Err) n → ∀ k ∈ n.kids, NodeAll p k := by
      intro k c D hc he
      cases c with
      | error e => cases he
      | ok r => cases he; exact fun k hk => (hc.1 k hk).1
    have hchecked : ∀ (k : NKind) (c : Except Err (List Slot × List Node)) (D : Nat),
        Ens c (fun r => (∀ k ∈ r.2, Built q N p D k) ∧ ∀ s ∈ r.1, SlotOk q s) Q →
        (if nameOk E.U name then (match c with
          | .ok (slots, kids) => .ok (.mk { kind := k, name, root, ty := v.ty, slots } kids)
          | .error e => .error e) else .error (.badName name)) = Except.ok (ε := Err) n → ∀ k ∈ n.kids, NodeAll p k := by
      intro k c D hc he
      split at he
      · exact hnode k c D hc he
      · cases he
    have hleaf : ∀ k : NKind,
        (if nameOk E.U name then Except.ok (.mk { kind := k, name, root, ty := v.ty, slots := [] } []) else .error (.badName name)) =
          Except.ok (ε := Err) n → ∀ k ∈ n.kids, NodeAll p k := by
      intro k he
      split at he
      · cases he; simp [Node.kids]
      · cases he
    cases v with
    | inst t x => exact hleaf .inst hb
    | cls m n => exact hleaf (.cls n) hb
    | module t => exact hleaf .module hb
    | io t => exact hleaf .io hb
    | ndarray t d => exact hleaf (.ndarray d) hb
    | func f =>
      simp only [build] at hb
      by_cases hn : nameOk E.U name = true
      · rw [if_pos hn] at hb
        dsimp only at hb
        split at hb
        · cases hb
        · cases hb; simp [Node.kids]
      · rw [if_neg hn] at hb
        cases hb
    | seq k t es =>
      have hd : depthList es < fuel := by simp only [Val.depth] at hf; omega
      have hr := recSpec_of I hN (fun e he => I.seqElem hG he) (fun e he => depth_le_depthList he) hd ih
      refine hchecked (.seq k) _ (depthList es) ?_ hb
      split
      · exact (tupleChildren_ens hr (fun k c hk hc => hc.rename I hk.2.2)).imp (fun r hr => ⟨hr.1, fun s hs => by
          obtain ⟨m, _, rfl⟩ := hr.2.2 s hs
          exact .inl rfl⟩) (fun _ h => h)
      · exact (setChildren_ens hE hr).imp (fun r hr => ⟨hr.1, fun s hs => by
          rw [hr.2] at hs
          obtain ⟨_, _, rfl⟩ := List.mem_map.mp hs
          exact .inl rfl⟩) (fun _ h => h)
    | map k t ks vs =>
      have hd : depthList vs < fuel := by simp only [Val.depth] at hf; omega
      have hentry : ∀ kv ∈ ks.zip vs, q kv.1 kv.2 ∧ kv.2.depth ≤ depthList vs := fun kv hkv =>
        ⟨I.mapEntry hG hkv, zip_depth hkv⟩
      cases k with
      | dict =>
        exact hnode (.dict (dictData E.S (ks.zip vs)) (DMeta.ofData (dictData E.S (ks.zip vs)))) _ (depthList vs)
          (mapChildren_built I hN (fun kv hkv => hentry kv (dictData_subset hkv)) hd ih) hb
      | proxy =>
        exact hchecked .proxy _ (depthList vs) (mapChildren_built I hN (fun kv hkv => hentry kv (limit_subset hkv)) hd ih) hb
      | frame i =>
        exact hchecked (.frame i) _ (depthList vs) (frameChildren_built I hN hentry hd ih) hb

end
end Verif
