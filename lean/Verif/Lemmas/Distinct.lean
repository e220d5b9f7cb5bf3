import Verif.Spec.Distinct
import Verif.Lemmas.Prefixed
import Verif.Lemmas.InspectedPart
import Verif.Lemmas.ValueHash
/-
Repeated elements have no influence.
-/
namespace Verif
open Verif.Spec

theorem orderByHash_names {E : Env} (h : OrderByHash E) : OrderIgnoresNames E := fun p site l =>
  h site l (prefixed p) (fun n => ⟨hash_pre E.S n, by cases n; rfl⟩)

theorem orderByHash_via {E : Env} (h : OrderByHash E) (φ : Val → Val) (site : Nat) (l : List Node) :
    E.order site (l.map (viaTree φ)) = (E.order site l).map (viaTree φ) :=
  h site l (viaTree φ) (fun n => ⟨hash_via E.S n, by cases n; exact tag_via _⟩)

/-! ### Values without the contents of strings -/

mutual
def untext : Val → Val
  | .inst t _ => .inst t none
  | .seq k t es => .seq k t (untexts es)
  | .map k t ks vs => .map k t ks (untexts vs)
  | v => v
def untexts : List Val → List Val
  | [] => []
  | v :: r => untext v :: untexts r
end

theorem untexts_map : ∀ l : List Val, untexts l = l.map untext
  | [] => rfl
  | v :: r => by simp [untexts, untexts_map r]

mutual
theorem equalVal_untext : ∀ {v w : Val}, equalVal v w = true → untext v = untext w
  | .inst t x, w => by
    cases w <;> simp [equalVal, untext]
  | .func f, w => by cases w <;> simp [equalVal, untext]
  | .cls m n, w => by cases w <;> simp +contextual [equalVal, untext]
  | .module t, w => by cases w <;> simp [equalVal, untext]
  | .io t, w => by cases w <;> simp [equalVal, untext]
  | .ndarray t d, w => by cases w <;> simp +contextual [equalVal, untext]
  | .seq k t es, w => by
    cases w <;> simp only [equalVal, untext, Bool.and_eq_true, decide_eq_true_eq, Bool.false_eq_true, false_implies]
    rintro ⟨⟨rfl, rfl⟩, h⟩
    rw [equalVals_untext h]
  | .map k t ks vs, w => by
    cases w <;> simp only [equalVal, untext, Bool.and_eq_true, decide_eq_true_eq, Bool.false_eq_true, false_implies]
    rintro ⟨⟨rfl, rfl, rfl⟩, h⟩
    rw [equalVals_untext h]
theorem equalVals_untext : ∀ {l l' : List Val}, equalVals l l' = true → untexts l = untexts l'
  | [], [] => fun _ => rfl
  | [], _ :: _ => by simp [equalVals]
  | _ :: _, [] => by simp [equalVals]
  | v :: r, w :: r' => by
    simp only [equalVals, Bool.and_eq_true, untexts]
    rintro ⟨h1, h2⟩
    rw [equalVal_untext h1, equalVals_untext h2]
end

theorem untext_ty (v : Val) : (untext v).ty = v.ty := by cases v <;> rfl

theorem untext_dict (d : List (Key × Val)) : untext (.dict d) = .dict (viaData untext d) := by
  simp [Val.dict, untext, untexts_map, viaData, Function.comp_def]

theorem zip_untext (ks : List Key) (vs : List Val) : ks.zip (vs.map untext) = viaData untext (ks.zip vs) := by
  rw [List.zip_map_right]; rfl

theorem dictData_viaData (φ : Val → Val) (S : Strategies) (d : List (Key × Val)) : dictData S (viaData φ d) = viaData φ (dictData S d) := by
  unfold dictData
  split
  · rfl
  · exact limit_viaData φ _ d

theorem buildAs_untext {E : Env} (hE : E.Fair) (hO : OrderByHash E) (ok : Str → Bool) : ∀ (f : Nat) (root : Bool) (name : Str) (v : Val),
    buildAs ok E f root name (untext v) = (buildAs ok E f root name v).map (viaTree untext)
  | 0, _, _, _ => rfl
  | f + 1, root, name, v => by
    have hr : Commutes untext (buildAs ok E f false) := fun nm v => buildAs_untext hE hO ok f false nm v
    cases v with
    | inst t x => simp only [untext, buildAs]; split <;> rfl
    | cls t x => simp only [untext, buildAs]; split <;> rfl
    | module t => simp only [untext, buildAs]; split <;> rfl
    | io t => simp only [untext, buildAs]; split <;> rfl
    | ndarray t x => simp only [untext, buildAs]; split <;> rfl
    | func i =>
      simp only [untext, buildAs]
      split
      · rfl
      · rename_i n h1
        split at h1
        · injection h1 with h1
          subst h1
          split <;> rfl
        · cases h1
    | seq k t es =>
      have hl : limit E.S.checkMax (es.map untext) = (limit E.S.checkMax es).map untext := limit_map_bare _ _ _
      simp only [untext, buildAs, untexts_map]
      rw [tupleChildren_via untext_ty (fun _ => untext_dict) hr hl, setChildren_via hE untext_ty (fun _ => untext_dict) (orderByHash_via hO untext) hr hl]
      by_cases hk : k = .tuple ∧ E.S.tuple = .fixed
      · simp only [if_pos hk]
        split
        · cases hc : tupleChildren E (buildAs ok E f false) name es with
          | error e => rfl
          | ok c => simp [Except.map, viaKids, viaTree, viaKind, viaTrees_map, Val.ty]
        · rfl
      · simp only [if_neg hk]
        split
        · cases hc : setChildren E (buildAs ok E f false) name es with
          | error e => rfl
          | ok c => simp [Except.map, viaKids, viaTree, viaKind, viaTrees_map, Val.ty]
        · rfl
    | map k t ks vs =>
      cases k with
      | dict =>
        simp only [untext, buildAs, untexts_map, zip_untext, dictData_viaData]
        rw [mapChildren_via hr, ← viaMeta_ofData]
        cases hc : mapChildren E (buildAs ok E f false) name (dictData E.S (ks.zip vs)) with
        | error e => rfl
        | ok c => simp [Except.map, viaKids, viaTree, viaKind, viaMeta, viaTrees_map, Val.ty]
      | proxy =>
        simp only [untext, buildAs, untexts_map, zip_untext, limit_viaData]
        rw [mapChildren_via hr]
        split
        · cases hc : mapChildren E (buildAs ok E f false) name (limit E.S.checkMax (ks.zip vs)) with
          | error e => rfl
          | ok c => simp [Except.map, viaKids, viaTree, viaKind, viaTrees_map, Val.ty]
        · rfl
      | frame i =>
        simp only [untext, buildAs, untexts_map, zip_untext]
        rw [frameChildren_via hr]
        split
        · cases hc : frameChildren E (buildAs ok E f false) name (ks.zip vs) with
          | error e => rfl
          | ok c => simp [Except.map, viaKids, viaTree, viaKind, viaTrees_map, Val.ty]
        · rfl

/-! ### Metadata that are updated again -/

theorem map_eq_self {α} {g : α → α} : ∀ {l : List α}, l.map g = l → ∀ x ∈ l, g x = x
  | [], _ => by simp
  | a :: r, h => by
    simp only [List.map_cons, List.cons.injEq] at h
    intro x hx
    rcases List.mem_cons.mp hx with rfl | hx
    · exact h.1
    · exact map_eq_self h.2 x hx

/-- What `update` does to the entries that say whether a key is required. -/
def reqStep (m o : DMeta) (kb : Key × Bool) : Key × Bool :=
  if o.init.isEmpty then (kb.1, false) else (kb.1, if m.init.contains kb.1 && !o.init.contains kb.1 then false else kb.2)

theorem update_req (m o : DMeta) : (m.update o).req =
    (m.req ++ (((m.data ++ o.data.filter (fun kv => (lookupKey kv.1 m.data).isNone)).filter
      (fun kv => !kv.1.hidden && (lookupKey kv.1 m.req).isNone)).map fun kv => (kv.1, false))).map (reqStep m o) := by
  unfold DMeta.update reqStep
  dsimp only
  split <;> rfl

/-- The update changes nothing. -/
structure Idle (m o : DMeta) : Prop where
  data : ∀ k ∈ o.data.map (·.1), (lookupKey k m.data).isSome = true
  known : ∀ kv ∈ m.data, kv.1.hidden = false → (lookupKey kv.1 m.req).isSome = true
  req : ∀ x ∈ m.req, reqStep m o x = x

theorem idle_of_eq {m o : DMeta} (h : m.update o = m) : Idle m o := by
  have hd : (m.update o).data = m.data := by rw [h]
  have hr : (m.update o).req = m.req := by rw [h]
  have hd' : o.data.filter (fun kv => (lookupKey kv.1 m.data).isNone) = [] := by
    have : m.data ++ o.data.filter (fun kv => (lookupKey kv.1 m.data).isNone) = m.data := hd
    simpa using this
  rw [update_req, hd', List.append_nil] at hr
  have hl := congrArg List.length hr
  simp only [List.length_map, List.length_append] at hl
  have hn : m.data.filter (fun kv => !kv.1.hidden && (lookupKey kv.1 m.req).isNone) = [] := List.length_eq_zero_iff.mp (by omega)
  rw [hn, List.map_nil, List.append_nil] at hr
  refine ⟨?_, ?_, map_eq_self hr⟩
  · intro k hk
    obtain ⟨kv, hkv, rfl⟩ := List.mem_map.mp hk
    have := List.filter_eq_nil_iff.mp hd' kv hkv
    cases h' : lookupKey kv.1 m.data <;> simp_all
  · intro kv hkv hh
    have := List.filter_eq_nil_iff.mp hn kv hkv
    cases h' : lookupKey kv.1 m.req <;> simp_all

theorem Idle.eq {m o : DMeta} (h : Idle m o) : m.update o = m := by
  have hd' : o.data.filter (fun kv => (lookupKey kv.1 m.data).isNone) = [] := by
    rw [List.filter_eq_nil_iff]
    intro kv hkv
    have := h.data kv.1 (List.mem_map_of_mem hkv)
    cases h' : lookupKey kv.1 m.data <;> simp_all
  have hn : m.data.filter (fun kv => !kv.1.hidden && (lookupKey kv.1 m.req).isNone) = [] := by
    rw [List.filter_eq_nil_iff]
    intro kv hkv
    have := h.known kv hkv
    cases h1 : kv.1.hidden with
    | true => simp
    | false =>
      have := this h1
      cases h' : lookupKey kv.1 m.req <;> simp_all
  have hr : (m.update o).req = m.req := by
    rw [update_req, hd', List.append_nil, hn, List.map_nil, List.append_nil]
    conv => rhs; rw [← List.map_id m.req]
    exact List.map_congr_left h.req
  have hd : (m.update o).data = m.data := by
    show m.data ++ _ = _
    rw [hd', List.append_nil]
  have hi : (m.update o).init = m.init := rfl
  cases hm : m.update o with
  | mk a b c =>
    cases m
    simp only [hm] at hr hd hi
    simp_all

theorem reqStep_false (m o : DMeta) (k : Key) : reqStep m o (k, false) = (k, false) := by
  unfold reqStep
  split
  · rfl
  · simp

theorem reqStep_cases (m o : DMeta) (x : Key × Bool) : reqStep m o x = x ∨ reqStep m o x = (x.1, false) := by
  unfold reqStep
  split
  · exact .inr rfl
  · by_cases h : (m.init.contains x.1 && !o.init.contains x.1) = true
    · simp only [if_pos h]; exact .inr trivial
    · simp only [if_neg h]; exact .inl trivial

theorem reqStep_twice (m o : DMeta) (x : Key × Bool) : reqStep m o (reqStep m o x) = reqStep m o x := by
  rcases reqStep_cases m o x with h | h
  · rw [h, h]
  · rw [h, reqStep_false]

theorem reqStep_key (m o : DMeta) (x : Key × Bool) : (reqStep m o x).1 = x.1 := by
  rcases reqStep_cases m o x with h | h <;> rw [h]

theorem update_data_some {m o : DMeta} {k : Key} (h : (lookupKey k m.data).isSome = true ∨ k ∈ o.data.map (·.1)) :
    (lookupKey k (m.update o).data).isSome = true := by
  show (lookupKey k (m.data ++ _)).isSome = true
  rw [lookupKey_append]
  cases h1 : lookupKey k m.data with
  | some x => simp
  | none =>
    simp only [h1, Option.isSome_none, Bool.false_eq_true, false_or] at h
    simp only [Option.none_or]
    rw [lookupKey_isSome]
    obtain ⟨kv, hkv, rfl⟩ := List.mem_map.mp h
    exact List.mem_map_of_mem (List.mem_filter.mpr ⟨hkv, by simp [h1]⟩)

theorem update_known (m o : DMeta) : ∀ kv ∈ (m.update o).data, kv.1.hidden = false → (lookupKey kv.1 (m.update o).req).isSome = true := by
  intro kv hkv hh
  rw [update_req, lookupKey_isSome]
  rw [List.map_map]
  have e : ((fun x : Key × Bool => x.1) ∘ reqStep m o) = (·.1) := by funext x; exact reqStep_key m o x
  rw [e, List.map_append, List.mem_append]
  cases h1 : lookupKey kv.1 m.req with
  | some b => exact .inl (lookupKey_isSome.mp (by simp [h1]))
  | none =>
    refine .inr ?_
    rw [List.map_map]
    refine List.mem_map.mpr ⟨kv, List.mem_filter.mpr ⟨hkv, by simp [h1, hh]⟩, rfl⟩

theorem update_idle (m o : DMeta) : Idle (m.update o) o := by
  refine ⟨fun k hk => update_data_some (.inr hk), update_known m o, ?_⟩
  intro x hx
  rw [update_req] at hx
  obtain ⟨y, _, rfl⟩ := List.mem_map.mp hx
  exact reqStep_twice m o y

theorem Idle.update {m o : DMeta} (h : Idle m o) (o' : DMeta) : Idle (m.update o') o := by
  refine ⟨fun k hk => update_data_some (.inl (h.data k hk)), update_known m o', ?_⟩
  intro x hx
  rw [update_req] at hx
  obtain ⟨y, hy, rfl⟩ := List.mem_map.mp hx
  show reqStep m o (reqStep m o' y) = _
  rcases reqStep_cases m o' y with h1 | h1
  · rw [h1]
    rcases List.mem_append.mp hy with hy | hy
    · exact h.req y hy
    · obtain ⟨kv, _, rfl⟩ := List.mem_map.mp hy
      exact reqStep_false m o kv.1
  · rw [h1, reqStep_false]

theorem ofData_idle (d : List (Key × Val)) : Idle (DMeta.ofData d) (DMeta.ofData d) := by
  refine ⟨fun k hk => lookupKey_isSome.mpr hk, ?_, ?_⟩
  · intro kv hkv hh
    rw [lookupKey_isSome]
    simp only [DMeta.ofData, List.map_map]
    exact List.mem_map.mpr ⟨kv, List.mem_filter.mpr ⟨hkv, by simp [hh]⟩, rfl⟩
  · intro x hx
    simp only [DMeta.ofData, List.mem_map, List.mem_filter] at hx
    obtain ⟨kv, hkv, rfl⟩ := hx
    unfold reqStep
    have : (DMeta.ofData d).init ≠ [] := by
      intro h
      have : kv.1 ∈ (DMeta.ofData d).init := List.mem_map_of_mem hkv.1
      rw [h] at this
      cases this
    rw [if_neg (by simpa [List.isEmpty_iff] using this)]
    simp

/-- The update only depends on the keys of the other dictionary. -/
theorem Idle.congr {m o o' : DMeta} (h : Idle m o) (hi : o'.init = o.init) (hd : o'.data.map (·.1) = o.data.map (·.1)) : Idle m o' := by
  refine ⟨by rw [hd]; exact h.data, h.known, ?_⟩
  intro x hx
  have := h.req x hx
  unfold reqStep at this ⊢
  rw [hi]
  exact this

/-! ### Trees that are updated again -/

/-- Updating with the other tree changes nothing. -/
def Rests (k n : Node) : Prop := ∀ d m d' m', k.hdr.kind = .dict d m → n.hdr.kind = .dict d' m' → Idle m m' ∧ d = m.data

theorem Rests.eq {k n : Node} (h : Rests k n) : updateNode k n = k := by
  obtain ⟨⟨kd, nm, rt, ty, sl⟩, kids⟩ := k
  obtain ⟨⟨kd', nm', rt', ty', sl'⟩, kids'⟩ := n
  cases kd with
  | dict d m =>
    cases kd' with
    | dict d' m' =>
      obtain ⟨h1, h2⟩ := h d m d' m' rfl rfl
      simp only [updateNode, h1.eq, h2]
    | _ => rfl
  | _ => rfl

theorem update_rests (k n : Node) : Rests (updateNode k n) n := by
  obtain ⟨⟨kd, nm, rt, ty, sl⟩, kids⟩ := k
  obtain ⟨⟨kd', nm', rt', ty', sl'⟩, kids'⟩ := n
  intro d1 m1 d2 m2 e1 e2
  cases kd with
  | dict d m =>
    cases kd' with
    | dict d' m' =>
      simp only [updateNode, Node.hdr, NKind.dict.injEq] at e1 e2
      obtain ⟨rfl, rfl⟩ := e1
      obtain ⟨rfl, rfl⟩ := e2
      exact ⟨update_idle _ _, rfl⟩
    | _ => cases e2
  | _ => cases e1

theorem Rests.update {k n : Node} (h : Rests k n) (n' : Node) : Rests (updateNode k n') n := by
  obtain ⟨⟨kd, nm, rt, ty, sl⟩, kids⟩ := k
  obtain ⟨⟨kd', nm', rt', ty', sl'⟩, kids'⟩ := n'
  intro d1 m1 d2 m2 e1 e2
  cases kd with
  | dict d m =>
    cases kd' with
    | dict d' m' =>
      simp only [updateNode, Node.hdr, NKind.dict.injEq] at e1
      obtain ⟨rfl, rfl⟩ := e1
      exact ⟨(h d m d2 m2 rfl e2).1.update m', rfl⟩
    | _ => exact h _ _ _ _ e1 e2
  | _ => cases e1

/-! ### Trees of equal values -/

/-- Names are judged without regard to the numbers in them. -/
def Lax (ok : Str → Bool) : Prop := ∀ b k s, ok (b ++ natStr k ++ s) = ok (b ++ s)

theorem Lax.pre {ok : Str → Bool} (h : Lax ok) (p : Str) : Lax (fun s => ok (p ++ s)) := by
  intro b k s
  have := h (p ++ b) k s
  simpa [List.append_assoc] using this

/-- The trees agree in everything that matters for later elements. -/
structure AlikeTrees (S : Strategies) (n n0 : Node) : Prop where
  eqv : nodeEq S n n0 = true
  typed : isTypedDict S n = isTypedDict S n0
  rests : ∀ k, Rests k n0 → Rests k n

/-- A suffix that makes a name new. -/
def Num (d : Str) : Prop := d = [] ∨ ∃ k, d = natStr k

theorem alike_of_via {S : Strategies} {x x0 : Node} {p q : Str} (h : viaTree untext x = viaTree untext x0) : AlikeTrees S (prefixed p x) (prefixed q x0) := by
  refine ⟨?_, ?_, ?_⟩
  · rw [nodeEq_iff, hash_pre, hash_pre]
    have e1 : x.hash S = x0.hash S := by rw [← hash_via (φ := untext) S x, h, hash_via]
    have e2 : x.hdr.kind.tag = x0.hdr.kind.tag := by
      have : (viaTree untext x).hdr.kind.tag = (viaTree untext x0).hdr.kind.tag := by rw [h]
      cases x; cases x0
      simpa only [viaTree, Node.hdr, tag_via] using this
    refine ⟨?_, by rw [e1]; exact eqv_refl _⟩
    cases x; cases x0; exact e2
  · rw [isTypedDict_pre, isTypedDict_pre, ← isTypedDict_via (φ := untext) S x, h, isTypedDict_via]
  · intro k hk d m d' m' e1 e2
    obtain ⟨⟨kd, nm, rt, ty, sl⟩, kids⟩ := x
    obtain ⟨⟨kd', nm', rt', ty', sl'⟩, kids'⟩ := x0
    simp only [prefixed, Node.hdr] at e2
    subst e2
    simp only [viaTree, Node.mk.injEq, Hdr.mk.injEq, viaKind] at h
    cases kd' with
    | dict d0 m0 =>
      simp only [NKind.dict.injEq, DMeta.mk.injEq] at h
      obtain ⟨⟨⟨_, hd, hi, _⟩, _⟩, _⟩ := h
      obtain ⟨h1, h2⟩ := hk d m d0 m0 e1 rfl
      refine ⟨h1.congr hi ?_, h2⟩
      have := congrArg (List.map (·.1)) hd
      simpa only [viaData_keys] using this
    | _ => simp at h

section
variable {E : Env} {ok : Str → Bool}

theorem same_build (hE : E.Fair) (hO : OrderByHash E) (hok : Lax ok) {f : Nat} {base d d0 : Str} (hd : Num d) (hd0 : Num d0) {e e0 : Val}
    (he : untext e = untext e0) {n0 : Node} (h : buildAs ok E f false (base ++ d0) e0 = .ok n0) :
    ∃ n, buildAs ok E f false (base ++ d) e = .ok n ∧ AlikeTrees E.S n n0 := by
  have hnum : ∀ {d}, Num d → ∀ s, ok (base ++ d ++ s) = ok (base ++ s) := by
    intro d hd s
    rcases hd with rfl | ⟨k, rfl⟩
    · simp
    · exact hok base k s
  have key : ∀ {d}, Num d → ∀ v, buildAs ok E f false (base ++ d) v =
      resPre (base ++ d) (prefixed (base ++ d)) (buildAs (fun s => ok (base ++ s)) E f false [] v) := by
    intro d hd v
    have := buildAs_pre (p := base ++ d) (orderByHash_names hO) (ok' := ok) (ok := fun s => ok (base ++ s)) (hnum hd) f false [] v
    simpa using this
  rw [key hd0] at h
  rw [key hd]
  have h1 := buildAs_untext hE hO (fun s => ok (base ++ s)) f false [] e
  have h2 := buildAs_untext hE hO (fun s => ok (base ++ s)) f false [] e0
  rw [he, h2] at h1
  cases hx0 : buildAs (fun s => ok (base ++ s)) E f false [] e0 with
  | error x => rw [hx0] at h; cases h
  | ok x0 =>
    rw [hx0] at h h1
    cases hx : buildAs (fun s => ok (base ++ s)) E f false [] e with
    | error x => rw [hx] at h1; cases h1
    | ok x =>
      rw [hx] at h1
      simp only [Except.map, Except.ok.injEq] at h1
      simp only [resPre, Except.ok.injEq] at h
      subst h
      exact ⟨_, rfl, alike_of_via h1.symm⟩

theorem buildAs_rests {f : Nat} {root : Bool} {name : Str} {v : Val} {n : Node} (h : buildAs ok E f root name v = .ok n) : Rests n n := by
  intro d m d' m' e1 e2
  rw [e1] at e2
  injection e2 with e2 e3
  subst e2; subst e3
  have : d = m.data ∧ m = DMeta.ofData d := by
    cases f with
    | zero => cases h
    | succ f =>
      cases v with
      | map k t ks vs =>
        cases k with
        | dict =>
          simp only [buildAs] at h
          cases hc : mapChildren E (buildAs ok E f false) name (dictData E.S (ks.zip vs)) with
          | error e => simp [hc] at h
          | ok c =>
            simp only [hc, Except.ok.injEq] at h
            subst h
            simp only [Node.hdr, NKind.dict.injEq] at e1
            obtain ⟨rfl, rfl⟩ := e1
            exact ⟨rfl, rfl⟩
        | proxy =>
          exfalso
          simp only [buildAs] at h
          split at h
          · split at h
            · injection h with h; subst h; cases e1
            · cases h
          · cases h
        | frame i =>
          exfalso
          simp only [buildAs] at h
          split at h
          · split at h
            · injection h with h; subst h; cases e1
            · cases h
          · cases h
      | seq k t es =>
        exfalso
        simp only [buildAs] at h
        split at h
        · split at h
          · injection h with h; subst h; cases e1
          · cases h
        · cases h
      | func i =>
        exfalso
        simp only [buildAs] at h
        by_cases ho : ok name = true
        · simp only [ho, if_true] at h
          split at h
          · cases h
          · injection h with h; subst h; cases e1
        · simp [ho] at h
      | _ =>
        exfalso
        simp only [buildAs] at h
        split at h
        · injection h with h; subst h; cases e1
        · cases h
  obtain ⟨h1, h2⟩ := this
  refine ⟨?_, h1⟩
  rw [h2]
  exact ofData_idle d

/-! ### The loop over the elements -/

/-- The element has been taken into account: taking it into account again changes nothing. -/
def Absorbed (E : Env) (ok : Str → Bool) (f : Nat) (parent : Str) (acc : List Node × List Str) (e : Val) : Prop :=
  ∃ d n, Num d ∧ buildAs ok E f false (parent ++ E.U.capitalize e.ty.name ++ d) e = .ok n ∧ (∃ k ∈ acc.1, nodeEq E.S n k = true) ∧
    (isTypedDict E.S n = true → ∀ k ∈ acc.1, nodeEq E.S n k = true → Rests k n)

theorem freshName_num (base : Str) (names : List Str) : ∃ d, Num d ∧ freshName base names = base ++ d := by
  rcases freshName_spec base names with h | ⟨k, h⟩
  · exact ⟨[], .inl rfl, by simpa using h⟩
  · exact ⟨natStr k, .inr ⟨k, rfl⟩, h⟩

theorem absorbed_step (hE : E.Fair) (hO : OrderByHash E) (hok : Lax ok) {f : Nat} {parent : Str} {acc : List Node × List Str} {e e0 : Val}
    (he : untext e = untext e0) (h : Absorbed E ok f parent acc e0) : setStep E (buildAs ok E f false) parent acc e = .ok acc := by
  obtain ⟨d0, n0, hd0, hb, ⟨k, hk, hkn⟩, hr⟩ := h
  have hty : e.ty = e0.ty := by rw [← untext_ty e, he, untext_ty]
  obtain ⟨d, hd, hf⟩ := freshName_num (parent ++ E.U.capitalize e.ty.name) acc.2
  obtain ⟨n, hn, ha⟩ := same_build hE hO hok (e := e) hd hd0 he hb
  rw [← hty] at hn
  have hany : acc.1.any (nodeEq E.S n) = true := List.any_eq_true.mpr ⟨k, hk, nodeEq_trans ha.eqv hkn⟩
  simp only [setStep, bind, Except.bind, pure, Except.pure, hf, hn, hany, if_true]
  split
  · rename_i ht
    have : acc.1.map (fun k => if nodeEq E.S n k then updateNode k n else k) = acc.1 := by
      conv => rhs; rw [← List.map_id acc.1]
      apply List.map_congr_left
      intro k hk
      split
      · rename_i hnk
        exact (ha.rests k (hr (by rw [← ha.typed]; exact ht) k hk (nodeEq_trans (nodeEq_symm ha.eqv) hnk))).eq
      · rfl
    rw [this]
  · rfl

theorem nodeEq_update {S : Strategies} {a k c : Node} (hc : isTypedDict S c = true) : nodeEq S a (updateNode k c) = nodeEq S a k := by
  obtain ⟨h1, h2, _⟩ := updateNode_facts (k := k) hc
  rw [Bool.eq_iff_iff, nodeEq_iff, nodeEq_iff, h1, h2]

theorem step_absorbs {f : Nat} {parent : Str} {acc acc' : List Node × List Str} {e : Val}
    (h : setStep E (buildAs ok E f false) parent acc e = .ok acc') :
    Absorbed E ok f parent acc' e ∧ ∀ e1, Absorbed E ok f parent acc e1 → Absorbed E ok f parent acc' e1 := by
  obtain ⟨d, hd, hf⟩ := freshName_num (parent ++ E.U.capitalize e.ty.name) acc.2
  simp only [setStep, bind, Except.bind, pure, Except.pure, hf] at h
  cases hb : buildAs ok E f false (parent ++ E.U.capitalize e.ty.name ++ d) e with
  | error x => rw [hb] at h; cases h
  | ok c =>
    simp only [hb] at h
    by_cases hany : acc.1.any (nodeEq E.S c) = true
    · obtain ⟨k0, hk0, hck⟩ := List.any_eq_true.mp hany
      simp only [if_pos hany] at h
      by_cases ht : isTypedDict E.S c = true
      · simp only [if_pos ht, Except.ok.injEq] at h
        subst h
        constructor
        · refine ⟨d, c, hd, hb, ⟨updateNode k0 c, ?_, ?_⟩, ?_⟩
          · exact List.mem_map.mpr ⟨k0, hk0, by simp [hck]⟩
          · rw [nodeEq_update ht]; exact hck
          · intro _ k' hk' hn
            obtain ⟨k, hk, rfl⟩ := List.mem_map.mp hk'
            by_cases hk2 : nodeEq E.S c k = true
            · simp only [if_pos hk2]
              exact update_rests k c
            · simp only [if_neg hk2] at hn
              exact absurd hn hk2
        · rintro e1 ⟨d1, n1, hd1, hb1, ⟨k1, hk1, hn1⟩, hr1⟩
          refine ⟨d1, n1, hd1, hb1, ?_, ?_⟩
          · refine ⟨_, List.mem_map_of_mem hk1, ?_⟩
            split
            · rw [nodeEq_update ht]; exact hn1
            · exact hn1
          · intro ht1 k' hk' hn
            obtain ⟨k, hk, rfl⟩ := List.mem_map.mp hk'
            by_cases hk2 : nodeEq E.S c k = true
            · simp only [if_pos hk2] at hn ⊢
              rw [nodeEq_update ht] at hn
              exact (hr1 ht1 k hk hn).update c
            · simp only [if_neg hk2] at hn ⊢
              exact hr1 ht1 k hk hn
      · simp only [if_neg ht, Except.ok.injEq] at h
        subst h
        exact ⟨⟨d, c, hd, hb, ⟨k0, hk0, hck⟩, fun h => absurd h ht⟩, fun _ h => h⟩
    · simp only [if_neg hany, Except.ok.injEq] at h
      subst h
      have hno : ∀ k ∈ acc.1, ¬ nodeEq E.S c k = true := fun k hk hn => hany (List.any_eq_true.mpr ⟨k, hk, hn⟩)
      constructor
      · refine ⟨d, c, hd, hb, ⟨c, by simp, nodeEq_refl c⟩, ?_⟩
        intro _ k hk hn
        rcases List.mem_append.mp hk with hk | hk
        · exact absurd hn (hno k hk)
        · rw [List.mem_singleton.mp hk]
          exact buildAs_rests hb
      · rintro e1 ⟨d1, n1, hd1, hb1, ⟨k1, hk1, hn1⟩, hr1⟩
        refine ⟨d1, n1, hd1, hb1, ⟨k1, List.mem_append_left _ hk1, hn1⟩, ?_⟩
        intro ht1 k hk hn
        rcases List.mem_append.mp hk with hk | hk
        · exact hr1 ht1 k hk hn
        · rw [List.mem_singleton.mp hk] at hn
          exact absurd (nodeEq_trans (nodeEq_symm hn) hn1) (hno k1 hk1)

theorem fold_firstOfEach (hE : E.Fair) (hO : OrderByHash E) (hok : Lax ok) {f : Nat} {parent : Str} : ∀ (l seen : List Val) (acc : List Node × List Str),
    (∀ e ∈ seen, Absorbed E ok f parent acc e) →
    foldE (setStep E (buildAs ok E f false) parent) acc (firstOfEach seen l) = foldE (setStep E (buildAs ok E f false) parent) acc l
  | [], _, _, _ => rfl
  | e :: r, seen, acc, hs => by
    simp only [firstOfEach]
    split
    · rename_i h
      obtain ⟨e0, he0, h⟩ := List.any_eq_true.mp h
      simp only [foldE, absorbed_step hE hO hok (equalVal_untext h) (hs e0 he0)]
      exact fold_firstOfEach hE hO hok r seen acc hs
    · simp only [foldE]
      cases hst : setStep E (buildAs ok E f false) parent acc e with
      | error x => rfl
      | ok acc' =>
        obtain ⟨h1, h2⟩ := step_absorbs hst
        refine fold_firstOfEach hE hO hok r (seen ++ [e]) acc' ?_
        intro x hx
        rcases List.mem_append.mp hx with hx | hx
        · exact h2 x (hs x hx)
        · rw [List.mem_singleton.mp hx]; exact h1

theorem firstOfEach_length : ∀ l seen : List Val, (firstOfEach seen l).length ≤ l.length
  | [], _ => by simp [firstOfEach]
  | e :: r, seen => by
    simp only [firstOfEach]
    split
    · have := firstOfEach_length r seen
      simp only [List.length_cons]; omega
    · have := firstOfEach_length r (seen ++ [e])
      simp only [List.length_cons]; omega

theorem firstOfEach_subset : ∀ {l seen : List Val} {x : Val}, x ∈ firstOfEach seen l → x ∈ l
  | [], _, _, h => by simp [firstOfEach] at h
  | e :: r, seen, x, h => by
    simp only [firstOfEach] at h
    split at h
    · exact List.mem_cons_of_mem _ (firstOfEach_subset h)
    · rcases List.mem_cons.mp h with rfl | h
      · simp
      · exact List.mem_cons_of_mem _ (firstOfEach_subset h)

theorem limit_firstOfEach (n : Nat) (l : List Val) : limit n (firstOfEach [] (firstElems n l)) = firstOfEach [] (limit n (firstElems n l)) := by
  have h1 := limit_firstElems n l
  unfold limit firstElems at *
  split
  · rfl
  · rename_i h
    simp only [h, if_false] at h1
    rw [List.take_take, Nat.min_self, List.take_of_length_le]
    have := firstOfEach_length (l.take n) []
    rw [List.length_take] at this
    omega

theorem setChildren_firstOfEach (hE : E.Fair) (hO : OrderByHash E) (hok : Lax ok) {f : Nat} {parent : Str} (l : List Val) :
    setChildren E (buildAs ok E f false) parent (firstOfEach [] (firstElems E.S.checkMax l)) =
      setChildren E (buildAs ok E f false) parent (firstElems E.S.checkMax l) := by
  simp only [setChildren, limit_firstOfEach]
  rw [fold_firstOfEach hE hO hok _ [] ([], []) (by simp)]

theorem fold_absorbs {f : Nat} {parent : Str} : ∀ (l : List Val) (acc acc' : List Node × List Str),
    foldE (setStep E (buildAs ok E f false) parent) acc l = .ok acc' →
    (∀ e ∈ l, Absorbed E ok f parent acc' e) ∧ ∀ e, Absorbed E ok f parent acc e → Absorbed E ok f parent acc' e
  | [], acc, acc', h => by
    simp only [foldE, Except.ok.injEq] at h
    subst h
    exact ⟨by simp, fun _ h => h⟩
  | e :: r, acc, acc', h => by
    simp only [foldE] at h
    cases hst : setStep E (buildAs ok E f false) parent acc e with
    | error x => rw [hst] at h; cases h
    | ok a =>
      rw [hst] at h
      obtain ⟨h1, h2⟩ := step_absorbs hst
      obtain ⟨h3, h4⟩ := fold_absorbs r a acc' h
      refine ⟨?_, fun x hx => h4 x (h2 x hx)⟩
      intro x hx
      rcases List.mem_cons.mp hx with rfl | hx
      · exact h4 x h1
      · exact h3 x hx

theorem fold_same (hE : E.Fair) (hO : OrderByHash E) (hok : Lax ok) {f : Nat} {parent : Str} {acc : List Node × List Str} : ∀ (l : List Val),
    (∀ e ∈ l, ∃ e0, equalVal e e0 = true ∧ Absorbed E ok f parent acc e0) → foldE (setStep E (buildAs ok E f false) parent) acc l = .ok acc
  | [], _ => rfl
  | e :: r, h => by
    obtain ⟨e0, h1, h2⟩ := h e (by simp)
    simp only [foldE, absorbed_step hE hO hok (equalVal_untext h1) h2]
    exact fold_same hE hO hok r (fun x hx => h x (List.mem_cons_of_mem _ hx))

theorem limit_more {α} (n : Nat) (es extra : List α) : limit n (es ++ extra) = limit n es ∨ ∃ m, limit n (es ++ extra) = es ++ extra.take m ∧ limit n es = es := by
  unfold limit
  split
  · exact .inr ⟨extra.length, by simp, rfl⟩
  · by_cases h : es.length ≤ n
    · right
      refine ⟨n - es.length, ?_, List.take_of_length_le h⟩
      rw [List.take_append, List.take_of_length_le h]
    · left
      rw [List.take_append_of_le_length (by omega)]

theorem foldE_append_ok {α β} {g : β → α → Except Err β} : ∀ (l l' : List α) (b : β),
    foldE g b (l ++ l') = match foldE g b l with
      | .ok b' => foldE g b' l'
      | .error e => .error e
  | [], _, _ => rfl
  | a :: r, l', b => by
    simp only [List.cons_append, foldE]
    cases g b a with
    | error e => rfl
    | ok b' => exact foldE_append_ok r l' b'

/-- Elements that equal earlier ones change nothing. -/
theorem setChildren_more (hE : E.Fair) (hO : OrderByHash E) (hok : Lax ok) {f : Nat} {parent : Str} {es extra : List Val}
    (h : ∀ x ∈ extra, ∃ e ∈ es, equalVal x e = true) :
    setChildren E (buildAs ok E f false) parent (es ++ extra) = setChildren E (buildAs ok E f false) parent es := by
  have key : foldE (setStep E (buildAs ok E f false) parent) ([], []) (limit E.S.checkMax (es ++ extra)) =
      foldE (setStep E (buildAs ok E f false) parent) ([], []) (limit E.S.checkMax es) := by
    rcases limit_more E.S.checkMax es extra with h1 | ⟨m, h1, h2⟩
    · rw [h1]
    · rw [h1, h2, foldE_append_ok]
      cases hf : foldE (setStep E (buildAs ok E f false) parent) ([], []) es with
      | error e => rfl
      | ok acc =>
        refine fold_same hE hO hok _ ?_
        intro x hx
        obtain ⟨e, he, hs⟩ := h x (List.mem_of_mem_take hx)
        exact ⟨e, hs, (fold_absorbs es _ _ hf).1 e he⟩
  simp only [setChildren, key]

theorem distinctParts_map (S : Strategies) : ∀ l : List Val, distinctParts S l = l.map (distinctPart S)
  | [] => rfl
  | v :: r => by simp [distinctParts, distinctParts_map S r]

theorem distinct_ty (S : Strategies) (v : Val) : (distinctPart S v).ty = v.ty := by
  cases v with
  | seq k t es => simp only [distinctPart]; split <;> rfl
  | map k t ks vs =>
    cases k with
    | dict => simp only [distinctPart]; split <;> rfl
    | _ => rfl
  | _ => rfl

theorem distinct_text (S : Strategies) (v : Val) : textOf (distinctPart S v) = textOf v := by
  cases v with
  | seq k t es => simp only [distinctPart]; split <;> rfl
  | map k t ks vs =>
    cases k with
    | dict => simp only [distinctPart]; split <;> rfl
    | _ => rfl
  | _ => rfl

theorem distinct_dict {S : Strategies} (h : S.dict = .typedDict) (d : List (Key × Val)) :
    distinctPart S (.dict d) = .dict (viaData (distinctPart S) d) := by
  simp only [Val.dict, distinctPart, h, if_true, distinctParts_map]
  simp [viaData, Function.comp_def]

theorem zip_distinct (S : Strategies) (ks : List Key) (vs : List Val) : ks.zip (vs.map (distinctPart S)) = viaData (distinctPart S) (ks.zip vs) := by
  rw [List.zip_map_right]; rfl

theorem buildAs_distinct (hE : E.Fair) (hO : OrderByHash E) (hok : Lax ok) : ∀ (f : Nat) (root : Bool) (name : Str) (v : Val),
    buildAs ok E f root name (distinctPart E.S v) = (buildAs ok E f root name v).map (viaTree (distinctPart E.S))
  | 0, _, _, _ => rfl
  | f + 1, root, name, v => by
    have hr : Commutes (distinctPart E.S) (buildAs ok E f false) := fun nm v => buildAs_distinct hE hO hok f false nm v
    have hty := distinct_ty E.S
    cases v with
    | inst t x => simp only [distinctPart, buildAs]; split <;> rfl
    | cls t x => simp only [distinctPart, buildAs]; split <;> rfl
    | module t => simp only [distinctPart, buildAs]; split <;> rfl
    | io t => simp only [distinctPart, buildAs]; split <;> rfl
    | ndarray t x => simp only [distinctPart, buildAs]; split <;> rfl
    | func i =>
      simp only [distinctPart, buildAs]
      split
      · rfl
      · rename_i n h1
        split at h1
        · injection h1 with h1
          subst h1
          split <;> rfl
        · cases h1
    | seq k t es =>
      have hl : limit E.S.checkMax (firstElems E.S.checkMax (es.map (distinctPart E.S))) = (limit E.S.checkMax es).map (distinctPart E.S) := by
        rw [limit_firstElems, limit_map_bare]
      simp only [distinctPart, distinctParts_map]
      by_cases hk : k = .tuple ∧ E.S.tuple = .fixed
      · simp only [if_pos hk, buildAs]
        rw [tupleChildren_via hty (fun h => distinct_dict h) hr hl]
        split
        · cases hc : tupleChildren E (buildAs ok E f false) name es with
          | error e => rfl
          | ok c => simp [Except.map, viaKids, viaTree, viaKind, viaTrees_map, Val.ty]
        · rfl
      · simp only [if_neg hk, buildAs]
        rw [setChildren_firstOfEach hE hO hok, setChildren_via hE hty (fun h => distinct_dict h) (orderByHash_via hO _) hr hl]
        split
        · cases hc : setChildren E (buildAs ok E f false) name es with
          | error e => rfl
          | ok c => simp [Except.map, viaKids, viaTree, viaKind, viaTrees_map, Val.ty]
        · rfl
    | map k t ks vs =>
      cases k with
      | dict =>
        have key : ∃ ks' vs', distinctPart E.S (.map .dict t ks vs) = .map .dict t ks' vs' ∧
            dictData E.S (ks'.zip vs') = viaData (distinctPart E.S) (dictData E.S (ks.zip vs)) := by
          simp only [distinctPart, distinctParts_map]
          unfold dictData
          split
          · exact ⟨_, _, rfl, zip_distinct E.S ks vs⟩
          · refine ⟨_, _, rfl, ?_⟩
            rw [zip_firstElems, limit_twice, zip_distinct, limit_viaData]
        obtain ⟨ks', vs', e, hd⟩ := key
        rw [e]
        simp only [buildAs, hd]
        rw [mapChildren_via hr, ← viaMeta_ofData]
        cases hc : mapChildren E (buildAs ok E f false) name (dictData E.S (ks.zip vs)) with
        | error e => rfl
        | ok c => simp [Except.map, viaKids, viaTree, viaKind, viaMeta, viaTrees_map, Val.ty]
      | proxy =>
        simp only [distinctPart, buildAs, distinctParts_map, zip_firstElems, limit_twice, zip_distinct, limit_viaData]
        rw [mapChildren_via hr]
        split
        · cases hc : mapChildren E (buildAs ok E f false) name (limit E.S.checkMax (ks.zip vs)) with
          | error e => rfl
          | ok c => simp [Except.map, viaKids, viaTree, viaKind, viaTrees_map, Val.ty]
        · rfl
      | frame i =>
        simp only [distinctPart, buildAs, distinctParts_map, zip_distinct]
        rw [frameChildren_via hr]
        split
        · cases hc : frameChildren E (buildAs ok E f false) name (ks.zip vs) with
          | error e => rfl
          | ok c => simp [Except.map, viaKids, viaTree, viaKind, viaTrees_map, Val.ty]
        · rfl

end

/-! ### Under a given name -/

theorem nameOk_word {U : Uni} {p s : Str} (hp : nameOk U p = true) (h : nameOk U (p ++ s) = true) : Word U s := by
  intro c hc
  by_cases hu : c = '_'
  · exact .inr hu
  · left
    unfold nameOk at h
    simp only [Bool.and_eq_true, List.all_eq_true] at h
    exact h.1.2 c (List.mem_filter.mpr ⟨List.mem_append_right _ hc, by simpa using hu⟩)

theorem nameOk_pre_iff {U : Uni} {p s : Str} (hp : nameOk U p = true) : nameOk U (p ++ s) = true ↔ Word U s :=
  ⟨nameOk_word hp, nameOk_append hp⟩

theorem word_append_iff {U : Uni} {a b : Str} : Word U (a ++ b) ↔ Word U a ∧ Word U b :=
  ⟨fun h => ⟨fun c hc => h c (List.mem_append_left _ hc), fun c hc => h c (List.mem_append_right _ hc)⟩, fun h => Word.append h.1 h.2⟩

theorem nameOk_lax {U : Uni} {p : Str} (hp : nameOk U p = true) : Lax (fun s => nameOk U (p ++ s)) := by
  intro b k s
  rw [Bool.eq_iff_iff, nameOk_pre_iff hp, nameOk_pre_iff hp, word_append_iff, word_append_iff, word_append_iff]
  exact ⟨fun h => ⟨h.1.1, h.2⟩, fun h => ⟨⟨h.1, Word.natStr k⟩, h.2⟩⟩

mutual
theorem pre_via (p : Str) (φ : Val → Val) : ∀ n : Node, viaTree φ (prefixed p n) = prefixed p (viaTree φ n)
  | .mk h kids => by simp only [viaTree, prefixed, pres_via p φ kids]
theorem pres_via (p : Str) (φ : Val → Val) : ∀ l : List Node, viaTrees φ (prefixedList p l) = prefixedList p (viaTrees φ l)
  | [] => rfl
  | n :: r => by simp only [viaTrees, prefixedList, pre_via p φ n, pres_via p φ r]
end

theorem build_distinct {E : Env} (hE : E.Fair) (hO : OrderByHash E) {p : Str} (hp : nameOk E.U p = true) (f : Nat) (v : Val) :
    build E f true p (distinctPart E.S v) = (build E f true p v).map (viaTree (distinctPart E.S)) := by
  have key : ∀ v, build E f true p v = resPre p (prefixed p) (buildAs (fun s => nameOk E.U (p ++ s)) E f true [] v) := by
    intro v
    have := build_pre (E := E) (p := p) (orderByHash_names hO) (ok := fun s => nameOk E.U (p ++ s)) (fun _ => rfl) f true [] v
    simpa using this
  rw [key, key, buildAs_distinct hE hO (nameOk_lax hp)]
  cases buildAs (fun s => nameOk E.U (p ++ s)) E f true [] v with
  | error e => rfl
  | ok n => simp [Except.map, resPre, pre_via]

/-- The tree of a sequence with further elements like those it has. -/
theorem build_more {E : Env} (hE : E.Fair) (hO : OrderByHash E) {p : Str} (hp : nameOk E.U p = true) (f : Nat) {k : SeqKind} {t : Ty} {es extra : List Val}
    (hk : ¬ (k = .tuple ∧ E.S.tuple = .fixed)) (h : ∀ x ∈ extra, ∃ e ∈ es, equalVal x e = true) :
    build E f true p (.seq k t (es ++ extra)) = build E f true p (.seq k t es) := by
  have key : ∀ v, build E f true p v = resPre p (prefixed p) (buildAs (fun s => nameOk E.U (p ++ s)) E f true [] v) := by
    intro v
    have := build_pre (E := E) (p := p) (orderByHash_names hO) (ok := fun s => nameOk E.U (p ++ s)) (fun _ => rfl) f true [] v
    simpa using this
  rw [key, key]
  cases f with
  | zero => rfl
  | succ f => simp only [buildAs, if_neg hk, setChildren_more hE hO (nameOk_lax hp) h, Val.ty]

theorem depthList_sub {l l' : List Val} (h : ∀ x ∈ l, x ∈ l') : depthList l ≤ depthList l' :=
  depthList_le fun w hw => depth_le_depthList (h w hw)

mutual
theorem distinct_depth (S : Strategies) : ∀ v : Val, (distinctPart S v).depth ≤ v.depth
  | .seq k t es => by
    have h1 := distincts_depth S es
    have h2 := depthList_firstElems S.checkMax (distinctParts S es)
    have h3 := depthList_sub (fun x hx => firstOfEach_subset (l := firstElems S.checkMax (distinctParts S es)) (seen := []) hx)
    simp only [distinctPart]
    split <;> simp only [Val.depth] <;> omega
  | .map .dict t ks vs => by
    have h1 := distincts_depth S vs
    have h2 := depthList_firstElems S.checkMax (distinctParts S vs)
    simp only [distinctPart]
    split <;> simp only [Val.depth] <;> omega
  | .map .proxy t ks vs => by
    have h1 := distincts_depth S vs
    have h2 := depthList_firstElems S.checkMax (distinctParts S vs)
    simp only [distinctPart, Val.depth]
    omega
  | .map (.frame i) t ks vs => by
    have h1 := distincts_depth S vs
    simp only [distinctPart, Val.depth]
    omega
  | .inst _ _ => by simp [distinctPart]
  | .cls _ _ => by simp [distinctPart]
  | .module _ => by simp [distinctPart]
  | .io _ => by simp [distinctPart]
  | .ndarray _ _ => by simp [distinctPart]
  | .func _ => by simp [distinctPart]
theorem distincts_depth (S : Strategies) : ∀ l : List Val, depthList (distinctParts S l) ≤ depthList l
  | [] => by simp [distinctParts]
  | v :: r => by
    have h1 := distinct_depth S v
    have h2 := distincts_depth S r
    simp only [distinctParts, depthList]
    omega
end

theorem fromData_distinct {E : Env} (hE : E.Fair) (hO : OrderByHash E) (name : Str) (v : Val) :
    fromData E name (distinctPart E.S v) = (fromData E name v).map (viaTree (distinctPart E.S)) := by
  unfold fromData buildTree
  split
  · rename_i hp
    rw [← build_fuel hE (f := (distinctPart E.S v).depth + 1) (f' := v.depth + 1) (by omega) (by have := distinct_depth E.S v; omega),
      build_distinct hE hO hp]
    cases build E (v.depth + 1) true name v <;> rfl
  · rfl

end Verif
