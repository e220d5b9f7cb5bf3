import Verif.Lemmas.Depth
import Verif.Lemmas.Clean
import Verif.Lemmas.Unique
import Verif.Props.MapKeys
/-
C35: the height that decides about aliases is the nesting depth of the data.
C36: which nested values get an alias of their own.
-/
namespace Verif.Props
open Verif Verif.Spec

section
variable {E : Env}

theorem fromData_build {name : Str} {v : Val} {n : Node} (h : fromData E name v = .ok n) :
    build E (v.depth + 1) true name v = .ok n := by
  unfold fromData at h
  split at h
  · unfold buildTree at h
    split at h
    · rename_i e; injection h with h; rw [e, h]
    · cases h
  · cases h

/-- C35 (partial: see `Level` for the excluded data). The height of the generated tree is the nesting depth of the
inspected part of the data. -/
theorem height_is_nesting_partial (hE : E.Fair) {name : Str} {v : Val} {n : Node} (hl : Level E.S v)
    (h : fromData E name v = .ok n) : (n.render E).height = nesting E.S v := by
  have hd := build_deep hE _ _ _ _ _ hl (fromData_build h)
  rw [← hd.tall]
  exact out_height n hd.sane

/-- C35 fails: in `[{"a": [[1]]}, {"a": [1]}]`, of depth 4, the two dictionaries are merged and the deeper value is
forgotten. -/
theorem height_is_nesting_fails :
    let v : Val := .seq .list .list [.dict [(.str py!"a", .seq .list .list [.seq .list .list [.inst .int none]])], .dict [(.str py!"a", .seq .list .list [.inst .int none])]]
    nesting {} v = 4 ∧
    (match fromData (exEnv {}) py!"D" v with
      | .ok n => some (n.render (exEnv {})).height
      | .error _ => none) = some 3 := by decide +kernel

/-- C35 fails for `None` keys as well: the height of `{None: [[1]]}` is 1. -/
theorem height_is_nesting_fails_none :
    let v : Val := .dict [(.none, .seq .list .list [.seq .list .list [.inst .int none]])]
    nesting {} v = 3 ∧
    (match fromData (exEnv {}) py!"D" v with
      | .ok n => some (n.render (exEnv {})).height
      | .error _ => none) = some 1 := by decide +kernel

/-- The hypotheses are met by `[{"a": [1], "b": ((2,),)}, {"a": [2.5], "c": 3}]`. -/
example :
    let v : Val := .seq .list .list [.dict [(.str py!"a", .seq .list .list [.inst .int none]), (.str py!"b", .seq .tuple .tuple [.seq .tuple .tuple [.inst .int none]])],
      .dict [(.str py!"a", .seq .list .list [.inst .float none]), (.str py!"c", .inst .int none)]]
    Level (exEnv {}).S v ∧ nesting {} v = 4 ∧
    (match fromData (exEnv {}) py!"D" v with
      | .ok n => some (n.render (exEnv {})).height
      | .error _ => none) = some 4 := by
  refine ⟨?_, by decide +kernel, by decide +kernel⟩
  have any : ∀ es : List Val, (∀ d ∈ es, ∀ e ∈ es, ∀ x ∈ d.items, ∀ y ∈ e.items, x.1 = y.1 → nesting {} x.2 = nesting {} y.2) →
      ∀ d ∈ es, ∀ e ∈ es, IsRecord {} d → IsRecord {} e → ∀ x ∈ d.items, ∀ y ∈ e.items, x.1 = y.1 →
        nesting {} x.2 = nesting {} y.2 := fun es h d hd e he _ _ => h d hd e he
  simp only [Level, Every, EveryList, Val.dict, List.map_cons, List.map_nil]
  exact ⟨any _ (by decide +kernel), ⟨by decide, ⟨any _ (by decide +kernel), trivial, trivial⟩, ⟨any _ (by decide +kernel),
    ⟨any _ (by decide +kernel), trivial, trivial⟩, trivial⟩, trivial⟩, ⟨by decide, ⟨any _ (by decide +kernel), trivial, trivial⟩,
    trivial, trivial⟩, trivial⟩

/-- A nested value that gets an alias of its own. -/
def Aliased (S : Strategies) (w : Val) : Prop := IsRecord S w ∨ (∃ f, w = .func f) ∨ S.minHeight < nesting S w

theorem dedup_left {α} [DecidableEq α] : ∀ {a b : List α}, dedup (dedup a ++ b) = dedup (a ++ b)
  | [], _ => rfl
  | x :: a, b => by
    have key : ∀ {l : List α} {p : α → Bool} {b : List α}, (dedup (l.filter p ++ b)).filter p = (dedup (l ++ b)).filter p := by
      intro l p b
      induction l with
      | nil => rfl
      | cons y l ih =>
        cases hy : p y with
        | true =>
          simp only [List.filter_cons, hy, if_true, List.cons_append, dedup]
          rw [List.filter_filter, List.filter_filter]
          congr 1
          have h1 : ∀ (m : List α), m.filter (fun a => p a && decide (a ≠ y)) = (m.filter p).filter (fun a => decide (a ≠ y)) := by
            intro m; rw [List.filter_filter]; congr 1; funext a; exact Bool.and_comm ..
          rw [h1, h1, ih]
        | false =>
          simp only [List.filter_cons, hy, Bool.false_eq_true, if_false, List.cons_append, dedup]
          rw [ih, List.filter_filter]
          congr 1
          funext a
          by_cases ha : a = y
          · subst ha; simp [hy]
          · simp [ha]
    simp only [dedup, List.cons_append]
    rw [key, dedup_left]

theorem dedup_snoc_twice {α} [DecidableEq α] {a b : List α} {x : α} : dedup (a ++ x :: x :: b) = dedup (a ++ x :: b) := by
  induction a with
  | nil => simp only [List.nil_append, dedup, List.filter_cons]; simp
  | cons y a ih => simp only [List.cons_append, dedup, ih]

/-- The same node at the root. -/
def atRoot : Node → Node
  | .mk h kids => .mk { h with root := true } kids

theorem build_atRoot {f : Nat} {name : Str} {v : Val} {n : Node} (h : build E f false name v = .ok n) :
    build E f true name v = .ok (atRoot n) ∧ n.hdr.root = false := by
  cases f with
  | zero => simp [build] at h
  | succ f =>
    have node : ∀ {k : NKind} {t : Ty} {c : Except Err (List Slot × List Node)},
        (match c with
          | .ok (slots, kids) => Except.ok (Node.mk { kind := k, name, root := false, ty := t, slots } kids)
          | .error e => .error e) = .ok n →
        (match c with
          | .ok (slots, kids) => Except.ok (Node.mk { kind := k, name, root := true, ty := t, slots } kids)
          | .error e => .error e) = .ok (atRoot n) ∧ n.hdr.root = false := by
      intro k t c h
      cases c with
      | error e => cases h
      | ok p => injection h with h; subst h; exact ⟨rfl, rfl⟩
    have leaf : ∀ {k : NKind} {t : Ty}, (if nameOk E.U name then
          .ok (.mk { kind := k, name, root := false, ty := t, slots := [] } []) else .error (Err.badName name)) = Except.ok n →
        (if nameOk E.U name then
          .ok (.mk { kind := k, name, root := true, ty := t, slots := [] } []) else .error (Err.badName name)) = Except.ok (atRoot n) ∧
        n.hdr.root = false := by
      intro k t h
      split at h
      · rename_i hn; rw [if_pos hn]; injection h with h; subst h; exact ⟨rfl, rfl⟩
      · cases h
    cases v with
    | inst t x => exact leaf h
    | cls m c => exact leaf h
    | module t => exact leaf h
    | io t => exact leaf h
    | ndarray t d => exact leaf h
    | func g =>
      simp only [build] at h ⊢
      by_cases hn : nameOk E.U name = true
      · simp only [hn, if_true] at h ⊢
        split at h
        · cases h
        · injection h with h; subst h; exact ⟨rfl, rfl⟩
      · simp only [hn] at h; cases h
    | seq k t es =>
      simp only [build] at h ⊢
      split at h
      · rename_i hn; rw [if_pos hn]; exact node h
      · cases h
    | map k t ks vs =>
      cases k with
      | dict => exact node h
      | proxy =>
        simp only [build] at h ⊢
        split at h
        · rename_i hn; rw [if_pos hn]; exact node h
        · cases h
      | frame i =>
        simp only [build] at h ⊢
        split at h
        · rename_i hn; rw [if_pos hn]; exact node h
        · cases h

/-- The permission of a nested node is what the data says. -/
theorem perm_iff (hE : E.Fair) {im : Str → List Str} {f : Nat} {name : Str} {w : Val} {n : Node} (hl : Level E.S w)
    (hf : w.depth < f) (h : build E f false name w = .ok n) : (n.out E im).perm = true ↔ Aliased E.S w := by
  have hd := build_deep hE _ _ _ _ _ hl h
  have hh := out_height (E := E) (im := im) n hd.sane
  rw [hd.tall] at hh
  have hroot := (build_atRoot h).2
  have hkind := (build_is hE h hf).2
  obtain ⟨hdr, kids⟩ := n
  have hroot : hdr.root = false := hroot
  have hkind : hdr.kind = kindOf E.S w := hkind
  have hperm : ((Node.mk hdr kids).out E im).perm = permOf E.S hdr (nesting E.S w) := by
    rw [← hh]; rfl
  rw [hperm]
  unfold permOf Aliased
  simp only [hroot, hkind]
  have hself := every_self hl
  cases w with
  | map k t ks vs =>
    cases k with
    | frame i => exact hself.elim
    | proxy => simp [kindOf, IsRecord]
    | dict =>
      have : (DMeta.ofData (dictData E.S (ks.zip vs))).isTyped E.S = true ↔ IsRecord E.S (.map .dict t ks vs) := by
        simp only [IsRecord, DMeta.isTyped, DMeta.ofData, Bool.and_eq_true, decide_eq_true_eq]
        constructor
        · rintro ⟨h1, h2⟩
          refine ⟨h2, fun x hx => ?_⟩
          simp only [dictData, h2, if_true, allStr, List.all_eq_true] at h1
          have hx' : x ∈ (ks.zip vs).map (·.1) := by rw [List.map_fst_zip (by have := hself.2.1; omega)]; exact hx
          obtain ⟨kv, hkv, rfl⟩ := List.mem_map.mp hx'
          exact h1 kv hkv
        · rintro ⟨h1, h2⟩
          refine ⟨?_, h1⟩
          simp only [dictData, h1, if_true, allStr, List.all_eq_true]
          intro kv hkv
          exact h2 _ (List.of_mem_zip hkv).1
      simp only [kindOf, Bool.or_eq_true, this]
      simp
  | _ => simp [kindOf, IsRecord, nesting]

theorem uniqueTypes_single (s : Str) : uniqueTypes [s] = [s] := by
  unfold uniqueTypes
  have : ([s].contains py!"float" && [s].contains py!"int") = false := by
    cases h : ([s].contains py!"float" && [s].contains py!"int") with
    | false => rfl
    | true =>
      simp only [Bool.and_eq_true, List.contains_iff_mem, List.mem_singleton] at h
      exact absurd (h.1.trans h.2.symm) (by decide)
  simp only [this, Bool.false_eq_true, if_false]
  rfl

/-- A dictionary that holds `w` under one key that is not a string. -/
def single (t : Ty) (r : Str) (w : Val) : Val := .map .dict .dict [.other t r] [w]

theorem permOf_root {h : Hdr} {x : Nat} : permOf E.S { h with root := true } x = true := by
  unfold permOf
  cases h.kind <;> simp

/-- What a node looks like at the root, and what it emits below the root. -/
theorem abs_atRoot {n : Node} (hr : n.hdr.root = false) :
    ∃ pre, ((atRoot n).abs E).emitted = pre ++ [(n.abs E).decl] ∧
      ((n.abs E).emitted = pre ∨ (n.abs E).perm = true ∧ (n.abs E).emitted = pre ++ [(n.abs E).decl]) := by
  obtain ⟨h, kids⟩ := n
  have hr : h.root = false := hr
  simp only [atRoot, Node.abs, aCombine, aEmit, AOut.decl]
  have hbody : aBody E { h with root := true } (absList E kids) = aBody E h (absList E kids) := rfl
  have hheight : aHeight { h with root := true } (iterate h.slots (absList E kids)) = aHeight h (iterate h.slots (absList E kids)) := rfl
  rw [hbody]
  simp only [permOf_root, Bool.and_self, if_true, hr, Bool.false_and, Bool.false_eq_true, if_false]
  cases hk : (absList E kids).isEmpty with
  | true =>
    refine ⟨[], ?_, ?_⟩
    · simp
    · simp
  | false =>
    refine ⟨_, by simp only [Bool.false_eq_true, if_false]; rfl, ?_⟩
    simp only [Bool.false_eq_true, if_false]
    cases hp : permOf E.S h (aHeight h (iterate h.slots (absList E kids))) with
    | true => right; simp
    | false => left; simp

/-- C36 (partial: see `Level` for the excluded data). Let `w` be a value nested in a dictionary, and `own` the name that is
reserved for it there. If `w` is aliased, the declarations are those of `w` alone, under the name `own`, followed by the
declaration of the dictionary, which refers to `own`. If not, they are those of `w` without the last, whose right-hand side
is written inline. -/
theorem alias_threshold_partial (hE : E.Fair) (hm : 0 < E.S.merge) {name : Str} {t : Ty} {r : Str} {w : Val} {n : Node}
    (hv : Regular E.U (single t r w)) (hl : Level E.S w) (h : fromData E name (single t r w) = .ok n) :
    let con := if E.S.dict = .mapping then py!"Mapping" else py!"Dict"
    let decl := fun x => name ++ py!": TypeAlias = " ++ con ++ py!"[" ++ t.name ++ py!", " ++ x ++ py!"]"
    let own := name ++ t.name
    (Aliased E.S w → declsOf E name (single t r w) = dedup (declsOf E own w ++ [decl own])) ∧
    (¬ Aliased E.S w → ∃ pre x, declsOf E own w = dedup (pre ++ [own ++ py!": TypeAlias = " ++ x]) ∧
      declsOf E name (single t r w) = dedup (pre ++ [decl x])) := by
  intro con decl own
  obtain ⟨hk, hb, hreg, hroot, hname, -⟩ := regular_build hE hm hv h
  have hwreg : Regular E.U w := ⟨valAllList_iff.mp hv.1.2.2 _ (by simp), everyList_iff.mp hv.2.2 _ (by simp)⟩
  have hb' : build E (depthList [w] + 1 + 1) true name (single t r w) = .ok n := hb
  obtain ⟨kids, hkids, hn⟩ := build_dict hb'
  have hdd : dictData E.S ([Key.other t r].zip [w]) = [(.other t r, w)] := by
    unfold dictData limit
    split
    · rfl
    · split
      · rfl
      · rename_i h0
        exact List.take_of_length_le (by simp; omega)
  rw [hdd] at hkids hn
  have hvis : visibleItems [(Key.other t r, w)] = [(.other t r, w)] := rfl
  rw [hvis] at hkids
  have hdep : depthList [w] = w.depth := by simp [depthList]
  rw [hdep] at hkids
  simp only [mapKids] at hkids
  cases hc : build E (w.depth + 1) false (name ++ keySuffix E.U (.other t r)) w with
  | error e => rw [hc] at hkids; cases hkids
  | ok c =>
    rw [hc] at hkids
    injection hkids with hkids
    subst hkids
    have hown : name ++ keySuffix E.U (.other t r) = own := rfl
    rw [hown] at hc
    have hsh : shareEqual E name [(Key.other t r, c)] = ([⟨.other t r, 1⟩], [c]) := by
      simp [shareEqual, addGroup, renameGroups, findGroup, iterKeys, List.takeWhile]
    rw [hsh] at hn
    dsimp only at hn
    -- the child, and the same value at the root
    have hcn : c.name = own := (build_is hE hc (by omega)).1
    have hck := (build_is hE hc (by omega)).2
    obtain ⟨hcr, hcroot⟩ := build_atRoot hc
    have hcreg : NodeAll (RegHdr E name) c := by
      rw [hn] at hreg
      simp only [NodeAll, NodeAllList] at hreg
      exact hreg.2.1
    have hokn : nameOk E.U own = true := by
      have : Extends E.U name c.name := by
        obtain ⟨hd, ks⟩ := c
        exact hcreg.1.1
      rw [← hcn]
      exact this.nameOk hk
    have hfw : fromData E own w = .ok (atRoot c) := by
      unfold fromData buildTree
      rw [if_pos hokn, hcr]
    have hd1 : ∀ {nm v m}, Regular E.U v → fromData E nm v = .ok m → declsOf E nm v = dedup ((m.abs E).emitted.map TDecl.print) := by
      intro nm v m hv hm'
      obtain ⟨_, _, h1, _⟩ := regular_build hE hm hv hm'
      have hc : Corr (m.render E) (m.abs E) := out_corr (nodeAll_imp (fun _ h => h.2.2) h1)
      simp only [declsOf, hm', declTexts, hc.emitted]
    rw [hd1 hv h, hd1 hwreg hfw]
    have hcc : Corr (c.render E) (c.abs E) := out_corr (nodeAll_imp (fun _ h => h.2.2) hcreg)
    have hperm : (c.abs E).perm = true ↔ Aliased E.S w := by
      rw [← hcc.perm]
      exact perm_iff hE hl (by omega) hc
    have hcname : (c.abs E).name = own := by
      rw [← hcn]; obtain ⟨hd, ks⟩ := c; rfl
    obtain ⟨pre, hp1, hp2⟩ := abs_atRoot (E := E) hcroot
    have htop : (n.abs E).emitted.map TDecl.print = (c.abs E).emitted.map TDecl.print ++
        (if (c.abs E).perm then [(c.abs E).decl.print] else []) ++ [decl (aref (c.abs E)).print] := by
      subst hn
      have hty : (DMeta.ofData [(Key.other t r, w)]).isTyped E.S = false := by
        simp [DMeta.isTyped, DMeta.ofData, allStr, Key.isStr]
      simp only [Node.abs, absList, aCombine, aEmit, List.isEmpty_cons, Bool.false_eq_true, if_false]
      have hx : aAlias [c.abs E] = aref (c.abs E) := by
        simp [aAlias, aTypes, aUnique, uniqueTypes_single, unionOf, pick]
      have hke : keyExpr [Key.other t r] = .name t.name := by
        simp [keyExpr, Key.ty, uniqueTypes_single, unionOf]
      have hcon : Verif.mapCon E.S Ty.dict = con := by
        unfold Verif.mapCon
        rw [if_neg (by decide)]
        show _ = if E.S.dict = .mapping then py!"Mapping" else py!"Dict"
        cases E.S.dict <;> rfl
      have hxs : ∀ x : AOut, iterate [(⟨.other t r, 1⟩ : Slot)] [x] = [x] := fun x => rfl
      simp only [hxs, permOf, aBody, hty, mapExpr, List.map_cons, List.map_nil, hx, hke, hcon, Bool.false_eq_true, if_false,
        Bool.true_or, Bool.or_true, if_true, List.flatMap_cons, List.flatMap_nil, List.append_nil, List.map_append, AOut.decl]
      congr 1
      · cases (c.abs E).perm <;> simp
      · simp [TDecl.print, TExpr.print, decl]
    rw [htop, hp1]
    constructor
    · intro hA
      have hpt := hperm.mpr hA
      have href : (aref (c.abs E)).print = own := by simp [aref, hpt, TExpr.print, hcname]
      rw [href, hpt]
      simp only [if_true]
      rcases hp2 with hp2 | ⟨_, hp2⟩
      · rw [hp2, dedup_left]; simp
      · rw [hp2, dedup_left]
        simp only [List.map_append, List.map_cons, List.map_nil, List.append_assoc, List.singleton_append]
        exact dedup_snoc_twice
    · intro hA
      have hpf : (c.abs E).perm = false := by
        cases hp : (c.abs E).perm with
        | true => exact absurd (hperm.mp hp) hA
        | false => rfl
      obtain ⟨e, he⟩ : ∃ e, (c.abs E).body = .alias e := by
        obtain ⟨hd, ks⟩ := c
        have hck : hd.kind = kindOf E.S w := hck
        simp only [Node.abs, aCombine, permOf] at hpf ⊢
        simp only [aBody]
        cases w with
        | func f => exact absurd (.inr (.inl ⟨f, rfl⟩)) hA
        | map k t' ks' vs' =>
          cases k with
          | frame i => exact (every_self hl).elim
          | proxy => simp only [hck, kindOf]; exact ⟨_, rfl⟩
          | dict =>
            simp only [hck, kindOf] at hpf ⊢
            have := (Bool.or_eq_false_iff.mp hpf).1
            simp only [this, Bool.false_eq_true, if_false]
            exact ⟨_, rfl⟩
        | seq k t' es =>
          simp only [hck, kindOf]
          cases k <;> exact ⟨_, rfl⟩
        | _ => simp only [hck, kindOf]; exact ⟨_, rfl⟩
      refine ⟨pre.map TDecl.print, e.print, ?_, ?_⟩
      · simp [TDecl.print, AOut.decl, he, hcname]
      · rcases hp2 with hp2 | ⟨hp2, _⟩
        · rw [hp2, hpf]
          simp [aref, hpf, he]
        · rw [hpf] at hp2; cases hp2

end

/-- The hypotheses are met by `{1: [["x"]]}`, which is aliased, and by `{1: ["x"]}`, which is not. -/
example :
    Regular (exEnv {}).U (single .int py!"1" (.seq .list .list [.seq .list .list [.inst .str none]])) ∧
    Level {} (.seq .list .list [.seq .list .list [.inst .str none]]) ∧
    Aliased {} (.seq .list .list [.seq .list .list [.inst .str none]]) ∧
    declsOf (exEnv {}) py!"D" (single .int py!"1" (.seq .list .list [.seq .list .list [.inst .str none]])) =
      [py!"Dint: TypeAlias = List[List[str]]", py!"D: TypeAlias = Dict[int, Dint]"] ∧
    Regular (exEnv {}).U (single .int py!"1" (.seq .list .list [.inst .str none])) ∧
    Level {} (.seq .list .list [.inst .str none]) ∧
    ¬ Aliased {} (.seq .list .list [.inst .str none]) ∧
    declsOf (exEnv {}) py!"D" (single .int py!"1" (.seq .list .list [.inst .str none])) =
      [py!"D: TypeAlias = Dict[int, List[str]]"] := by
  refine ⟨plain_regular (by decide +kernel), ?_, .inr (.inr (by decide +kernel)), by decide +kernel,
    plain_regular (by decide +kernel), ?_, ?_, by decide +kernel⟩
  · simp [Level, Every, EveryList, IsRecord]
  · simp [Level, Every, EveryList, IsRecord]
  · simp only [Aliased, IsRecord, false_or, reduceCtorEq, exists_false]
    decide +kernel

/-- C36 fails for data frames: with literal labels they always get a class of their own, whatever their depth. -/
theorem alias_threshold_fails :
    let w : Val := .map (.frame ⟨py!"Index(['a'])", true⟩) ⟨py!"DataFrame", 0⟩ [.str py!"a"] [.seq .series ⟨py!"Series", 0⟩ [.inst .int none]]
    ¬ Aliased { minHeight := 5 } w ∧
    (declsOf (exEnv { minHeight := 5 }) py!"D" (single .int py!"1" w)).getLast? = some py!"D: TypeAlias = Dict[int, Dint]" := by
  refine ⟨?_, by decide +kernel⟩
  simp only [Aliased, IsRecord, false_or, reduceCtorEq, exists_false]
  decide +kernel

end Verif.Props
