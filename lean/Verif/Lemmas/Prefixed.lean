import Verif.Spec.Prefixed
import Verif.Lemmas.Via
/-
Names with a common beginning: construction of trees under another name.
-/
namespace Verif
open Verif.Spec

theorem prefixedList_map (p : Str) : ∀ l : List Node, prefixedList p l = l.map (prefixed p)
  | [] => rfl
  | v :: r => by simp [prefixedList, prefixedList_map p r]

/-- Failures under another name. -/
def errPre (p : Str) : Err → Err
  | .badName n => .badName (p ++ n)
  | e => e

/-- Results under another name. -/
def resPre {α β} (p : Str) (g : α → β) : Except Err α → Except Err β
  | .ok a => .ok (g a)
  | .error e => .error (errPre p e)

/-- `build` with another test of names. -/
def buildAs (ok : Str → Bool) (E : Env) : Nat → Bool → Str → Val → Except Err Node
  | 0, _, _, _ => .error .fuel
  | fuel + 1, root, name, v =>
    let rec' := buildAs ok E fuel false
    let leaf (k : NKind) : Except Err Node :=
      if ok name then .ok (.mk { kind := k, name, root, ty := v.ty, slots := [] } []) else .error (.badName name)
    let node (k : NKind) (c : Except Err (List Slot × List Node)) : Except Err Node :=
      match c with
      | .ok (slots, kids) => .ok (.mk { kind := k, name, root, ty := v.ty, slots } kids)
      | .error e => .error e
    let checked (k : NKind) (c : Except Err (List Slot × List Node)) : Except Err Node :=
      if ok name then node k c else .error (.badName name)
    match v with
    | .inst _ _ => leaf .inst
    | .cls _ n => leaf (.cls n)
    | .module _ => leaf .module
    | .io _ => leaf .io
    | .ndarray _ d => leaf (.ndarray d)
    | .func f => match leaf (.func f) with
      | .error e => .error e
      | .ok n => if !root && decide (f.sig = .typeError) then .error .signature else .ok n
    | .seq k _ es =>
      checked (.seq k) (if k = .tuple ∧ E.S.tuple = .fixed then tupleChildren E rec' name es else setChildren E rec' name es)
    | .map .dict _ ks vs =>
      let data := dictData E.S (ks.zip vs)
      node (.dict data (DMeta.ofData data)) (mapChildren E rec' name data)
    | .map .proxy _ ks vs => checked .proxy (mapChildren E rec' name (limit E.S.checkMax (ks.zip vs)))
    | .map (.frame i) _ ks vs => checked (.frame i) (frameChildren E rec' name (ks.zip vs))

section
variable {p : Str}

theorem isTypedDict_pre (S : Strategies) (n : Node) : isTypedDict S (prefixed p n) = isTypedDict S n := by
  obtain ⟨h, kids⟩ := n
  rfl

theorem pre_name (n : Node) : (prefixed p n).name = p ++ n.name := by cases n; rfl
theorem pre_hdr_ty (n : Node) : (prefixed p n).hdr.ty = n.hdr.ty := by cases n; rfl

theorem hashOf_pre (S : Strategies) (h : Hdr) (hs : List H) : hashOf S { h with name := p ++ h.name } hs = hashOf S h hs := by
  obtain ⟨k, _, _, _, _⟩ := h
  cases k <;> rfl

mutual
theorem hash_pre (S : Strategies) : ∀ n : Node, (prefixed p n).hash S = n.hash S
  | .mk h kids => by simp only [prefixed, Node.hash, hashList_pre S kids, hashOf_pre]
theorem hashList_pre (S : Strategies) : ∀ l : List Node, hashList S (prefixedList p l) = hashList S l
  | [] => rfl
  | n :: r => by simp only [prefixedList, hashList, hash_pre S n, hashList_pre S r]
end

theorem nodeEq_pre (S : Strategies) (a b : Node) : nodeEq S (prefixed p a) (prefixed p b) = nodeEq S a b := by
  unfold nodeEq
  rw [hash_pre, hash_pre]
  obtain ⟨h, _⟩ := a
  obtain ⟨h', _⟩ := b
  rfl

theorem renameTimes_pre (new : Str) (len : Nat) : ∀ (c : Nat) (n : Str), renameTimes (p ++ new) (p.length + len) c (p ++ n) = p ++ renameTimes new len c n
  | 0, _ => rfl
  | c + 1, n => by
    simp only [renameTimes]
    rw [← renameTimes_pre new len c, List.drop_append]
    simp [List.append_assoc, List.drop_eq_nil_of_le (show p.length ≤ p.length + len by omega)]

mutual
theorem renameAux_pre (new : Str) (len : Nat) : ∀ (n : Node) (c : Nat),
    (prefixed p n).renameAux (p ++ new) (p.length + len) c = prefixed p (n.renameAux new len c)
  | .mk h kids, c => by simp only [prefixed, Node.renameAux, renameList_pre new len kids h.slots c, renameTimes_pre]
theorem renameList_pre (new : Str) (len : Nat) : ∀ (l : List Node) (ss : List Slot) (c : Nat),
    renameList (p ++ new) (p.length + len) c ss (prefixedList p l) = prefixedList p (renameList new len c ss l)
  | [], _, _ => by simp [renameList, prefixedList]
  | k :: r, [], c => by simp only [renameList, prefixedList, renameAux_pre new len k c, renameList_pre new len r [] c]
  | k :: r, s :: ss, c => by simp only [renameList, prefixedList, renameAux_pre new len k (c * s.mult), renameList_pre new len r ss c]
end

theorem rename_pre (new : Str) (n : Node) : (prefixed p n).rename (p ++ new) = prefixed p (n.rename new) := by
  simp only [Node.rename, pre_name, List.length_append, renameAux_pre]

theorem nodeMeta_pre (n : Node) : nodeMeta (prefixed p n) = nodeMeta n := by
  obtain ⟨h, kids⟩ := n
  rfl

theorem nodeData_pre (n : Node) : nodeData (prefixed p n) = nodeData n := by
  obtain ⟨h, kids⟩ := n
  rfl

theorem updateNode_pre (k c : Node) : updateNode (prefixed p k) (prefixed p c) = prefixed p (updateNode k c) := by
  obtain ⟨⟨kd, nm, rt, ty, sl⟩, kids⟩ := k
  obtain ⟨⟨kd', nm', rt', ty', sl'⟩, kids'⟩ := c
  cases kd with
  | dict d m => cases kd' <;> rfl
  | _ => rfl

theorem filterMap_nodeMeta_pre (ns : List Node) : (ns.map (prefixed p)).filterMap nodeMeta = ns.filterMap nodeMeta := by
  rw [List.filterMap_map]
  congr 1
  funext n
  exact nodeMeta_pre n

theorem shouldMerge_pre (S : Strategies) (ns : List Node) : shouldMerge S (ns.map (prefixed p)) = shouldMerge S ns := by
  unfold shouldMerge
  rw [filterMap_nodeMeta_pre]

theorem strLe_pre (a b : Str) : ∀ p : Str, strLe (p ++ a) (p ++ b) = strLe a b
  | [] => rfl
  | c :: r => by simp [strLe, strLe_pre a b r]

theorem minStr_pre (a b : Str) : minStr (p ++ a) (p ++ b) = p ++ minStr a b := by
  unfold minStr
  rw [strLe_pre]
  split <;> rfl

theorem foldl_minStr_pre : ∀ (ns : List Node) (s : Str),
    (ns.map (prefixed p)).foldl (fun acc n => minStr acc n.name) (p ++ s) = p ++ ns.foldl (fun acc n => minStr acc n.name) s
  | [], _ => rfl
  | n :: r, s => by simp only [List.map_cons, List.foldl_cons, pre_name, minStr_pre, foldl_minStr_pre r]

/-- `r` does under the names that begin with `p` what `r0` does. -/
def Prefixes (p : Str) (r r0 : Str → Val → Except Err Node) : Prop := ∀ nm v, r (p ++ nm) v = resPre p (prefixed p) (r0 nm v)

variable {r r0 : Str → Val → Except Err Node}

theorem foldl_updateDict_pre (ns : List Node) (d : List (Key × Val)) :
    (ns.map (prefixed p)).foldl (fun acc n => updateDict acc (nodeData n)) d = ns.foldl (fun acc n => updateDict acc (nodeData n)) d := by
  rw [List.foldl_map]
  simp only [nodeData_pre]

theorem mergeDicts_pre (hr : Prefixes p r r0) (ds : List Node) : mergeDicts r (ds.map (prefixed p)) = resPre p (prefixed p) (mergeDicts r0 ds) := by
  cases ds with
  | nil => rfl
  | cons d ds =>
    simp only [mergeDicts, List.map_cons, bind, Except.bind, pure, Except.pure]
    rw [← List.map_cons, filterMap_nodeMeta_pre, pre_name, foldl_minStr_pre, nodeMeta_pre, foldl_updateDict_pre, hr]
    generalize (d :: ds).foldl (fun acc n => updateDict acc (nodeData n)) [] = D
    cases hb : r0 (ds.foldl (fun acc n => minStr acc n.name) d.name) (.dict D) with
    | error e => rfl
    | ok n => obtain ⟨h, kids⟩ := n; rfl

theorem any_nodeEq_pre {S : Strategies} (c : Node) (l : List Node) : (l.map (prefixed p)).any (nodeEq S (prefixed p c)) = l.any (nodeEq S c) := by
  rw [List.any_map]
  congr 1
  funext x
  exact nodeEq_pre S c x

theorem findEq_pre (S : Strategies) (c : Node) : ∀ l : List (Node × Str),
    findEq S (prefixed p c) (l.map fun x => (prefixed p x.1, p ++ x.2)) = (findEq S c l).map (p ++ ·)
  | [] => rfl
  | (n, s) :: r => by
    simp only [List.map_cons, findEq, nodeEq_pre, findEq_pre S c r]
    split <;> rfl

theorem filter_typed_pre (S : Strategies) (l : List Node) : (l.map (prefixed p)).filter (isTypedDict S) = (l.filter (isTypedDict S)).map (prefixed p) := by
  rw [List.filter_map]
  congr 2
  funext x
  exact isTypedDict_pre S x

theorem filter_untyped_pre (S : Strategies) (l : List Node) :
    (l.map (prefixed p)).filter (fun k => !isTypedDict S k) = (l.filter (fun k => !isTypedDict S k)).map (prefixed p) := by
  rw [List.filter_map]
  congr 2
  funext x
  simp [isTypedDict_pre S x]

theorem contains_pre (x : Str) (ns : List Str) : (ns.map (p ++ ·)).contains (p ++ x) = ns.contains x := by
  rw [Bool.eq_iff_iff]
  simp

theorem freshSuffix_pre (base : Str) (ns : List Str) : ∀ (f c : Nat), freshSuffix (p ++ base) (ns.map (p ++ ·)) f c = p ++ freshSuffix base ns f c
  | 0, c => by simp [freshSuffix]
  | f + 1, c => by
    simp only [freshSuffix, freshSuffix_pre base ns f (c + 1), List.append_assoc, contains_pre]
    split <;> rfl

theorem freshName_pre (base : Str) (ns : List Str) : freshName (p ++ base) (ns.map (p ++ ·)) = p ++ freshName base ns := by
  unfold freshName
  rw [contains_pre, List.length_map, freshSuffix_pre]
  split <;> rfl

/-- Slots and children under another name. -/
def preKids (p : Str) (c : List Slot × List Node) : List Slot × List Node := (c.1, c.2.map (prefixed p))

variable {E : Env}

theorem setStep_pre (hr : Prefixes p r r0) (parent : Str) (acc : List Node × List Str) (v : Val) :
    setStep E r (p ++ parent) (acc.1.map (prefixed p), acc.2.map (p ++ ·)) v =
      resPre p (fun a => (a.1.map (prefixed p), a.2.map (p ++ ·))) (setStep E r0 parent acc v) := by
  simp only [setStep, bind, Except.bind, pure, Except.pure, List.append_assoc, freshName_pre]
  generalize freshName (parent ++ E.U.capitalize v.ty.name) acc.2 = name
  rw [hr]
  cases hb : r0 name v with
  | error e => rfl
  | ok c =>
    simp only [resPre, any_nodeEq_pre, isTypedDict_pre]
    split
    · split
      · simp only [List.map_map]
        congr 2
        apply List.map_congr_left
        intro k hk
        simp only [Function.comp, nodeEq_pre]
        split
        · exact updateNode_pre k c
        · rfl
      · rfl
    · simp

theorem tupleStep_pre (hr : Prefixes p r r0) (parent : Str) (acc : List Node × List (Node × Str)) (v : Val) :
    tupleStep E r (p ++ parent) (acc.1.map (prefixed p), acc.2.map fun x => (prefixed p x.1, p ++ x.2)) v =
      resPre p (fun a => (a.1.map (prefixed p), a.2.map fun x => (prefixed p x.1, p ++ x.2))) (tupleStep E r0 parent acc v) := by
  simp only [tupleStep, bind, Except.bind, pure, Except.pure, List.map_map, List.append_assoc]
  have e : (List.map ((fun x => x.snd) ∘ fun (x : Node × Str) => (prefixed p x.fst, p ++ x.snd)) acc.2) = (acc.2.map (·.2)).map (p ++ ·) := by
    rw [List.map_map]; rfl
  rw [e, freshName_pre]
  generalize freshName (parent ++ E.U.capitalize v.ty.name) (acc.2.map (·.2)) = name
  rw [hr]
  cases hb : r0 name v with
  | error e => rfl
  | ok c =>
    simp only [resPre, findEq_pre]
    cases hf : findEq E.S c acc.2 with
    | some old => simp [rename_pre]
    | none => simp [pre_name]

theorem foldE_pre {α β β'} {f : β → α → Except Err β} {f' : β' → α → Except Err β'} {g : β → β'} (h : ∀ b a, f' (g b) a = resPre p g (f b a)) :
    ∀ (l : List α) (b : β), foldE f' (g b) l = resPre p g (foldE f b l)
  | [], b => rfl
  | a :: r, b => by
    simp only [foldE, h]
    cases f b a with
    | error e => rfl
    | ok b' => exact foldE_pre h r b'

theorem setChildren_pre (hO : OrderIgnoresNames E) (hr : Prefixes p r r0) (parent : Str) (es : List Val) :
    setChildren E r (p ++ parent) es = resPre p (preKids p) (setChildren E r0 parent es) := by
  simp only [setChildren, bind, Except.bind, pure, Except.pure]
  have h1 := foldE_pre (p := p) (f := setStep E r0 parent) (f' := setStep E r (p ++ parent)) (g := fun a => (a.1.map (prefixed p), a.2.map (p ++ ·)))
    (fun b a => setStep_pre hr parent b a) (limit E.S.checkMax es) ([], [])
  simp only [List.map_nil] at h1
  rw [h1]
  cases hf : foldE (setStep E r0 parent) ([], []) (limit E.S.checkMax es) with
  | error e => rfl
  | ok a =>
    obtain ⟨kids, names⟩ := a
    simp only [resPre, hO p 0 kids, hO p 1 kids, filter_typed_pre, shouldMerge_pre]
    split
    · rw [mergeDicts_pre hr]
      cases hm : mergeDicts r0 ((E.order 1 kids).filter (isTypedDict E.S)) with
      | error e => rfl
      | ok merged =>
        have e1 : (kids.map (prefixed p)).filter (fun k => !isTypedDict E.S k) ++ [prefixed p merged] =
            (kids.filter (fun k => !isTypedDict E.S k) ++ [merged]).map (prefixed p) := by simp [filter_untyped_pre]
        simp only [resPre, e1, hO p 2]
        simp [preKids]
    · simp [preKids]

theorem tupleChildren_pre (hr : Prefixes p r r0) (parent : Str) (es : List Val) :
    tupleChildren E r (p ++ parent) es = resPre p (preKids p) (tupleChildren E r0 parent es) := by
  simp only [tupleChildren, bind, Except.bind, pure, Except.pure]
  have h1 := foldE_pre (p := p) (f := tupleStep E r0 parent) (f' := tupleStep E r (p ++ parent))
    (g := fun a => (a.1.map (prefixed p), a.2.map fun x => (prefixed p x.1, p ++ x.2)))
    (fun b a => tupleStep_pre hr parent b a) (limit E.S.checkMax es) ([], [])
  simp only [List.map_nil] at h1
  rw [h1]
  cases hf : foldE (tupleStep E r0 parent) ([], []) (limit E.S.checkMax es) with
  | error e => rfl
  | ok a =>
    obtain ⟨kids, names⟩ := a
    simp only [resPre, filter_typed_pre, shouldMerge_pre]
    split
    · rw [mergeDicts_pre hr]
      cases hm : mergeDicts r0 (kids.filter (isTypedDict E.S)) with
      | error e => rfl
      | ok merged =>
        simp only [resPre, preKids, List.map_map, List.length_map]
        congr 2
        · apply List.map_congr_left
          intro k _
          simp only [Function.comp, isTypedDict_pre]
        · apply List.map_congr_left
          intro k _
          simp only [Function.comp, isTypedDict_pre]
          split <;> rfl
    · simp [preKids]

/-! ### Mappings -/

/-- Keyed trees under another name. -/
def preItem (p : Str) (kn : Key × Node) : Key × Node := (kn.1, prefixed p kn.2)

theorem mapKids_pre (hr : Prefixes p r r0) {parent : Str} {suffix : Key → Str} : ∀ items : List (Key × Val),
    mapKids r (p ++ parent) suffix items = resPre p (fun l => l.map (preItem p)) (mapKids r0 parent suffix items)
  | [] => rfl
  | (k, v) :: rest => by
    simp only [mapKids, bind, Except.bind, pure, Except.pure, List.append_assoc]
    rw [hr, mapKids_pre hr rest]
    cases hb : r0 (parent ++ suffix k) v with
    | error e => rfl
    | ok n => cases hm : mapKids r0 parent suffix rest <;> rfl

/-- Groups of keys under another name. -/
def preGroup (p : Str) (g : Node × List Key) : Node × List Key := (prefixed p g.1, g.2)

theorem addGroup_pre (S : Strategies) (key : Key) (n : Node) : ∀ g : List (Node × List Key),
    addGroup S key (prefixed p n) (g.map (preGroup p)) = (addGroup S key n g).map (preGroup p)
  | [] => rfl
  | (m, ks) :: rest => by
    have e : ((m, ks) :: rest).map (preGroup p) = (prefixed p m, ks) :: rest.map (preGroup p) := rfl
    rw [e]
    simp only [addGroup, nodeEq_pre, addGroup_pre S key n rest]
    split <;> rfl

theorem foldl_addGroup_pre (S : Strategies) : ∀ (kids : List (Key × Node)) (g : List (Node × List Key)),
    (kids.map (preItem p)).foldl (fun g kn => addGroup S kn.1 kn.2 g) (g.map (preGroup p)) =
      (kids.foldl (fun g kn => addGroup S kn.1 kn.2 g) g).map (preGroup p)
  | [], _ => rfl
  | kn :: rest, g => by
    simp only [List.map_cons, List.foldl_cons, preItem]
    rw [addGroup_pre, ← foldl_addGroup_pre S rest]

theorem renameGroups_pre (U : Uni) (parent : Str) : ∀ (g : List (Node × List Key)) (counts : List (Ty × Nat)),
    renameGroups U (p ++ parent) counts (g.map (preGroup p)) = (renameGroups U parent counts g).map (preGroup p)
  | [], _ => rfl
  | (n, ks) :: rest, counts => by
    have e : ((n, ks) :: rest).map (preGroup p) = (prefixed p n, ks) :: rest.map (preGroup p) := rfl
    rw [e]
    simp only [renameGroups, pre_hdr_ty, List.append_assoc]
    split
    · split <;> simp only [List.map_cons, preGroup, rename_pre, renameGroups_pre U parent rest]
    · simp only [List.map_cons, preGroup, renameGroups_pre U parent rest]

theorem findGroup_pre (key : Key) : ∀ g : List (Node × List Key), findGroup key (g.map (preGroup p)) = (findGroup key g).map (preGroup p)
  | [] => rfl
  | (n, ks) :: rest => by
    have e : ((n, ks) :: rest).map (preGroup p) = (prefixed p n, ks) :: rest.map (preGroup p) := rfl
    rw [e]
    simp only [findGroup, findGroup_pre key rest]
    split <;> rfl

theorem shareEqual_pre {parent : Str} {kids : List (Key × Node)} :
    shareEqual E (p ++ parent) (kids.map (preItem p)) = preKids p (shareEqual E parent kids) := by
  have e1 : (kids.map (preItem p)).map (·.1) = kids.map (·.1) := by simp [preItem, Function.comp_def]
  have e2 : (kids.map (preItem p)).foldl (fun g kn => addGroup E.S kn.1 kn.2 g) [] = (kids.foldl (fun g kn => addGroup E.S kn.1 kn.2 g) []).map (preGroup p) :=
    foldl_addGroup_pre E.S kids []
  simp only [shareEqual, e1, e2, renameGroups_pre]
  generalize renameGroups E.U parent [] (kids.foldl (fun g kn => addGroup E.S kn.1 kn.2 g) []) = groups
  simp only [preKids, List.map_map]
  congr 1
  · apply List.map_congr_left
    intro kn _
    simp only [Function.comp, preItem, findGroup_pre]
    cases findGroup kn.1 groups <;> rfl
  · apply List.map_congr_left
    intro kn _
    simp only [Function.comp, preItem, findGroup_pre]
    cases findGroup kn.1 groups <;> rfl

theorem mapChildren_pre (hr : Prefixes p r r0) {parent : Str} {items : List (Key × Val)} :
    mapChildren E r (p ++ parent) items = resPre p (preKids p) (mapChildren E r0 parent items) := by
  simp only [mapChildren, bind, Except.bind, pure, Except.pure]
  rw [mapKids_pre hr]
  cases hm : mapKids r0 parent (keySuffix E.U) (items.filter fun kv => !kv.1.hidden) with
  | error e => rfl
  | ok kids => simp only [resPre, shareEqual_pre]

theorem frameChildren_pre (hr : Prefixes p r r0) {parent : Str} {items : List (Key × Val)} :
    frameChildren E r (p ++ parent) items = resPre p (preKids p) (frameChildren E r0 parent items) := by
  simp only [frameChildren, bind, Except.bind, pure, Except.pure]
  rw [mapKids_pre hr]
  cases hm : mapKids r0 parent (labelSuffix E.U) items with
  | error e => rfl
  | ok kids => simp [resPre, preKids, preItem, Function.comp_def]

theorem buildAs_pre (hO : OrderIgnoresNames E) {ok' ok : Str → Bool} (hok : ∀ s, ok' (p ++ s) = ok s) :
    ∀ (f : Nat) (root : Bool) (s : Str) (v : Val), buildAs ok' E f root (p ++ s) v = resPre p (prefixed p) (buildAs ok E f root s v)
  | 0, _, _, _ => rfl
  | f + 1, root, s, v => by
    have hr : Prefixes p (buildAs ok' E f false) (buildAs ok E f false) := fun nm v => buildAs_pre hO hok f false nm v
    cases v with
    | inst t x => simp only [buildAs, hok]; split <;> rfl
    | cls t x => simp only [buildAs, hok]; split <;> rfl
    | module t => simp only [buildAs, hok]; split <;> rfl
    | io t => simp only [buildAs, hok]; split <;> rfl
    | ndarray t x => simp only [buildAs, hok]; split <;> rfl
    | func i =>
      simp only [buildAs, hok]
      by_cases h : ok s = true
      · simp only [h, if_true]
        split <;> rfl
      · simp only [h, if_false]
        rfl
    | seq k t es =>
      simp only [buildAs, hok]
      rw [tupleChildren_pre hr, setChildren_pre hO hr]
      by_cases hk : k = .tuple ∧ E.S.tuple = .fixed
      · simp only [if_pos hk]
        split
        · cases tupleChildren E (buildAs ok E f false) s es with
          | error e => rfl
          | ok c => simp [resPre, preKids, prefixed, prefixedList_map, Val.ty]
        · rfl
      · simp only [if_neg hk]
        split
        · cases setChildren E (buildAs ok E f false) s es with
          | error e => rfl
          | ok c => simp [resPre, preKids, prefixed, prefixedList_map, Val.ty]
        · rfl
    | map k t ks vs =>
      cases k with
      | dict =>
        simp only [buildAs]
        rw [mapChildren_pre hr]
        cases mapChildren E (buildAs ok E f false) s (dictData E.S (ks.zip vs)) with
        | error e => rfl
        | ok c => simp [resPre, preKids, prefixed, prefixedList_map, Val.ty]
      | proxy =>
        simp only [buildAs, hok]
        rw [mapChildren_pre hr]
        split
        · cases mapChildren E (buildAs ok E f false) s (limit E.S.checkMax (ks.zip vs)) with
          | error e => rfl
          | ok c => simp [resPre, preKids, prefixed, prefixedList_map, Val.ty]
        · rfl
      | frame i =>
        simp only [buildAs, hok]
        rw [frameChildren_pre hr]
        split
        · cases frameChildren E (buildAs ok E f false) s (ks.zip vs) with
          | error e => rfl
          | ok c => simp [resPre, preKids, prefixed, prefixedList_map, Val.ty]
        · rfl

theorem buildAs_nameOk (E : Env) : ∀ f : Nat, buildAs (nameOk E.U) E f = build E f
  | 0 => rfl
  | f + 1 => by
    funext root s v
    cases v with
    | map k t ks vs => cases k <;> simp only [buildAs, build, buildAs_nameOk E f] <;> rfl
    | _ => simp only [buildAs, build, buildAs_nameOk E f] <;> rfl

/-- The tree of a value under a name that begins with `p`. -/
theorem build_pre (hO : OrderIgnoresNames E) {ok : Str → Bool} (hok : ∀ s, nameOk E.U (p ++ s) = ok s) (f : Nat) (root : Bool) (s : Str) (v : Val) :
    build E f root (p ++ s) v = resPre p (prefixed p) (buildAs ok E f root s v) := by
  rw [← buildAs_nameOk]
  exact buildAs_pre hO hok f root s v

end

end Verif
