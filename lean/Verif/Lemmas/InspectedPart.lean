import Verif.Lemmas.Via
import Verif.Lemmas.BareRender
/-
The hint of the inspected part of the data.
-/
namespace Verif
open Verif.Spec

theorem inspectedParts_map (S : Strategies) : ∀ l : List Val, inspectedParts S l = l.map (inspectedPart S)
  | [] => rfl
  | v :: r => by simp [inspectedParts, inspectedParts_map S r]

theorem inspected_ty (S : Strategies) (v : Val) : (inspectedPart S v).ty = v.ty := by
  cases v with
  | map k t ks vs =>
    cases k
    · simp only [inspectedPart]; split <;> rfl
    · rfl
    · rfl
  | _ => rfl

theorem inspected_text (S : Strategies) (v : Val) : textOf (inspectedPart S v) = textOf v := by
  cases v with
  | map k t ks vs =>
    cases k
    · simp only [inspectedPart]; split <;> rfl
    · rfl
    · rfl
  | _ => rfl

theorem zip_inspected (S : Strategies) (ks : List Key) (vs : List Val) :
    ks.zip (vs.map (inspectedPart S)) = viaData (inspectedPart S) (ks.zip vs) := by
  rw [List.zip_map_right]; rfl

theorem zip_firstElems {α β} (n : Nat) (a : List α) (b : List β) : (firstElems n a).zip (firstElems n b) = limit n (a.zip b) := by
  unfold firstElems limit
  split
  · rfl
  · simp [List.zip, List.take_zipWith]

theorem limit_firstElems {α} (n : Nat) (l : List α) : limit n (firstElems n l) = limit n l := by
  unfold firstElems limit
  split
  · rfl
  · simp [List.take_take]

theorem limit_twice {α} (n : Nat) (l : List α) : limit n (limit n l) = limit n l := limit_firstElems n l

theorem limit_viaData (φ : Val → Val) (n : Nat) (d : List (Key × Val)) : limit n (viaData φ d) = viaData φ (limit n d) := limit_map_bare n _ d

theorem inspected_dict {S : Strategies} (h : S.dict = .typedDict) (d : List (Key × Val)) :
    inspectedPart S (.dict d) = .dict (viaData (inspectedPart S) d) := by
  simp only [Val.dict, inspectedPart, h, if_true, inspectedParts_map]
  simp [viaData, Function.comp_def]

theorem build_inspected {E : Env} (hE : E.Fair) (hO : OrderIgnoresRest E) : ∀ (f : Nat) (root : Bool) (name : Str) (v : Val),
    build E f root name (inspectedPart E.S v) = (build E f root name v).map (viaTree (inspectedPart E.S))
  | 0, _, _, _ => rfl
  | f + 1, root, name, v => by
    have hr : Commutes (inspectedPart E.S) (build E f false) := fun nm v => build_inspected hE hO f false nm v
    have hty := inspected_ty E.S
    cases v with
    | inst t x => simp only [inspectedPart, build]; split <;> rfl
    | cls t x => simp only [inspectedPart, build]; split <;> rfl
    | module t => simp only [inspectedPart, build]; split <;> rfl
    | io t => simp only [inspectedPart, build]; split <;> rfl
    | ndarray t x => simp only [inspectedPart, build]; split <;> rfl
    | func i =>
      simp only [inspectedPart, build]
      split
      · rfl
      · rename_i n h1
        split at h1
        · injection h1 with h1
          subst h1
          split <;> rfl
        · cases h1
    | seq k t es =>
      have hl : limit E.S.checkMax (firstElems E.S.checkMax (es.map (inspectedPart E.S))) = (limit E.S.checkMax es).map (inspectedPart E.S) := by
        rw [limit_firstElems, limit_map_bare]
      simp only [inspectedPart, build, inspectedParts_map]
      rw [tupleChildren_via hty (fun h => inspected_dict h) hr hl, setChildren_via hE hty (fun h => inspected_dict h) hO hr hl]
      by_cases hk : k = .tuple ∧ E.S.tuple = .fixed
      · simp only [if_pos hk]
        split
        · cases hc : tupleChildren E (build E f false) name es with
          | error e => rfl
          | ok c => simp [Except.map, viaKids, viaTree, viaKind, viaTrees_map, Val.ty]
        · rfl
      · simp only [if_neg hk]
        split
        · cases hc : setChildren E (build E f false) name es with
          | error e => rfl
          | ok c => simp [Except.map, viaKids, viaTree, viaKind, viaTrees_map, Val.ty]
        · rfl
    | map k t ks vs =>
      cases k with
      | dict =>
        have key : ∃ ks' vs', inspectedPart E.S (.map .dict t ks vs) = .map .dict t ks' vs' ∧
            dictData E.S (ks'.zip vs') = viaData (inspectedPart E.S) (dictData E.S (ks.zip vs)) := by
          simp only [inspectedPart, inspectedParts_map]
          unfold dictData
          split
          · exact ⟨_, _, rfl, zip_inspected E.S ks vs⟩
          · refine ⟨_, _, rfl, ?_⟩
            rw [zip_firstElems, limit_twice, zip_inspected, limit_viaData]
        obtain ⟨ks', vs', e, hd⟩ := key
        rw [e]
        simp only [build, hd]
        rw [mapChildren_via hr, ← viaMeta_ofData]
        cases hc : mapChildren E (build E f false) name (dictData E.S (ks.zip vs)) with
        | error e => rfl
        | ok c => simp [Except.map, viaKids, viaTree, viaKind, viaMeta, viaTrees_map, Val.ty]
      | proxy =>
        simp only [inspectedPart, build, inspectedParts_map, zip_firstElems, limit_twice, zip_inspected, limit_viaData]
        rw [mapChildren_via hr]
        split
        · cases hc : mapChildren E (build E f false) name (limit E.S.checkMax (ks.zip vs)) with
          | error e => rfl
          | ok c => simp [Except.map, viaKids, viaTree, viaKind, viaTrees_map, Val.ty]
        · rfl
      | frame i =>
        simp only [inspectedPart, build, inspectedParts_map, zip_inspected]
        rw [frameChildren_via hr]
        split
        · cases hc : frameChildren E (build E f false) name (ks.zip vs) with
          | error e => rfl
          | ok c => simp [Except.map, viaKids, viaTree, viaKind, viaTrees_map, Val.ty]
        · rfl

/-! ### Texts -/

section
variable {E : Env} {φ : Val → Val}

theorem classText_via (hdoc : ∀ v, textOf (φ v) = textOf v) (m : DMeta) (name : Str) (content : List (Str × Str)) (doc : Option Str) :
    classText (viaMeta φ m) name content doc = classText m name content doc := by
  unfold classText
  simp only [keyDoc_via hdoc]

theorem typedTop_via (hdoc : ∀ v, textOf (φ v) = textOf v) (h : Hdr) (k : NKind) (d : List (Key × Val)) (m : DMeta) (kids : List (Key × Out)) :
    typedTop E { h with kind := k } (viaData φ d) (viaMeta φ m) kids = typedTop E h d m kids := by
  unfold typedTop
  rw [isFunctional_via, classDoc_via hdoc]
  simp only [classText_via hdoc]
  rfl

theorem topOf_via (hdoc : ∀ v, textOf (φ v) = textOf v) {im : Str → List Str} (h : Hdr) (kids : List Out) :
    topOf E im { h with kind := viaKind φ h.kind } kids = topOf E im h kids := by
  obtain ⟨k, name, root, ty, slots⟩ := h
  cases k with
  | dict d m =>
    have h1 := isTyped_via (φ := φ) E.S m
    have h2 := typedTop_via (E := E) hdoc ⟨.dict d m, name, root, ty, slots⟩ (viaKind φ (.dict d m)) d m ((slots.map (·.key)).zip kids)
    simp only [viaMeta, viaKind] at h1 h2
    simp only [topOf, viaKind, h1, h2]
    split
    · rfl
    · rfl
  | _ => rfl

theorem combine_via (hdoc : ∀ v, textOf (φ v) = textOf v) {im : Str → List Str} (h : Hdr) (kids : List Out) :
    combine E im { h with kind := viaKind φ h.kind } kids = combine E im h kids := by
  have h1 := topOf_via (E := E) (im := im) hdoc h kids
  have h2 : ∀ l, heightOf { h with kind := viaKind φ h.kind } l = heightOf h l := by
    intro l
    unfold heightOf
    obtain ⟨k, name, root, ty, slots⟩ := h
    cases k <;> rfl
  have h3 : ∀ n, permOf E.S { h with kind := viaKind φ h.kind } n = permOf E.S h n := by
    intro n
    obtain ⟨k, name, root, ty, slots⟩ := h
    cases k with
    | dict d m =>
      have h1 := isTyped_via (φ := φ) E.S m
      simp only [viaMeta] at h1
      simp only [permOf, viaKind, h1]
    | _ => rfl
  unfold combine
  simp only [h1, h2, h3]
  rfl

mutual
theorem out_via (hdoc : ∀ v, textOf (φ v) = textOf v) {im : Str → List Str} : ∀ n : Node, (viaTree φ n).out E im = n.out E im
  | .mk h kids => by
    simp only [viaTree, Node.out, outList_via hdoc kids]
    exact combine_via hdoc h _
theorem outList_via (hdoc : ∀ v, textOf (φ v) = textOf v) {im : Str → List Str} : ∀ l : List Node, outList E im (viaTrees φ l) = outList E im l
  | [] => rfl
  | n :: r => by simp only [viaTrees, outList, out_via hdoc n, outList_via hdoc r]
end

end

theorem depthList_firstElems (n : Nat) (l : List Val) : depthList (firstElems n l) ≤ depthList l := by
  apply depthList_le
  intro w hw
  unfold firstElems at hw
  split at hw
  · exact depth_le_depthList hw
  · exact depth_le_depthList (List.mem_of_mem_take hw)

mutual
theorem inspected_depth (S : Strategies) : ∀ v : Val, (inspectedPart S v).depth ≤ v.depth
  | .seq k t es => by
    simp only [inspectedPart, Val.depth]
    have h1 := inspecteds_depth S es
    have h2 := depthList_firstElems S.checkMax (inspectedParts S es)
    omega
  | .map .dict t ks vs => by
    have h1 := inspecteds_depth S vs
    have h2 := depthList_firstElems S.checkMax (inspectedParts S vs)
    simp only [inspectedPart]
    split <;> simp only [Val.depth] <;> omega
  | .map .proxy t ks vs => by
    have h1 := inspecteds_depth S vs
    have h2 := depthList_firstElems S.checkMax (inspectedParts S vs)
    simp only [inspectedPart, Val.depth]
    omega
  | .map (.frame i) t ks vs => by
    have h1 := inspecteds_depth S vs
    simp only [inspectedPart, Val.depth]
    omega
  | .inst _ _ => by simp [inspectedPart]
  | .cls _ _ => by simp [inspectedPart]
  | .module _ => by simp [inspectedPart]
  | .io _ => by simp [inspectedPart]
  | .ndarray _ _ => by simp [inspectedPart]
  | .func _ => by simp [inspectedPart]
theorem inspecteds_depth (S : Strategies) : ∀ l : List Val, depthList (inspectedParts S l) ≤ depthList l
  | [] => by simp [inspectedParts]
  | v :: r => by
    have h1 := inspected_depth S v
    have h2 := inspecteds_depth S r
    simp only [inspectedParts, depthList]
    omega
end

theorem fromData_inspectedPart {E : Env} (hE : E.Fair) (hO : OrderIgnoresRest E) (name : Str) (v : Val) :
    fromData E name (inspectedPart E.S v) = (fromData E name v).map (viaTree (inspectedPart E.S)) := by
  unfold fromData buildTree
  split
  · rw [← build_fuel hE (f := (inspectedPart E.S v).depth + 1) (f' := v.depth + 1) (by omega) (by have := inspected_depth E.S v; omega),
      build_inspected hE hO]
    cases build E (v.depth + 1) true name v <;> rfl
  · rfl

end Verif
