import Verif.Lemmas.Outline
import Verif.Props.Depth
/-
C104: the printed outline of a tree.
-/
namespace Verif.Props
open Verif Verif.Spec

variable {E : Env}

/-- C104 (partial: `None` keys are excluded). For all other data, `print_all_children` shows the whole tree: one line per tree, with
four blanks per level, and below it all of its children in order. -/
theorem shows_tree_partial (hE : E.Fair) {name : Str} {v : Val} {n : Node} (hv : NoNoneKeys v) (h : fromData E name v = .ok n) (depth : Nat) :
    ShowsTree depth n :=
  print_keyed true depth n (build_keyed hE hv (by omega) (fromData_build h))

/-- C104. The printed lines say which tree it is: whoever reads them, without knowing the tree, by taking what has more blanks in front
for something below, finds the items of the tree, and nothing else. -/
theorem outline_read_partial (hE : E.Fair) {name : Str} {v : Val} {n : Node} (hv : NoNoneKeys v) (h : fromData E name v = .ok n) (depth : Nat) :
    readOutline (n.printAllChildren true depth).length (n.printAllChildren true depth) = [treeOutline n] := by
  rw [shows_tree_partial hE hv h depth]
  have := read_lines ((treeOutline n).lines depth).length depth [treeOutline n]
    (by simp only [UnindentedList]; exact ⟨unindented_tree n, trivial⟩) (by simp [outlineLines])
  simpa [outlineLines] using this

/-- So trees with the same printed lines have the same outline. -/
theorem outline_unique_partial (hE : E.Fair) {name name' : Str} {v v' : Val} {n n' : Node} (hv : NoNoneKeys v) (hv' : NoNoneKeys v')
    (h : fromData E name v = .ok n) (h' : fromData E name' v' = .ok n') {depth depth' : Nat}
    (he : n.printAllChildren true depth = n'.printAllChildren true depth') : treeOutline n = treeOutline n' := by
  have e := outline_read_partial hE hv h depth
  rw [he, outline_read_partial hE hv' h' depth'] at e
  injection e with e
  exact e.symm

theorem treeClass_tag {k k' : NKind} (h : k.tag = k'.tag) : treeClass k = treeClass k' := by
  cases k with
  | seq a => cases k' with
    | seq b => cases a <;> cases b <;> first | rfl | cases h
    | _ => cases a <;> cases h
  | _ => cases k' with
    | seq b => cases b <;> cases h
    | _ => first | rfl | cases h

theorem treeClass_kind (S : Strategies) (v : Val) : treeClass (kindOf S v) = classFor v := by
  cases v with
  | seq k t es => cases k <;> rfl
  | map k t ks vs => cases k <;> rfl
  | _ => rfl

theorem cls_outline (n : Node) : (treeOutline n).cls = treeClass n.hdr.kind := by
  obtain ⟨⟨kind, name, root, ty, slots⟩, kids⟩ := n
  simp only [treeOutline, Outline.cls, Hdr.repr, Node.hdr]
  have key : ∀ c : Str, (∀ x ∈ c, x ≠ '-') → (c ++ '-' :: name).takeWhile (fun x => decide (x ≠ '-')) = c := by
    intro c hc
    exact (takeWhile_split (a := c) (b := '-' :: name) (fun x hx => by simp [hc x hx]) (fun x r e => by
      injection e with e _; simp [← e])).1
  apply key
  cases kind with
  | seq k => cases k <;> decide
  | _ => simp only [treeClass]; decide

theorem treeOutlines_map : ∀ l : List Node, treeOutlines l = l.map treeOutline
  | [] => rfl
  | k :: r => by simp only [treeOutlines, List.map_cons, treeOutlines_map r]

/-- The kind of a tree is that of its value. -/
theorem build_kind (hE : E.Fair) {f : Nat} {root : Bool} {name : Str} {v : Val} {n : Node} (hf : v.depth < f)
    (h : build E f root name v = .ok n) : n.hdr.kind = kindOf E.S v ∧ n.name = name := by
  have := build_ens hE (trivialInv E) f root name v trivial trivial hf
  rw [h] at this
  exact ⟨this.2.2.2.1, this.2.1⟩

theorem depth_le_list : ∀ {l : List Val} {v : Val}, v ∈ l → v.depth ≤ depthList l
  | w :: l, v, h => by
    simp only [depthList]
    rcases List.mem_cons.mp h with rfl | h
    · omega
    · have := depth_le_list h; omega

/-- C104. The first line has the class for the data and the name of the class. -/
theorem outline_first (hE : E.Fair) {name : Str} {v : Val} {n : Node} (h : fromData E name v = .ok n) (depth : Nat) :
    (n.printAllChildren true depth).head? = some (List.replicate (4 * depth) ' ' ++ (classFor v ++ '-' :: name)) := by
  obtain ⟨h1, h2⟩ := build_kind hE (by omega) (fromData_build h)
  obtain ⟨hd, kids⟩ := n
  simp only [Node.printAllChildren, flatten_blanks, Hdr.repr, List.head?_cons]
  simp only [Node.hdr, Node.name] at h1 h2
  rw [h1, h2, treeClass_kind]

/-- C104. Below the line of a mapping are its inspected entries, one each, in their order, with the classes for their values. -/
theorem outline_entries (hE : E.Fair) {name : Str} {k : MapKind} {t : Ty} {ks : List Key} {vs : List Val} {n : Node} (hn : ks.Nodup)
    (hl : ks.length = vs.length) (h : fromData E name (.map k t ks vs) = .ok n) :
    (treeOutline n).parts.map Outline.cls = (inspectedItems E.S k (ks.zip vs)).map (fun kv => classFor kv.2) := by
  have hb := fromData_build h
  have hd : (Val.map k t ks vs).depth = depthList vs + 1 := by simp [Val.depth]
  rw [hd] at hb
  have each : ∀ items : List (Key × Val), items.Sublist (ks.zip vs) → ∀ {suffix kids}, mapKids (build E (depthList vs + 1) false) name suffix items = .ok kids →
      All₂ (fun kv kn => kn.1 = kv.1 ∧ treeClass kn.2.hdr.kind = classFor kv.2) items kids := by
    intro items hsub suffix kids hm
    refine mapKids_all₂ (R := fun v n => treeClass n.hdr.kind = classFor v) ?_ hm
    intro kv hkv nm n hb
    have := depth_le_list (List.of_mem_zip (hsub.subset hkv)).2
    rw [(build_kind hE (by omega) hb).1, treeClass_kind]
  have shared : ∀ items : List (Key × Val), items.Sublist (ks.zip vs) → ∀ {suffix kids}, mapKids (build E (depthList vs + 1) false) name suffix items = .ok kids →
      (treeOutlines (shareEqual E name kids).2).map Outline.cls = items.map (fun kv => classFor kv.2) := by
    intro items hsub suffix kids hm
    have hk : (kids.map (·.1)).Nodup := by
      rw [mapKids_keys hm]
      have := hsub.map (·.1)
      rw [List.map_fst_zip (by omega)] at this
      exact hn.sublist this
    have h1 := each items hsub hm
    have h2 := shareEqual_spec (E := E) (parent := name) hk
    have h3 : (shareEqual E name kids).2.map (fun n => treeClass n.hdr.kind) = kids.map (fun kn => treeClass kn.2.hdr.kind) := by
      symm
      apply h2.map_eq
      rintro kn n ⟨k, m, _, he, hr⟩
      have e1 : treeClass n.hdr.kind = treeClass m.hdr.kind := by
        rcases hr with rfl | ⟨x, rfl⟩
        · rfl
        · obtain ⟨hm, km⟩ := m; rfl
      rw [e1]
      rcases he with he | he
      · rw [he]
      · apply treeClass_tag
        unfold nodeEq at he
        simp only [Bool.and_eq_true, decide_eq_true_eq] at he
        exact he.1
    rw [treeOutlines_map, List.map_map]
    have : (Outline.cls ∘ treeOutline) = fun n => treeClass n.hdr.kind := funext cls_outline
    rw [this, h3]
    symm
    exact h1.map_eq (fun _ _ h => h.2.symm)
  cases k with
  | dict =>
    obtain ⟨kids, hm, rfl⟩ := build_dict hb
    simp only [treeOutline, Outline.parts]
    have hsub : (dictData E.S (ks.zip vs)).Sublist (ks.zip vs) := by
      unfold dictData; split
      · exact List.Sublist.refl _
      · exact limit_sublist
    exact shared _ (List.filter_sublist.trans hsub) hm
  | proxy =>
    obtain ⟨kids, hm, rfl⟩ := build_proxy hb
    simp only [treeOutline, Outline.parts]
    exact shared _ (List.filter_sublist.trans limit_sublist) hm
  | frame i =>
    obtain ⟨kids, hm, rfl⟩ := build_frame hb
    simp only [treeOutline, Outline.parts, inspectedItems]
    rw [treeOutlines_map, List.map_map, List.map_map]
    symm
    exact (each _ (List.Sublist.refl _) hm).map_eq (fun _ _ h => by simp [cls_outline, h.2])

/-- C104 fails for `None` keys: for `{None: 1, "a": [2]}` nothing but the dictionary itself is printed. -/
theorem shows_tree_fails :
    let v : Val := .map .dict .dict [.none, .str py!"a"] [.inst .int none, .seq .list .list [.inst .int none]]
    (match fromData (exEnv {}) py!"A" v with
      | .ok n => some (n.printAllChildren true 0, ((treeOutline n).lines 0).length)
      | .error _ => none) = some ([py!"DictDataTypeTree-A"], 4) := by decide +kernel

/-- C104: `recursive` has no influence, whatever the tree. -/
theorem recursive_ignored (b : Bool) (depth : Nat) (n : Node) : n.printAllChildren b depth = n.printAllChildren true depth :=
  print_recursive b depth n

/-- C104. So `recursive=False` does what it says only if no child has children. -/
theorem shows_children_iff (hE : E.Fair) {name : Str} {v : Val} {n : Node} (hv : NoNoneKeys v) (h : fromData E name v = .ok n) (depth : Nat) :
    ShowsChildren depth n ↔ ∀ k ∈ n.kids, k.kids = [] := by
  have hs := shows_tree_partial hE hv h depth
  have hr := outline_read_partial hE hv h depth
  unfold ShowsChildren
  rw [recursive_ignored]
  obtain ⟨hd, kids⟩ := n
  have eK : ∀ l : List Node, treeOutlines l = l.map (fun k => .item k.hdr.repr []) ↔ ∀ k ∈ l, k.kids = [] := by
    intro l
    induction l with
    | nil => simp [treeOutlines]
    | cons k l ih =>
      obtain ⟨hk, kk⟩ := k
      have e1 : (Node.mk hk kk).kids = kk := rfl
      have e2 : (Node.mk hk kk).hdr = hk := rfl
      simp only [treeOutlines, treeOutline, List.map_cons, List.cons.injEq, ih, List.mem_cons, forall_eq_or_imp, e1, e2,
        Outline.item.injEq, true_and]
      cases kk with
      | nil => simp [treeOutlines]
      | cons a b => simp [treeOutlines]
  have e1 : (Node.mk hd kids).kids = kids := rfl
  have e2 : (Node.mk hd kids).hdr = hd := rfl
  rw [e1, e2]
  constructor
  · intro e
    rw [e] at hr
    have : UnindentedList (kids.map fun k => Outline.item k.hdr.repr []) := by
      clear hr e hs h eK e1 e2
      induction kids with
      | nil => simp [UnindentedList]
      | cons k l ih =>
        simp only [List.map_cons, UnindentedList, Unindented]
        exact ⟨⟨repr_start _, trivial⟩, ih⟩
    have hr' := read_lines ((Outline.item hd.repr (kids.map fun k => Outline.item k.hdr.repr [])).lines depth).length depth
      [Outline.item hd.repr (kids.map fun k => Outline.item k.hdr.repr [])]
      (by simp only [UnindentedList, Unindented]; exact ⟨⟨repr_start _, this⟩, trivial⟩) (by simp [outlineLines])
    simp only [outlineLines, List.append_nil] at hr'
    rw [hr'] at hr
    injection hr with hr
    simp only [treeOutline, Outline.item.injEq, true_and] at hr
    exact (eK kids).mp hr.symm
  · intro e
    rw [hs, treeOutline, (eK kids).mpr e]

instance (depth : Nat) (n : Node) : Decidable (ShowsChildren depth n) := by unfold ShowsChildren; infer_instance

/-- C104 fails: `[[1]]` printed with `recursive=False` shows the number as well. -/
theorem shows_children_fails :
    (match fromData (exEnv {}) py!"A" (.seq .list .list [.seq .list .list [.inst .int none]]) with
      | .ok n => some (decide (ShowsChildren 0 n), n.printAllChildren false 0)
      | .error _ => none) =
    some (false, [py!"ListDataTypeTree-A", py!"    ListDataTypeTree-AList", py!"        InstanceDataTypeTree-AListInt"]) := by decide +kernel

/-- The hypotheses are met by `{"a": [1, "x"], "b": {"c": 1.5}}`, with this outline. -/
example :
    let v : Val := .dict [(.str py!"a", .seq .list .list [.inst .int none, .inst .str none]), (.str py!"b", .dict [(.str py!"c", .inst .float none)])]
    NoNoneKeys v ∧
    (match fromData (exEnv {}) py!"Config" v with
      | .ok n => some (n.printAllChildren true 0)
      | .error _ => none) = some [py!"DictDataTypeTree-Config", py!"    ListDataTypeTree-ConfigA", py!"        InstanceDataTypeTree-ConfigAInt",
        py!"        InstanceDataTypeTree-ConfigAStr", py!"    DictDataTypeTree-ConfigB", py!"        InstanceDataTypeTree-ConfigBC"] := by
  refine ⟨?_, by decide +kernel⟩
  simp [NoNoneKeys, Every, EveryList, Val.dict]

end Verif.Props
