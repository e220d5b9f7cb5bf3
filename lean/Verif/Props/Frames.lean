import Verif.Lemmas.FitsBuild
import Verif.Lemmas.Scope
import Verif.Lemmas.Dict
import Verif.Spec.Frames
import Verif.Model.Generator
/-
Hints of data frames (C69, C70).
-/
namespace Verif.Props
open Verif Verif.Spec

/-- A type written for a column: the name of a declaration for the column that is part of the text, or the type that this declaration would have. -/
def ColumnHint (E : Env) (strs : List Str) (fuel : Nat) (v : Val) (type : Str) : Prop :=
  ∃ (declared : Str) (k : Node), build E fuel false declared v = .ok k ∧
    (type = declared ∧ (k.render E).top.text ∈ strs ∨ type = withoutLvalue (k.render E).top.text)

theorem build_keeps_name {E : Env} {f : Nat} {root : Bool} {name : Str} {v : Val} {n : Node} (h : build E f root name v = .ok n) : n.name = name := by
  have leaf : ∀ {k : NKind} {t : Ty}, (if nameOk E.U name then Except.ok (Node.mk { kind := k, name, root, ty := t, slots := [] } []) else .error (Err.badName name)) = .ok n →
      n.name = name := by
    intro k t h
    split at h
    · cases h; rfl
    · cases h
  have node : ∀ {k : NKind} {t : Ty} {c : Except Err (List Slot × List Node)},
      (match c with
        | .ok (slots, kids) => Except.ok (Node.mk { kind := k, name, root, ty := t, slots } kids)
        | .error e => .error e) = .ok n → n.name = name := by
    intro k t c h
    split at h
    · cases h; rfl
    · cases h
  cases f with
  | zero => cases h
  | succ f =>
    cases v with
    | inst | cls | module | io | ndarray => simp only [build] at h; exact leaf h
    | func g =>
      simp only [build] at h
      split at h
      · cases h
      · rename_i m hm
        split at h
        · cases h
        · cases h; exact leaf hm
    | seq k t es =>
      simp only [build] at h
      split at h
      · exact node h
      · cases h
    | map k t ks vs =>
      cases k with
      | dict => simp only [build] at h; exact node h
      | proxy | frame =>
        simp only [build] at h
        split at h
        · exact node h
        · cases h

theorem literalOf_key {E : Env} {k : Key} {l : Str} (h : literalOf E.reprStr k = some l) : literalKey k = true ∧ reprKey E k = l ∧ k ≠ .none := by
  cases k with
  | str s => simp only [literalOf, Option.some.injEq] at h; exact ⟨rfl, h, by simp⟩
  | none => cases h
  | other t r =>
    simp only [literalOf] at h
    split at h
    · rename_i ht
      simp only [Option.some.injEq] at h
      exact ⟨by simpa [literalKey] using ht, h, by simp⟩
    · cases h

set_option maxRecDepth 8000 in
theorem frameTop_columns {E : Env} {h : Hdr} {kids : List (Key × Out)} (hne : kids ≠ []) (hk : ∀ kk ∈ kids, ∃ l, literalOf E.reprStr kk.1 = some l) :
    (frameTop E h kids).1 = (match E.S.pandas with
      | .full => closedFrame h.name (kids.map (fun kk => ⟨reprKey E kk.1, childRef kk.2⟩))
      | _ => openFrame h.name (kids.map (fun kk => ⟨reprKey E kk.1, childRef kk.2⟩))) := by
  have hlit : kids.filter (fun kk => literalKey kk.1) = kids := by
    rw [List.filter_eq_self]
    intro kk hkk
    obtain ⟨l, hl⟩ := hk kk hkk
    exact (literalOf_key hl).1
  have hall : kids.all (fun kk => literalKey kk.1) = true := by
    rw [List.all_eq_true]
    intro kk hkk
    obtain ⟨l, hl⟩ := hk kk hkk
    exact (literalOf_key hl).1
  unfold frameTop
  rw [if_neg (by simpa using hne)]
  simp only [hlit, hall]
  cases E.S.pandas <;>
    simp only [closedFrame, openFrame, generalMethod, frameGetItem, frameOverload, Column.overload, List.map_map, Function.comp_def, List.append_assoc,
      List.cons_append, List.nil_append, if_true, Bool.false_eq_true, if_false]

/-- How the type of a column comes about: its tree is a child of the tree of the frame. -/
def ColumnMade (E : Env) (n : Node) (strs : List Str) (fuel : Nat) (v : Val) (type : Str) : Prop :=
  ∃ k ∈ n.kids, build E fuel false k.name v = .ok k ∧
    (type = k.name ∧ (k.render E).perm = true ∧ (k.render E).top.text ∈ strs ∨ type = withoutLvalue (k.render E).top.text)

theorem frame_columns_made (E : Env) (name : Str) (t : Ty) (i : FrameInfo) (ks : List Key) (vs : List Val) (hl : ks.length = vs.length)
    (hne : ks ≠ []) (hk : ∀ k ∈ ks, ∃ l, literalOf E.reprStr k = some l) (n : Node) (strs : List Str)
    (hn : fromData E name (.map (.frame i) t ks vs) = .ok n) (hs : nodeStrings E n false = .ok strs) :
    ∃ cols : List Column,
      (match E.S.pandas with
        | .full => closedFrame name cols
        | _ => openFrame name cols) ∈ strs ∧
      All₂ (fun kv c => literalOf E.reprStr kv.1 = some c.label ∧ ColumnMade E n strs (depthList vs + 1) kv.2 c.type) (ks.zip vs) cols := by
  unfold fromData at hn
  split at hn
  case isFalse => cases hn
  split at hn
  case h_2 => cases hn
  rename_i hname n' hb
  cases hn
  have hb' : build E (depthList vs + 1 + 1) true name (.map (.frame i) t ks vs) = .ok n := hb
  obtain ⟨kids, hkids, rfl⟩ := build_frame hb'
  have hkeys : kids.map (·.1) = ks := by rw [mapKids_keys hkids, List.map_fst_zip]; omega
  have hall : All₂ (fun kv (kn : Key × Node) => kn.1 = kv.1 ∧ ∃ nm, build E (depthList vs + 1) false nm kv.2 = .ok kn.2 ∧ kn.2.name = nm) (ks.zip vs) kids := by
    refine mapKids_all₂ (R := fun v k => ∃ nm, build E (depthList vs + 1) false nm v = .ok k ∧ k.name = nm) ?_ hkids
    intro kv hkv nm k hk
    exact ⟨nm, hk, build_keeps_name hk⟩
  have hzip : ((kids.map (fun kn => (⟨kn.1, 1⟩ : Slot))).map (·.key)).zip (outList E (sigImports E.U) (kids.map (·.2))) =
      kids.map (fun kn => (kn.1, kn.2.render E)) := by
    rw [outList_eq_map, List.map_map, List.map_map, List.zip_map']
    rfl
  have hkk : ∀ kk ∈ kids.map (fun kn => (kn.1, kn.2.render E)), ∃ l, literalOf E.reprStr kk.1 = some l := by
    intro kk hkk
    obtain ⟨kn, hkn, rfl⟩ := List.mem_map.mp hkk
    exact hk _ (by rw [← hkeys]; exact List.mem_map_of_mem hkn)
  have hkne : kids ≠ [] := by
    rintro rfl
    exact hne hkeys.symm
  refine ⟨kids.map (fun kn => ⟨reprKey E kn.1, childRef (kn.2.render E)⟩), ?_, ?_⟩
  · have hm := root_text_mem (E := E) rfl hs
    rw [Node.render, out_mk] at hm
    simp only [combine, topOf] at hm
    rw [hzip, frameTop_columns (by simpa using hkne) hkk, List.map_map] at hm
    exact hm
  · have hem : ∀ kn ∈ kids, (kn.2.render E).perm = true → (kn.2.render E).top.text ∈ strs := by
      intro kn hkn hp
      unfold nodeStrings at hs
      dsimp only at hs
      split at hs
      · cases hs
      split at hs
      · cases hs
      simp only [Bool.false_eq_true, if_false] at hs
      injection hs with hs
      rw [← hs]
      unfold declTexts
      rw [mem_dedup]
      refine List.mem_map.mpr ⟨(kn.2.render E).top, ?_, rfl⟩
      rw [Node.render, out_mk]
      simp only [combine, emitOf]
      rw [if_neg (by rw [outList_eq_map]; simpa using hkne)]
      apply List.mem_append_left
      rw [List.mem_flatMap]
      refine ⟨kn.2.render E, ?_, by simp [hp]⟩
      rw [iterate_all, outList_eq_map, List.map_map, List.zip_map', List.map_map]
      · exact List.mem_map.mpr ⟨kn, hkn, rfl⟩
      · intro s hs
        obtain ⟨kn', hkn', rfl⟩ := List.mem_map.mp hs
        obtain ⟨l, hl⟩ := hk kn'.1 (by rw [← hkeys]; exact List.mem_map_of_mem hkn')
        exact (literalOf_key hl).2.2
    have hk' : ∀ kn ∈ kids, ∃ l, literalOf E.reprStr kn.1 = some l := fun kn hkn => hk _ (by rw [← hkeys]; exact List.mem_map_of_mem hkn)
    have hkid : ∀ kn ∈ kids, kn.2 ∈ kids.map (·.2) := fun kn hkn => List.mem_map_of_mem hkn
    unfold ColumnMade
    show All₂ (fun (kv : Key × Val) (c : Column) => literalOf E.reprStr kv.1 = some c.label ∧ ∃ k ∈ kids.map (·.2), _ ∧ _) _ _
    generalize kids.map (·.2) = all at hkid ⊢
    clear hkids hkeys hzip hkk hs hb hb' hname hkne
    generalize ks.zip vs = items at hall
    induction hall with
    | nil => exact .nil
    | cons h _ ih =>
      rename_i a b l1 l2 _
      refine .cons ?_ (ih (fun kn hkn => hem kn (by simp [hkn])) (fun kn hkn => hk' kn (by simp [hkn])) (fun kn hkn => hkid kn (by simp [hkn])))
      obtain ⟨h1, nm, h2, h3⟩ := h
      obtain ⟨l, hl⟩ := hk' b (by simp)
      rw [← h1]
      refine ⟨by rw [hl]; exact congrArg some (literalOf_key hl).2.1.symm, b.2, hkid b (by simp), by rw [h3]; exact h2, ?_⟩
      dsimp only
      unfold childRef
      cases hp : (b.2.render E).perm with
      | true =>
        refine .inl ⟨?_, rfl, hem b (by simp) hp⟩
        rw [if_pos rfl]
        cases b.2
        rfl
      | false => exact .inr (by simp)

/-- **C69, partial.** If all labels of a frame are strings, integers or truth values, its class has one overload per column, in order, for exactly
these labels and with the hint of the column. With "Full type hint" no other labels are possible. Missing: different columns may declare
the same name (`frame_columns_fails`). -/
theorem frame_columns_partial (E : Env) (name : Str) (t : Ty) (i : FrameInfo) (ks : List Key) (vs : List Val) (hl : ks.length = vs.length)
    (hne : ks ≠ []) (hk : ∀ k ∈ ks, ∃ l, literalOf E.reprStr k = some l) (n : Node) (strs : List Str)
    (hn : fromData E name (.map (.frame i) t ks vs) = .ok n) (hs : nodeStrings E n false = .ok strs) :
    ∃ cols : List Column,
      (match E.S.pandas with
        | .full => closedFrame name cols
        | _ => openFrame name cols) ∈ strs ∧
      All₂ (fun kv c => literalOf E.reprStr kv.1 = some c.label ∧ ColumnHint E strs (depthList vs + 1) kv.2 c.type) (ks.zip vs) cols := by
  obtain ⟨cols, h1, h2⟩ := frame_columns_made E name t i ks vs hl hne hk n strs hn hs
  refine ⟨cols, h1, All₂.imp (fun _ _ h => ⟨h.1, ?_⟩) h2⟩
  obtain ⟨k, _, hb, h⟩ := h.2
  exact ⟨k.name, k, hb, h.imp (fun h => ⟨h.1, h.2.2⟩) id⟩

/-- A frame given by its columns, and a column with one element of the given type. -/
def sampleFrame (cols : List (Key × Val)) : Val := .map (.frame ⟨py!"c", true⟩) ⟨py!"DataFrame", 0⟩ (cols.map (·.1)) (cols.map (·.2))
def sampleSeries (t : Ty) : Val := .seq .series ⟨py!"Series", 0⟩ [.inst t none]

example : declsOf (exEnv {}) py!"X" (sampleFrame [(.str py!"a", sampleSeries .int), (.other .int py!"3", sampleSeries .str)]) =
    [closedFrame py!"X" [⟨py!"'a'", py!"pd.Series[int]"⟩, ⟨py!"3", py!"pd.Series[str]"⟩]] ∧
    literalOf (exEnv {}).reprStr (.str py!"a") = some py!"'a'" ∧ literalOf (exEnv {}).reprStr (.other .int py!"3") = some py!"3" := by decide +kernel

/-- **C69 fails** if the labels of two columns give the same name: both are then declared as `XAB`. Here the frame has two levels of labels, `a b`
over `x` and `a_b` over `y`, so that the text says that `df["a b"]` has a column `y` and none named `x`. -/
theorem frame_columns_fails : declsOf (exEnv {}) py!"X"
      (sampleFrame [(.str py!"a b", sampleFrame [(.str py!"x", sampleSeries .int)]), (.str py!"a_b", sampleFrame [(.str py!"y", sampleSeries .int)])]) =
    [closedFrame py!"XAB" [⟨py!"'x'", py!"pd.Series[int]"⟩], closedFrame py!"XAB" [⟨py!"'y'", py!"pd.Series[int]"⟩],
      closedFrame py!"X" [⟨py!"'a b'", py!"XAB"⟩, ⟨py!"'a_b'", py!"XAB"⟩]] := by decide +kernel

/-! ### C70 -/

/-- **C70, partial.** A frame without columns that have literal labels is hinted as `pd.DataFrame`. Missing: all others (`frame_strategy_fails`). -/
theorem frame_strategy_partial (E : Env) (name : Str) (t : Ty) (i : FrameInfo) (hn : nameOk E.U name = true) :
    generate E name (.map (.frame i) t [] []) false = .ok (name ++ py!": TypeAlias = pd.DataFrame\n") := by
  have hb : fromData E name (.map (.frame i) t [] []) = .ok (.mk { kind := .frame i, name, root := true, ty := t, slots := [] } []) := by
    unfold fromData
    rw [if_pos hn]
    simp [buildTree, build, hn, frameChildren, mapKids, pure, Except.pure, bind, Except.bind, Val.ty]
  unfold generate
  rw [hb]
  simp [toString', nodeStrings, Node.render, Node.out, outList, combine, emitOf, permOf, topOf, frameTop, firstFailure, declTexts, dedup, formatNodeStrings,
    spaceClasses, join, Except.map, typeAlias]

/-- **C70 fails** for every frame with literal labels: with the strategy "Do not type hint columns" its class has an overload for every column. -/
theorem frame_strategy_fails (E : Env) (hS : E.S.pandas = .none) (name : Str) (t : Ty) (i : FrameInfo) (ks : List Key) (vs : List Val)
    (hl : ks.length = vs.length) (hne : ks ≠ []) (hk : ∀ k ∈ ks, ∃ l, literalOf E.reprStr k = some l) (n : Node) (strs : List Str)
    (hn : fromData E name (.map (.frame i) t ks vs) = .ok n) (hs : nodeStrings E n false = .ok strs) :
    ∃ cols : List Column, openFrame name cols ∈ strs ∧ cols.length = ks.length := by
  obtain ⟨cols, h1, h2⟩ := frame_columns_partial E name t i ks vs hl hne hk n strs hn hs
  rw [hS] at h1
  have : ∀ {α β : Type} {R : α → β → Prop} {l : List α} {m : List β}, All₂ R l m → m.length = l.length := by
    intro α β R l m h
    induction h with
    | nil => rfl
    | cons _ _ ih => simp [ih]
  refine ⟨cols, h1, ?_⟩
  rw [this h2, List.length_zip]
  omega

example : declsOf (exEnv { pandas := .none }) py!"X" (sampleFrame [(.str py!"a", sampleSeries .int)]) =
    [openFrame py!"X" [⟨py!"'a'", py!"pd.Series[int]"⟩]] := by decide +kernel

end Verif.Props
