import Verif.Lemmas.Distinct
import Verif.Props.Inspected
/-
C91: repeated elements.
-/
namespace Verif.Props
open Verif Verif.Spec

/-- **C91**: the hint of any data, and every failure, is that of the data without repeated elements. -/
theorem hint_of_distinct_part {E : Env} (hE : E.Fair) (hO : OrderByHash E) (name : Str) (v : Val) (imports : Bool) :
    generate E name v imports = generate E name (distinctPart E.S v) imports := by
  unfold generate
  rw [fromData_distinct hE hO]
  cases fromData E name v with
  | error e => rfl
  | ok n =>
    simp only [Except.map]
    have : ∀ b, toString' E (viaTree (distinctPart E.S) n) b = toString' E n b := by
      intro b
      unfold toString' nodeStrings Node.render
      rw [out_via (distinct_text E.S)]
    rw [this]

/-- Data that agree without repeated elements have the same hint. -/
theorem same_distinct_part {E : Env} (hE : E.Fair) (hO : OrderByHash E) (name : Str) {v w : Val}
    (h : distinctPart E.S v = distinctPart E.S w) (imports : Bool) : generate E name v imports = generate E name w imports := by
  rw [hint_of_distinct_part hE hO, hint_of_distinct_part hE hO name w, h]

theorem depthList_append : ∀ l l' : List Val, depthList (l ++ l') = max (depthList l) (depthList l')
  | [], l' => by simp [depthList]
  | v :: r, l' => by
    simp only [List.cons_append, depthList, depthList_append r l']
    omega

/-- **C91** for data that grow: if every further element of a sequence equals one that is there already, then the hint stays what it
is. -/
theorem hint_of_grown {E : Env} (hE : E.Fair) (hO : OrderByHash E) (name : Str) {k : SeqKind} {t : Ty} {es extra : List Val}
    (hk : ¬ (k = .tuple ∧ E.S.tuple = .fixed)) (h : ∀ x ∈ extra, ∃ e ∈ es, equalVal x e = true) (imports : Bool) :
    generate E name (.seq k t (es ++ extra)) imports = generate E name (.seq k t es) imports := by
  have key : fromData E name (.seq k t (es ++ extra)) = fromData E name (.seq k t es) := by
    unfold fromData buildTree
    split
    · rename_i hp
      have hd : (Val.seq k t es).depth ≤ (Val.seq k t (es ++ extra)).depth := by
        simp only [Val.depth, depthList_append]
        omega
      rw [build_more hE hO hp _ hk h, build_fuel hE (f := (Val.seq k t es).depth + 1) (f' := (Val.seq k t (es ++ extra)).depth + 1) (by omega) (by omega)]
    · rfl
  unfold generate
  rw [key]

/-- No element of the list equals an earlier one. -/
def NoRepeats : List Val → Prop
  | [] => True
  | v :: r => (∀ w ∈ r, equalVal w v = false) ∧ NoRepeats r

theorem noRepeats_first : ∀ (l seen : List Val), NoRepeats (firstOfEach seen l) ∧ ∀ w ∈ firstOfEach seen l, ∀ v ∈ seen, equalVal w v = false
  | [], seen => by simp [firstOfEach, NoRepeats]
  | v :: r, seen => by
    simp only [firstOfEach]
    split
    · exact noRepeats_first r seen
    · rename_i h
      obtain ⟨h1, h2⟩ := noRepeats_first r (seen ++ [v])
      refine ⟨⟨fun w hw => h2 w hw v (by simp), h1⟩, ?_⟩
      intro w hw u hu
      rcases List.mem_cons.mp hw with rfl | hw
      · cases hs : equalVal w u with
        | false => rfl
        | true => exact absurd (List.any_eq_true.mpr ⟨u, hu, hs⟩) h
      · exact h2 w hw u (List.mem_append_left _ hu)

/-- Every sequence in the data has no repeated elements, unless it is a tuple of which every element is described. -/
def FreshAt (S : Strategies) : Val → Prop
  | .seq k _ es => (k = .tuple ∧ S.tuple = .fixed) ∨ NoRepeats es
  | _ => True

mutual
/-- The data that decide on the hint have no repeated elements at any level. -/
theorem distinct_fresh {S : Strategies} : ∀ v : Val, Every (FreshAt S) (distinctPart S v)
  | .seq k t es => by
    simp only [distinctPart]
    split
    · rename_i h
      exact ⟨.inl h, everyList_iff.mpr fun e he => distincts_fresh es e (firstElems_mem he)⟩
    · exact ⟨.inr (noRepeats_first _ []).1, everyList_iff.mpr fun e he => distincts_fresh es e (firstElems_mem (firstOfEach_subset he))⟩
  | .map .dict t ks vs => by
    simp only [distinctPart]
    split
    · exact ⟨trivial, everyList_iff.mpr fun e he => distincts_fresh vs e he⟩
    · exact ⟨trivial, everyList_iff.mpr fun e he => distincts_fresh vs e (firstElems_mem he)⟩
  | .map .proxy t ks vs => ⟨trivial, everyList_iff.mpr fun e he => distincts_fresh vs e (firstElems_mem he)⟩
  | .map (.frame i) t ks vs => ⟨trivial, everyList_iff.mpr fun e he => distincts_fresh vs e he⟩
  | .inst _ _ => by simp [distinctPart, Every, FreshAt]
  | .cls _ _ => by simp [distinctPart, Every, FreshAt]
  | .module _ => by simp [distinctPart, Every, FreshAt]
  | .io _ => by simp [distinctPart, Every, FreshAt]
  | .ndarray _ _ => by simp [distinctPart, Every, FreshAt]
  | .func _ => by simp [distinctPart, Every, FreshAt]
theorem distincts_fresh {S : Strategies} : ∀ (l : List Val), ∀ e ∈ distinctParts S l, Every (FreshAt S) e
  | [] => by simp [distinctParts]
  | v :: r => by
    intro e he
    simp only [distinctParts, List.mem_cons] at he
    rcases he with rfl | he
    · exact distinct_fresh v
    · exact distincts_fresh r e he
end

theorem exEnv_order_hash (S : Strategies) : OrderByHash (exEnv S) := fun _ _ _ _ => rfl

/-- Rows that occur again, with other texts, in between a row of another shape. -/
def manyRows : Val := .seq .list .list [dictOf [(py!"a", .inst .int none), (py!"s", .inst .str (some py!"x"))], .seq .list .list [.inst .int none, .inst .int none],
  dictOf [(py!"a", .inst .int none), (py!"s", .inst .str (some py!"y"))], dictOf [(py!"b", .inst .int none)],
  dictOf [(py!"a", .inst .int none), (py!"s", .inst .str (some py!"z"))], .seq .list .list [.inst .int none]]

example : distinctPart {} manyRows = .seq .list .list [dictOf [(py!"a", .inst .int none), (py!"s", .inst .str (some py!"x"))],
      .seq .list .list [.inst .int none], dictOf [(py!"b", .inst .int none)]] ∧
    hintTexts (exEnv {}) py!"Rows" manyRows = hintTexts (exEnv {}) py!"Rows" (distinctPart {} manyRows) ∧
    hintTexts (exEnv {}) py!"Rows" manyRows = some [py!"class RowsDict(TypedDict):\n    a: int\n    s: str",
      py!"class RowsDict2(TypedDict):\n    b: int", py!"Rows: TypeAlias = List[Union[List[int], RowsDict, RowsDict2]]"] :=
  ⟨rfl, by decide +kernel, by decide +kernel⟩

/-- The elements added to the rows equal some of them. -/
example : ∀ x ∈ [Val.inst .str (some py!"u"), .inst .int none], ∃ e ∈ [Val.inst .int none, .inst .str (some py!"t")], equalVal x e = true := by
  simp [equalVal]

end Verif.Props
