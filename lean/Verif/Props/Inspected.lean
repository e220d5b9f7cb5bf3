import Verif.Lemmas.InspectedPart
import Verif.Props.Comments
/-
C89: the limit on the number of elements, at every level of the data.
-/
namespace Verif.Props
open Verif Verif.Spec

/-- **C89**: the hint of any data, and every failure, is that of its inspected part. -/
theorem hint_of_inspected_part {E : Env} (hE : E.Fair) (hO : OrderIgnoresRest E) (name : Str) (v : Val) (imports : Bool) :
    generate E name v imports = generate E name (inspectedPart E.S v) imports := by
  unfold generate
  rw [fromData_inspectedPart hE hO]
  cases fromData E name v with
  | error e => rfl
  | ok n =>
    simp only [Except.map]
    have : ∀ b, toString' E (viaTree (inspectedPart E.S) n) b = toString' E n b := by
      intro b
      unfold toString' nodeStrings Node.render
      rw [out_via (inspected_text E.S)]
    rw [this]

/-- Data that agree in their inspected parts have the same hint. -/
theorem same_inspected_part {E : Env} (hE : E.Fair) (hO : OrderIgnoresRest E) (name : Str) {v w : Val}
    (h : inspectedPart E.S v = inspectedPart E.S w) (imports : Bool) : generate E name v imports = generate E name w imports := by
  rw [hint_of_inspected_part hE hO, hint_of_inspected_part hE hO name w, h]

/-- Every collection in the data has at most `n` elements, except frames and, if `typed`, dictionaries. -/
def SmallAt (n : Nat) (typed : Bool) : Val → Prop
  | .seq _ _ es => es.length ≤ n
  | .map (.frame _) _ _ _ => True
  | .map .dict _ ks vs => typed = true ∨ (ks.length ≤ n ∧ vs.length ≤ n)
  | .map .proxy _ ks vs => ks.length ≤ n ∧ vs.length ≤ n
  | _ => True

theorem firstElems_length {α} {n : Nat} (h : 0 < n) (l : List α) : (firstElems n l).length ≤ n := by
  unfold firstElems
  rw [if_neg (by omega), List.length_take]
  omega

theorem firstElems_mem {α} {n : Nat} {l : List α} {x : α} (h : x ∈ firstElems n l) : x ∈ l := by
  unfold firstElems at h
  split at h
  · exact h
  · exact List.mem_of_mem_take h

mutual
theorem inspected_small {S : Strategies} (hn : 0 < S.checkMax) : ∀ v : Val, Every (SmallAt S.checkMax (decide (S.dict = .typedDict))) (inspectedPart S v)
  | .seq k t es => by
    simp only [inspectedPart, Every, SmallAt]
    exact ⟨firstElems_length hn _, everyList_iff.mpr fun e he => inspecteds_small hn es e (firstElems_mem he)⟩
  | .map .dict t ks vs => by
    simp only [inspectedPart]
    split
    · rename_i h
      simp only [Every, SmallAt, h, decide_true, true_or, true_and]
      exact everyList_iff.mpr fun e he => by have := inspecteds_small hn vs e he; simpa only [h, decide_true] using this
    · simp only [Every, SmallAt]
      exact ⟨.inr ⟨firstElems_length hn _, firstElems_length hn _⟩, everyList_iff.mpr fun e he => inspecteds_small hn vs e (firstElems_mem he)⟩
  | .map .proxy t ks vs => by
    simp only [inspectedPart, Every, SmallAt]
    exact ⟨⟨firstElems_length hn _, firstElems_length hn _⟩, everyList_iff.mpr fun e he => inspecteds_small hn vs e (firstElems_mem he)⟩
  | .map (.frame i) t ks vs => by
    simp only [inspectedPart, Every, SmallAt, true_and]
    exact everyList_iff.mpr fun e he => inspecteds_small hn vs e he
  | .inst _ _ => by simp [inspectedPart, Every, SmallAt]
  | .cls _ _ => by simp [inspectedPart, Every, SmallAt]
  | .module _ => by simp [inspectedPart, Every, SmallAt]
  | .io _ => by simp [inspectedPart, Every, SmallAt]
  | .ndarray _ _ => by simp [inspectedPart, Every, SmallAt]
  | .func _ => by simp [inspectedPart, Every, SmallAt]
theorem inspecteds_small {S : Strategies} (hn : 0 < S.checkMax) : ∀ (l : List Val), ∀ e ∈ inspectedParts S l,
    Every (SmallAt S.checkMax (decide (S.dict = .typedDict))) e
  | [] => by simp [inspectedParts]
  | v :: r => by
    intro e he
    simp only [inspectedParts, List.mem_cons] at he
    rcases he with rfl | he
    · exact inspected_small hn v
    · exact inspecteds_small hn r e he
end

/-- The hint of the inspected part is the hint of the data. -/
theorem Hint.of_inspected {E : Env} (hE : E.Fair) (hO : OrderIgnoresRest E) {name : Str} {v : Val} {Γ : List TDecl}
    (h : Hint E name (inspectedPart E.S v) Γ) : Hint E name v Γ := by
  obtain ⟨n, strs, h1, h2, h3⟩ := h
  rw [fromData_inspectedPart hE hO] at h1
  cases hf : fromData E name v with
  | error e => rw [hf] at h1; cases h1
  | ok m =>
    rw [hf] at h1
    simp only [Except.map] at h1
    injection h1 with h1
    subst h1
    refine ⟨m, strs, hf, ?_, h3⟩
    rw [← h2]
    unfold nodeStrings Node.render
    rw [out_via (inspected_text E.S)]

/-- **C21** (partial) for data with more elements than are inspected: the hint admits the inspected part, and the data themselves if
the other elements are like inspected ones. -/
theorem hint_sound_limited_partial {E : Env} (hE : E.Fair) (hm : 0 < E.S.merge) (hO : OrderIgnoresRest E) {name : Str} {v : Val}
    (h : WellBehaved E.S name (inspectedPart E.S v)) :
    ∃ Γ, Hint E name v Γ ∧ (Γ.map (·.name)).Nodup ∧ Admits Γ (.name name) (inspectedPart E.S v) ∧
      (Covers E.S (inspectedPart E.S v) v → Admits Γ (.name name) v) := by
  obtain ⟨Γ, h1, h2, h3, h4⟩ := hint_sound_clear_partial hE hm h
  exact ⟨Γ, h1.of_inspected hE hO, h2, h3, h4 v⟩

theorem exEnv_order_rest (S : Strategies) : OrderIgnoresRest (exEnv S) := fun _ _ => rfl

/-- A long list of dictionaries that hold long lists. -/
def longData : Val := dictOf [(py!"rows", .seq .list .list [.seq .list .list [.inst .int none, .inst .int none, .inst .str none],
  .seq .list .list [.inst .int none], .inst .str none]), (py!"name", .inst .str none)]

example : OrderIgnoresRest (exEnv { checkMax := 2 }) ∧ WellBehaved { checkMax := 2 } py!"Config" (inspectedPart { checkMax := 2 } longData) ∧
    inspectedPart { checkMax := 2 } longData = dictOf [(py!"rows", .seq .list .list [.seq .list .list [.inst .int none, .inst .int none],
      .seq .list .list [.inst .int none]]), (py!"name", .inst .str none)] ∧
    hintTexts (exEnv { checkMax := 2 }) py!"Config" longData = some [py!"ConfigRows: TypeAlias = List[List[int]]",
      py!"class Config(TypedDict):\n    rows: ConfigRows\n    name: str"] :=
  ⟨exEnv_order_rest _, wellBehavedB_sound (f := 10) (by decide +kernel), rfl, by decide +kernel⟩

/-- The first element covers the others. -/
example : Covers { checkMax := 1 } (inspectedPart { checkMax := 1 } (.seq .list .list [.inst .int none, .inst .int none, .inst .int none]))
    (.seq .list .list [.inst .int none, .inst .int none, .inst .int none]) := by
  refine .seq (fun a b => a = .inst .int none ∧ b = .inst .int none) (by simp [Placed]) ?_ ?_
  · rintro a b ⟨rfl, rfl⟩
    exact .leaf (by simp [SameLeaf])
  · intro e' he'
    refine ⟨.inst .int none, by simp [inspectedParts, firstElems, inspectedPart], rfl, ?_⟩
    simpa using he'

end Verif.Props
