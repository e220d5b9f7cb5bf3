import Verif.Lemmas.Tables
import Verif.Props.Frames
/-
Reading the columns of data frames (C81, C82).
-/
namespace Verif.Props
open Verif Verif.Spec

variable {rt : Key → List Key → Str} {ty : Ty} {text : List Label → Str} {t : Table}

/-! ### C81 -/

/-- What `df[k]` is, as far as the generator reads it. -/
def Indexed (rt : Key → List Key → Str) (ty : Ty) (text : List Label → Str) (t : Table) (k : Key) (v : Val) : Prop :=
  ∃ f, readItem (readTable rt ty text f) (t.item rt k) = some v

/-- **C81, partial.** If all labels of a frame have the same number of levels and consist of strings, integers and truth values, its class
has an overload for the first level of every label, with the hint of what the frame holds there, and no other overloads. Missing: frames
with other labels (`columns_described_fails`, `columns_mixed_fails`). -/
theorem columns_described_partial (E : Env) (name : Str) {f n : Nat} {v : Val} (hv : readTable rt ty text f t = some v) (hne : t ≠ [])
    (hn : Levels n t) (hl : LiteralTable t) {node : Node} {strs : List Str}
    (hb : fromData E name v = .ok node) (hs : nodeStrings E node false = .ok strs) :
    ∃ cols : List Column,
      (match E.S.pandas with
        | .full => closedFrame name cols
        | _ => openFrame name cols) ∈ strs ∧
      (∀ c ∈ t, ∃ col ∈ cols, literalOf E.reprStr c.1.first = some col.label ∧
        ∃ w fuel, Indexed rt ty text t c.1.first w ∧ ColumnHint E strs fuel w col.type) ∧
      (∀ col ∈ cols, ∃ c ∈ t, literalOf E.reprStr c.1.first = some col.label) := by
  obtain ⟨g, get, rfl, rfl, hg⟩ := readTable_some hv
  generalize hcs : t.map (fun c => c.1.label rt) = cs at *
  have hlitc : literalColumns cs = true := by
    have hf : ∀ c ∈ t, literalKey c.1.first = true := fun c hc => (literal_key (hl c hc _ (by cases c.1 <;> simp [keysOf, ColLabel.first]))).1
    have hfst : ∀ l : ColLabel, (l.label rt).first = l.first := fun l => by cases l <;> rfl
    unfold literalColumns
    rw [← hcs]
    split
    · simp only [List.all_map, Function.comp_def, List.all_eq_true, hfst]
      exact hf
    · rename_i hnt
      simp only [List.all_map, Function.comp_def, List.all_eq_true, hfst]
      intro c hc
      cases n with
      | zero =>
        obtain ⟨k, e⟩ := levels_plain hn c hc
        have := hf c hc
        rw [e] at this ⊢
        simpa [ColLabel.label, Label.isTuple] using this
      | succ n =>
        refine absurd ?_ hnt
        simp only [List.all_map, Function.comp_def, List.all_eq_true]
        intro d hd
        obtain ⟨k, r, e, _⟩ := levels_more hn d hd
        rw [e]
        rfl
  have hvis : ∀ c ∈ t, c.1.first ∈ visitedLabels cs := fun c hc => hcs ▸ visited_first hn hl hc
  have hback : ∀ k ∈ visitedLabels cs, ∃ c ∈ t, c.1.first = k := by
    intro k hk
    unfold visitedLabels at hk
    rw [← hcs] at hk
    split at hk
    · cases hk
    split at hk
    · cases hk
    split at hk
    · obtain ⟨l, hl', rfl⟩ := List.mem_map.mp (mem_dedup.mp hk)
      obtain ⟨c, hc, rfl⟩ := List.mem_map.mp hl'
      exact ⟨c, hc, by cases c.1 <;> rfl⟩
    · rename_i hnt
      obtain ⟨l, hl', rfl⟩ := List.mem_map.mp (mem_dedup.mp hk)
      obtain ⟨c, hc, rfl⟩ := List.mem_map.mp hl'
      refine ⟨c, hc, ?_⟩
      cases n with
      | zero => obtain ⟨k, e⟩ := levels_plain hn c hc; rw [e]; rfl
      | succ n =>
        refine absurd ?_ hnt
        simp only [List.all_map, Function.comp_def, List.all_eq_true]
        intro d hd
        obtain ⟨k, r, e, _⟩ := levels_more hn d hd
        rw [e]
        rfl
  have hlit : ∀ k ∈ visitedLabels cs, ∃ l, literalOf E.reprStr k = some l := by
    intro k hk
    obtain ⟨c, hc, rfl⟩ := hback k hk
    have := hl c hc c.1.first (by cases c.1 <;> simp [keysOf, ColLabel.first])
    generalize c.1.first = k at this
    cases k with
    | str s => exact ⟨_, rfl⟩
    | none => exact absurd rfl this
    | other t r =>
      simp only [literalOf] at this ⊢
      split
      · exact ⟨_, rfl⟩
      · rename_i h; rw [if_neg h] at this; exact absurd rfl this
  obtain ⟨c0, hc0⟩ : ∃ c, c ∈ t := List.exists_mem_of_ne_nil _ hne
  obtain ⟨cols, h1, h2⟩ := frame_columns_partial E name ty ⟨text cs, literalColumns cs⟩ (visitedLabels cs) ((visitedLabels cs).map get) (by simp)
    (List.ne_nil_of_mem (hvis c0 hc0)) hlit node strs hb hs
  have hzip : (visitedLabels cs).zip ((visitedLabels cs).map get) = (visitedLabels cs).map (fun k => (k, get k)) := by
    rw [List.zip_map_right]
    induction visitedLabels cs with
    | nil => rfl
    | cons a l ih => simp [ih]
  have left : ∀ {α β : Type} {R : α → β → Prop} {l : List α} {m : List β}, All₂ R l m → ∀ a ∈ l, ∃ b ∈ m, R a b := by
    intro α β R l m h
    induction h with
    | nil => simp
    | cons h _ ih =>
      intro x hx
      rcases List.mem_cons.mp hx with rfl | hx
      · exact ⟨_, by simp, h⟩
      · obtain ⟨b, hb, hr⟩ := ih x hx
        exact ⟨b, by simp [hb], hr⟩
  have right : ∀ {α β : Type} {R : α → β → Prop} {l : List α} {m : List β}, All₂ R l m → ∀ b ∈ m, ∃ a ∈ l, R a b := by
    intro α β R l m h
    induction h with
    | nil => simp
    | cons h _ ih =>
      intro x hx
      rcases List.mem_cons.mp hx with rfl | hx
      · exact ⟨_, by simp, h⟩
      · obtain ⟨b, hb, hr⟩ := ih x hx
        exact ⟨b, by simp [hb], hr⟩
  rw [hzip] at h2
  refine ⟨cols, h1, fun c hc => ?_, fun col hcol => ?_⟩
  · obtain ⟨col, hcol, e1, e2⟩ := left h2 (c.1.first, get c.1.first) (List.mem_map.mpr ⟨_, hvis c hc, rfl⟩)
    exact ⟨col, hcol, e1, get c.1.first, _, ⟨g, hg _ (hvis c hc)⟩, e2⟩
  · obtain ⟨x, hx, e1, _⟩ := right h2 col hcol
    obtain ⟨k, hk, rfl⟩ := List.mem_map.mp hx
    obtain ⟨c, hc, rfl⟩ := hback k hk
    exact ⟨c, hc, e1⟩

/-- A frame with two levels of labels. -/
def sampleLevels : Table := [(.levels (.str py!"a") [.str py!"x"], sampleSeries .int), (.levels (.str py!"b") [.str py!"x"], sampleSeries .str),
  (.levels (.str py!"a") [.str py!"y"], sampleSeries .bool)]

/-- It meets the hypotheses, and is described as expected. -/
example : Levels 1 sampleLevels ∧ LiteralTable sampleLevels ∧ DistinctLabels sampleLevels ∧
    (readTable (fun _ _ => []) ⟨py!"DataFrame", 0⟩ (fun cs => List.replicate cs.length 'c') 2 sampleLevels).map (fun v => declsOf (exEnv {}) py!"X" v) =
      some [closedFrame py!"XA" [⟨py!"'x'", py!"pd.Series[int]"⟩, ⟨py!"'y'", py!"pd.Series[bool]"⟩],
          closedFrame py!"XB" [⟨py!"'x'", py!"pd.Series[str]"⟩], closedFrame py!"X" [⟨py!"'a'", py!"XA"⟩, ⟨py!"'b'", py!"XB"⟩]] := by
  refine ⟨?_, ?_, ?_, ?_⟩
  · unfold Levels sampleLevels
    simp
  · unfold LiteralTable sampleLevels
    simp [keysOf, literalOf]
  · unfold DistinctLabels sampleLevels
    decide
  · decide +kernel

/-- **C81 fails** if one label is neither a string nor an integer nor a truth value: then no column is described. -/
theorem columns_described_fails (E : Env) (name : Str) (hname : nameOk E.U name = true) {f : Nat} {v : Val} (hv : readTable rt ty text f t = some v)
    {c : ColLabel × Val} (hc : c ∈ t) (hl : literalOf id c.1.first = none) :
    generate E name v false = .ok (name ++ py!": TypeAlias = pd.DataFrame\n") := by
  obtain ⟨g, get, rfl, rfl, _⟩ := readTable_some hv
  have hcomp : compatibleLabels (t.map (fun c => c.1.label rt)) = false := by
    unfold compatibleLabels
    rw [List.all_eq_false]
    refine ⟨_, List.mem_map_of_mem hc, ?_⟩
    have hf : (c.1.label rt).first = c.1.first := by cases c.1 <;> rfl
    rw [hf]
    generalize c.1.first = k at hl
    cases k with
    | str s => cases hl
    | none => simp [literalKey]
    | other t r =>
      simp only [literalOf] at hl
      split at hl
      · cases hl
      · rename_i h
        simpa [literalKey] using h
  unfold readFrame
  rw [visited_nil hcomp]
  exact frame_strategy_partial E name ty _ hname

/-- A column `a` of integers next to a column `1.5`. -/
example : ∃ t v, readTable (fun _ _ => []) ⟨py!"DataFrame", 0⟩ (fun _ => []) 1 t = some v ∧ (.plain (.str py!"a"), sampleSeries .int) ∈ t ∧
    generate (exEnv {}) py!"X" v false = .ok py!"X: TypeAlias = pd.DataFrame\n" :=
  ⟨[(.plain (.str py!"a"), sampleSeries .int), (.plain (.other .float py!"1.5"), sampleSeries .int)], _, rfl, by simp,
    columns_described_fails (rt := fun _ _ => []) (ty := ⟨py!"DataFrame", 0⟩) (text := fun _ => []) (f := 1)
      (t := [(.plain (.str py!"a"), sampleSeries .int), (.plain (.other .float py!"1.5"), sampleSeries .int)])
      (exEnv {}) py!"X" (by decide) rfl (c := (.plain (.other .float py!"1.5"), sampleSeries .int)) (by simp) (by decide)⟩

/-- **C81 fails** also if some labels are tuples and others are not: the columns with tuples are not described. -/
theorem columns_mixed_fails : ∃ t v, readTable (fun _ _ => py!"('a', 'b')") ⟨py!"DataFrame", 0⟩ (fun _ => []) 1 t = some v ∧
    (.levels (.str py!"a") [.str py!"b"], sampleSeries .str) ∈ t ∧
    (declsOf (exEnv {}) py!"X" v).any (fun s => contains py!"pd.Series[str]" s) = false :=
  ⟨[(.levels (.str py!"a") [.str py!"b"], sampleSeries .str), (.plain (.str py!"c"), sampleSeries .int)], _, rfl, by simp, by decide +kernel⟩

/-! ### C82 -/

/-- **C82, partial.** Frames in which no two columns have the same label are read to the end, within as many steps as they have levels.
Missing: frames with repeated labels (`reading_terminates_fails`). -/
theorem reading_terminates_partial {P : Key → Prop} (hrt : TupleRepr rt P) (n : Nat) (hn : Levels n t ∨ t.multilevel = false) (hf : FlatTable P t) (hd : DistinctLabels t) :
    ∃ v, readTable rt ty text (n + 1) t = some v := by
  by_cases hne : t = []
  · subst hne
    exact ⟨_, rfl⟩
  rcases hn with hn | hn
  · exact distinct_some hrt n hne hn hf hd
  · exact single_some hn hd (key_inj hrt hf)

/-- **C82 fails** for all frames with literal labels in which two columns have the same label: whatever the limit of the recursion is, it is
exceeded, because indexing with that label returns a frame with these two columns. -/
theorem reading_terminates_fails {n : Nat} (hn : Levels n t) (hl : LiteralTable t) (hr : RepeatedLabel t) (f : Nat) :
    readTable rt ty text f t = none := repeated_none f hn hl hr

/-- Two columns named `a`, and two columns named `b` below `a`. -/
example : (∀ f, readTable rt ty text f [(.plain (.str py!"a"), sampleSeries .int), (.plain (.str py!"a"), sampleSeries .str)] = none) ∧
    ∀ f, readTable rt ty text f [(.levels (.str py!"a") [.str py!"b"], sampleSeries .int), (.levels (.str py!"c") [.str py!"b"], sampleSeries .int),
      (.levels (.str py!"a") [.str py!"b"], sampleSeries .str)] = none := by
  refine ⟨reading_terminates_fails (n := 0) (by simp [Levels]) (by simp [LiteralTable, keysOf, literalOf]) ⟨_, _, _, List.Sublist.refl _⟩,
    reading_terminates_fails (n := 1) (by simp [Levels]) (by simp [LiteralTable, keysOf, literalOf])
      ⟨_, _, _, .cons₂ _ (.cons _ (.cons₂ _ .slnil))⟩⟩

/-- The first characters of strings. -/
def shortRepr (k : Key) (r : List Key) : Str := (k :: r).map (fun k => match k with
  | .str (c :: _) => c
  | _ => ' ')

/-- The labels of `sampleLevels` are pairs of strings of one character. -/
example : TupleRepr shortRepr (fun k => ∃ c, k = .str [c]) ∧ Levels 1 sampleLevels ∧ FlatTable (fun k => ∃ c, k = .str [c]) sampleLevels ∧
    DistinctLabels sampleLevels := by
  refine ⟨?_, by simp [Levels, sampleLevels], ?_, by unfold DistinctLabels sampleLevels; decide⟩
  · intro k r k' r' h h' e
    suffices hs : ∀ l l' : List Key, (∀ x ∈ l, ∃ c, x = .str [c]) → (∀ x ∈ l', ∃ c, x = .str [c]) → l.map (fun k => match k with
        | .str (c :: _) => c
        | _ => ' ') = l'.map (fun k => match k with
        | .str (c :: _) => c
        | _ => ' ') → l = l' by
      have := hs _ _ h h' e
      injection this with h1 h2
      exact ⟨h1, h2⟩
    intro l
    induction l with
    | nil => intro l' _ _ e; cases l' with
      | nil => rfl
      | cons _ _ => cases e
    | cons a l ih =>
      intro l' h h' e
      cases l' with
      | nil => cases e
      | cons a' l' =>
        obtain ⟨c, rfl⟩ := h a (by simp)
        obtain ⟨c', rfl⟩ := h' a' (by simp)
        injection e with e1 e2
        rw [ih l' (fun x hx => h x (by simp [hx])) (fun x hx => h' x (by simp [hx])) e2]
        have e1 : c = c' := e1
        rw [e1]
  · unfold FlatTable sampleLevels
    simp [keysOf]

end Verif.Props
