import Verif.Lemmas.Overload
/-
Reading the stub of the live generator again.
-/
namespace Verif
open Verif.Spec

/-- No line break. -/
def OneLine (x : Str) : Prop := ∀ c ∈ x, isLineBreak c = false

instance (x : Str) : Decidable (OneLine x) := inferInstanceAs (Decidable (∀ c ∈ x, _))

theorem splitlinesAux_run {x : Str} (h : OneLine x) : ∀ (cur y : Str), splitlinesAux cur (x ++ y) = splitlinesAux (x.reverse ++ cur) y := by
  induction x with
  | nil => intro cur y; rfl
  | cons c x ih =>
    intro cur y
    have hc : isLineBreak c = false := h c (by simp)
    have : splitlinesAux cur (c :: (x ++ y)) = splitlinesAux (c :: cur) (x ++ y) := by
      rw [splitlinesAux.eq_3]
      · simp [hc]
      · intro r e
        cases e
        exact absurd hc (by decide)
    rw [List.cons_append, this, ih (fun c hc => h c (by simp [hc]))]
    simp

theorem splitlines_line {x : Str} (h : OneLine x) (y : Str) : splitlines (x ++ '\n' :: y) = x :: splitlines y := by
  unfold splitlines
  rw [splitlinesAux_run h, splitlinesAux.eq_3 _ _ _ (by intro r e; cases e)]
  simp [isLineBreak]

theorem splitlines_last {x : Str} (h : OneLine x) (hne : x ≠ []) : splitlines x = [x] := by
  unfold splitlines
  have := splitlinesAux_run h [] []
  rw [List.append_nil, List.append_nil] at this
  rw [this, splitlinesAux]
  simp [hne]

theorem splitlines_unlines {F : List Str} (h : ∀ x ∈ F, OneLine x) (y : Str) : splitlines (unlines F ++ y) = F ++ splitlines y := by
  induction F with
  | nil => rfl
  | cons x F ih =>
    rw [unlines_cons, List.append_assoc, List.cons_append, splitlines_line (h x (by simp)), ih (fun x hx => h x (by simp [hx]))]
    rfl

section
variable {U : Uni}

theorem className_oneLine {c : Str} (hc : ClassName U c) : OneLine c := by
  intro x hx
  cases h : isLineBreak x with
  | false => rfl
  | true => exact absurd hx (className_noSpace hc (isSpace_of_break h))

theorem oneLine_append {x y : Str} (hx : OneLine x) (hy : OneLine y) : OneLine (x ++ y) := by
  intro c hc
  rcases List.mem_append.mp hc with h | h
  · exact hx c h
  · exact hy c h

theorem overload_oneLine {m : Method} (hm : IsMethod m) {c : Str} (hc : ClassName U c) : OneLine (m.overload c) := by
  have hc' := className_oneLine hc
  have h1 : OneLine m.pre := by rcases hm with rfl | rfl <;> decide +kernel
  have h2 : OneLine m.post := by rcases hm with rfl | rfl <;> decide +kernel
  unfold Method.overload Method.line
  exact oneLine_append (oneLine_append (oneLine_append (oneLine_append h1 (oneLine_append (oneLine_append (by decide) hc') (by decide))) h2) hc') (by decide)

theorem deco_oneLine {d : Str} (h : Deco d) : OneLine d := by
  rcases h with rfl | rfl <;> decide

theorem elems_flat {m : Method} (hm : IsMethod m) {S cs : List Str} (h : Elems U m S cs) :
    ∃ S', Elems U m S' cs ∧ unlines S' = unlines S ∧ ∀ e ∈ S', OneLine e := by
  induction h with
  | nil => exact ⟨[], .nil, rfl, by simp⟩
  | deco hd _ ih =>
    rename_i d S cs h
    obtain ⟨S', h1, h2, h3⟩ := ih
    refine ⟨d :: S', .deco hd h1, by simp [h2], ?_⟩
    intro e he
    rcases List.mem_cons.mp he with rfl | he
    · exact deco_oneLine hd
    · exact h3 e he
  | over hd hc _ ih =>
    rename_i ds c S cs h
    obtain ⟨S', h1, h2, h3⟩ := ih
    have h1' : Elems U m (m.overload c :: S') (c :: cs) := by
      have := Elems.over (ds := []) (by simp) hc h1
      simpa [join] using this
    have hds : ∀ (ds : List Str), (∀ d ∈ ds, Deco d) → Elems U m (ds ++ m.overload c :: S') (c :: cs) := by
      intro ds hd
      induction ds with
      | nil => exact h1'
      | cons d ds ih => exact .deco (hd d (by simp)) (ih (fun d h => hd d (by simp [h])))
    refine ⟨ds ++ m.overload c :: S', hds ds hd, ?_, ?_⟩
    · rw [unlines_append, unlines_cons, unlines_cons, join_snoc, h2]
      simp
    · intro e he
      rcases List.mem_append.mp he with he | he
      · exact deco_oneLine (hd e he)
      · rcases List.mem_cons.mp he with rfl | he
        · exact overload_oneLine hm hc
        · exact h3 e he

theorem registryLine_oneLine {cs : List Str} (hcs : ∀ c ∈ cs, ClassName U c) : OneLine (registryLine cs) := by
  unfold registryLine
  refine oneLine_append (oneLine_append (by decide) ?_) ?_
  · split <;> decide
  · unfold registryValue
    split
    · decide
    · refine oneLine_append (oneLine_append (by decide) ?_) (by decide)
      intro x hx
      rcases mem_join hx with hx' | ⟨y, hy, hm⟩
      · clear hx; revert x; decide
      · obtain ⟨c, hc, rfl⟩ := List.mem_map.mp hy
        exact oneLine_append (oneLine_append (by decide) (className_oneLine (hcs c hc))) (by decide) x hm

theorem import_oneLine {c : Str} (hc : ClassName U c) : OneLine (classImport c) := by
  have := className_oneLine hc
  exact oneLine_append (oneLine_append (oneLine_append (by decide) this) (by decide)) this

/-- Reading the stub again gives a stub for the same classes. -/
theorem reload_stub {cs is ys ds L : List Str} (h : IsStub U cs is ys ds L) : IsStub U cs is ys ds (splitlines (join py!"\n" L)) := by
  obtain ⟨h1, h2, Y, D, tail, hY, hD, ht, rfl⟩ := h
  obtain ⟨Y', y1, y2, y3⟩ := elems_flat (.inl rfl) hY
  obtain ⟨D', d1, d2, d3⟩ := elems_flat (.inr rfl) hD
  refine ⟨h1, h2, Y', D', [], y1, d1, .inl rfl, ?_⟩
  have hF : ∀ x ∈ is.map classImport ++ headLines ++ [registryLine cs] ++ initLines ++ (Y' ++ [overrideLine, yamlMethod.main]) ++ [[]] ++
      (D' ++ [overrideLine, dataMethod.main]) ++ resetLines, OneLine x := by
    have hc : ∀ e ∈ headLines ++ initLines ++ [overrideLine, yamlMethod.main] ++ [[]] ++ [overrideLine, dataMethod.main] ++ resetLines, OneLine e := by
      decide +kernel
    intro e he
    simp only [List.mem_append] at he hc
    rcases he with ((((((he | he) | he) | he) | he) | he) | he) | he
    · obtain ⟨c, hc, rfl⟩ := List.mem_map.mp he
      exact import_oneLine (h2 c hc)
    · exact hc e (.inl (.inl (.inl (.inl (.inl he)))))
    · rw [List.mem_singleton.mp he]; exact registryLine_oneLine h1
    · exact hc e (.inl (.inl (.inl (.inl (.inr he)))))
    · rcases he with he | he
      · exact y3 e he
      · exact hc e (.inl (.inl (.inl (.inr he))))
    · exact hc e (.inl (.inl (.inr he)))
    · rcases he with he | he
      · exact d3 e he
      · exact hc e (.inl (.inr he))
    · exact hc e (.inr he)
  rcases ht with rfl | rfl
  · have e1 : is.map classImport ++ headLines ++ [registryLine cs] ++ initLines ++ (Y ++ [overrideLine, yamlMethod.main]) ++ [[]] ++
        (D ++ [overrideLine, dataMethod.main]) ++ resetLines ++ [] =
        (is.map classImport ++ headLines ++ [registryLine cs] ++ initLines ++ (Y ++ [overrideLine, yamlMethod.main]) ++ [[]] ++
        (D ++ [overrideLine, dataMethod.main]) ++ resetLines.dropLast) ++ [py!"    def reset(cls) -> None:..."] := by simp [resetLines]
    have e2 : is.map classImport ++ headLines ++ [registryLine cs] ++ initLines ++ (Y' ++ [overrideLine, yamlMethod.main]) ++ [[]] ++
        (D' ++ [overrideLine, dataMethod.main]) ++ resetLines ++ [] =
        (is.map classImport ++ headLines ++ [registryLine cs] ++ initLines ++ (Y' ++ [overrideLine, yamlMethod.main]) ++ [[]] ++
        (D' ++ [overrideLine, dataMethod.main]) ++ resetLines.dropLast) ++ [py!"    def reset(cls) -> None:..."] := by simp [resetLines]
    rw [e1, e2, join_snoc]
    have e3 : unlines (is.map classImport ++ headLines ++ [registryLine cs] ++ initLines ++ (Y ++ [overrideLine, yamlMethod.main]) ++ [[]] ++
        (D ++ [overrideLine, dataMethod.main]) ++ resetLines.dropLast) =
        unlines (is.map classImport ++ headLines ++ [registryLine cs] ++ initLines ++ (Y' ++ [overrideLine, yamlMethod.main]) ++ [[]] ++
        (D' ++ [overrideLine, dataMethod.main]) ++ resetLines.dropLast) := by simp [y2, d2]
    rw [e3, splitlines_unlines, splitlines_last (by decide) (by decide)]
    intro x hx
    refine hF x ?_
    rcases List.mem_append.mp hx with hx | hx
    · exact List.mem_append_left _ hx
    · exact List.mem_append_right _ (List.dropLast_subset _ hx)
  · rw [join_snoc, List.append_nil, List.append_nil]
    have e3 : unlines (is.map classImport ++ headLines ++ [registryLine cs] ++ initLines ++ (Y ++ [overrideLine, yamlMethod.main]) ++ [[]] ++
        (D ++ [overrideLine, dataMethod.main]) ++ resetLines) =
        unlines (is.map classImport ++ headLines ++ [registryLine cs] ++ initLines ++ (Y' ++ [overrideLine, yamlMethod.main]) ++ [[]] ++
        (D' ++ [overrideLine, dataMethod.main]) ++ resetLines) := by simp [y2, d2]
    have := splitlines_unlines hF []
    rw [List.append_nil] at this
    rw [e3, this]
    simp [splitlines, splitlinesAux]

end
end Verif
