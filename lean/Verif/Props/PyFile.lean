import Verif.Lemmas.Live
import Verif.Lemmas.Crash
/-
Properties of the stub editor.
-/
namespace Verif.Props
open Verif Verif.Spec

/-! ### C52 -/

theorem splitChar_last {c : Char} {suf : Str} (h : c ∉ suf) : ∀ (pre : Str), splitChar c (pre ++ c :: suf) = splitChar c pre ++ [suf] := by
  intro pre
  have key : ∀ (n : Nat) (pre : Str), pre.length ≤ n → splitChar c (pre ++ c :: suf) = splitChar c pre ++ [suf] := by
    intro n
    induction n with
    | zero =>
      intro pre hp
      have : pre = [] := by cases pre <;> simp_all
      subst this
      rw [List.nil_append]
      have := splitChar_append_sep (c := c) (a := []) (b := suf) (by simp)
      rw [List.nil_append] at this
      rw [this, splitChar_free h, splitChar_free (by simp)]
      rfl
    | succ n ih =>
      intro pre hp
      by_cases hm : c ∈ pre
      · obtain ⟨a, b, rfl, ha⟩ : ∃ a b, pre = a ++ c :: b ∧ c ∉ a := by
          clear ih hp
          induction pre with
          | nil => cases hm
          | cons d pre ih =>
            by_cases hd : d = c
            · exact ⟨[], pre, by rw [hd]; rfl, by simp⟩
            · obtain ⟨a, b, rfl, ha⟩ := ih ((List.mem_cons.mp hm).resolve_left (Ne.symm hd))
              exact ⟨d :: a, b, rfl, by simp [ha, Ne.symm hd]⟩
        rw [splitChar_append_sep ha, List.append_assoc, List.cons_append, splitChar_append_sep ha, ih b (by simp at hp; omega)]
        rfl
      · rw [splitChar_append_sep hm, splitChar_free h, splitChar_free hm]
        rfl
  exact key pre.length pre (Nat.le_refl _)

theorem join_last {c : Char} {x : Str} : ∀ {l : List Str}, l ≠ [] → join [c] (l ++ [x]) = join [c] l ++ c :: x
  | [], h => absurd rfl h
  | [y], _ => by simp [join]
  | y :: z :: r, _ => by
    have := join_last (c := c) (x := x) (l := z :: r) (by simp)
    simp only [List.cons_append] at this ⊢
    rw [join_cons_cons, this, join_cons_cons]
    simp

theorem search_split {var : Str} {v : Str} : ∀ {lines : List Str} {k i : Nat}, searchAssignmentFrom var k lines = .ok [(i, v)] →
    ∃ A line B, lines = A ++ line :: B ∧ i = k + A.length ∧ (∀ e ∈ A, isAssignment var e = false) ∧ isAssignment var line = true ∧
      (∀ e ∈ B, isAssignment var e = false) := by
  intro lines
  induction lines with
  | nil => intro k i h; cases h
  | cons e lines ih =>
    intro k i h
    rw [searchAssignmentFrom] at h
    split at h
    · rename_i ha
      split at h
      · cases h
      · cases hs : searchAssignmentFrom var (k + 1) lines with
        | error e => rw [hs] at h; cases h
        | ok l =>
          rw [hs] at h
          simp only [Except.map, Except.ok.injEq, List.cons.injEq, Prod.mk.injEq] at h
          obtain ⟨⟨rfl, _⟩, rfl⟩ := h
          refine ⟨[], e, lines, rfl, rfl, by simp, ha, ?_⟩
          clear ih ha
          revert hs
          generalize k + 1 = k'
          induction lines generalizing k' with
          | nil => simp
          | cons f lines ih =>
            intro hs e he
            rw [searchAssignmentFrom] at hs
            split at hs
            · split at hs
              · cases hs
              · cases hs' : searchAssignmentFrom var (k' + 1) lines with
                | error e => rw [hs'] at hs; cases hs
                | ok l => rw [hs'] at hs; cases hs
            · rename_i hf
              rcases List.mem_cons.mp he with rfl | he
              · simpa using hf
              · exact ih _ hs e he
    · rename_i ha
      obtain ⟨A, line, B, rfl, rfl, h1, h2, h3⟩ := ih h
      refine ⟨e :: A, line, B, rfl, by simp; omega, ?_, h2, h3⟩
      intro f hf
      rcases List.mem_cons.mp hf with rfl | hf
      · simpa using ha
      · exact h1 f hf

theorem search_none {var : Str} {B : List Str} : ∀ {A : List Str} (k : Nat), (∀ e ∈ A, isAssignment var e = false) →
    searchAssignmentFrom var k (A ++ B) = searchAssignmentFrom var (k + A.length) B
  | [], k, _ => rfl
  | a :: A, k, h => by
    rw [List.cons_append, searchAssignmentFrom, h a (by simp)]
    simp only [Bool.false_eq_true, if_false]
    rw [search_none (k + 1) (fun e he => h e (by simp [he])), List.length_cons]
    congr 1
    omega

/-- Replacing a value by a text without `=` that the search reads as `got`. -/
theorem readback_as {lines : List Str} {var value got : Str} {i : Nat} {old pre suf : Str}
    (h : searchAssignment lines var = .ok [(i, old)]) (hl : lines[i]? = some (pre ++ '=' :: suf)) (hsuf : '=' ∉ suf) (hvar : contains var pre = true)
    (hval : assignedValue (pre ++ '=' :: value) = .ok got) :
    ∃ lines', replaceAssignment lines var value = .ok lines' ∧ searchAssignment lines' var = .ok [(i, got)] ∧
      lines'.length = lines.length ∧ lines'[i]? = some (pre ++ '=' :: value) ∧ ∀ j, j ≠ i → lines'[j]? = lines[j]? := by
  obtain ⟨A, line, B, rfl, rfl, hA, hline, hB⟩ := search_split h
  have e0 : (A ++ line :: B)[0 + A.length]? = some line := by simp
  rw [e0] at hl
  cases hl
  have hnew : join py!"=" ((splitChar '=' (pre ++ '=' :: suf)).dropLast ++ [value]) = pre ++ '=' :: value := by
    rw [splitChar_last hsuf, List.dropLast_concat, join_last (splitChar_ne_nil _ _), join_splitChar]
  refine ⟨A ++ (pre ++ '=' :: value) :: B, ?_, ?_, by simp, by simp, ?_⟩
  · unfold replaceAssignment
    rw [h]
    simp only [Nat.zero_add, modify_append, hnew]
  · unfold searchAssignment
    rw [search_none 0 hA, searchAssignmentFrom]
    have hass : isAssignment var (pre ++ '=' :: value) = true := by
      unfold isAssignment itIsString textBefore at hline ⊢
      obtain ⟨k, hk⟩ := contains_find hvar
      have hle := find_le hk
      rw [find_append_left _ hk] at hline ⊢
      simp only [Bool.and_eq_true] at hline ⊢
      refine ⟨⟨contains_append_left hvar _, by simp⟩, ?_⟩
      have := hline.2
      rw [List.take_append_of_le_length (by omega)] at this ⊢
      exact this
    rw [hass, hval]
    have := search_none (B := []) (0 + A.length + 1) hB
    rw [List.append_nil] at this
    simp only [if_true, this]
    rfl
  · intro j hj
    rcases Nat.lt_trichotomy j A.length with h | h | h
    · rw [List.getElem?_append_left h, List.getElem?_append_left h]
    · exact absurd (by omega) hj
    · rw [List.getElem?_append_right (by omega), List.getElem?_append_right (by omega)]
      obtain ⟨k, hk⟩ : ∃ k, j - A.length = k + 1 := ⟨j - A.length - 1, by omega⟩
      rw [hk]
      simp

/-- **C52, partial.** If a variable is assigned in one line only, and its name stands before the last `=` of that line, then after
replacing the value by a text without `=`, without white space at its ends and not beginning with a quote, searching for the variable
returns the new value, and no other line changes. Missing: other values (`assignment_readback_fails`). -/
theorem assignment_readback_partial (lines : List Str) (var value : Str) (i : Nat) (old pre suf : Str)
    (h : searchAssignment lines var = .ok [(i, old)]) (hl : lines[i]? = some (pre ++ '=' :: suf)) (hsuf : '=' ∉ suf) (hvar : contains var pre = true)
    (h0 : value ≠ []) (h1 : '=' ∉ value) (h2 : strip value = value) (h3 : value.head? ≠ some '\'' ∧ value.head? ≠ some '"') :
    ∃ lines', replaceAssignment lines var value = .ok lines' ∧ searchAssignment lines' var = .ok [(i, value)] ∧
      lines'.length = lines.length ∧ lines'[i]? = some (pre ++ '=' :: value) ∧ ∀ j, j ≠ i → lines'[j]? = lines[j]? := by
  refine readback_as h hl hsuf hvar ?_
  unfold assignedValue
  rw [splitChar_last h1]
  have : (splitChar '=' pre ++ [value]).getLastD [] = value := by
    rw [List.getLastD_eq_getLast?, List.getLast?_append]; rfl
  rw [this, h2]
  cases value with
  | nil => exact absurd rfl h0
  | cons c r =>
    have : ¬ (c = '\'' ∨ c = '"') := by simpa using h3
    simp only [if_neg this]

/-- **C52, partial.** A quoted text is read back without its quotes. -/
theorem assignment_readback_quoted_partial (lines : List Str) (var body : Str) (q : Char) (i : Nat) (old pre suf : Str)
    (h : searchAssignment lines var = .ok [(i, old)]) (hl : lines[i]? = some (pre ++ '=' :: suf)) (hsuf : '=' ∉ suf) (hvar : contains var pre = true)
    (h1 : '=' ∉ body) (hq : q = '\'' ∨ q = '"') :
    ∃ lines', replaceAssignment lines var (q :: (body ++ [q])) = .ok lines' ∧ searchAssignment lines' var = .ok [(i, body)] ∧
      lines'.length = lines.length ∧ lines'[i]? = some (pre ++ '=' :: q :: (body ++ [q])) ∧ ∀ j, j ≠ i → lines'[j]? = lines[j]? := by
  refine readback_as h hl hsuf hvar ?_
  unfold assignedValue
  have hv : '=' ∉ q :: (body ++ [q]) := by
    rcases hq with rfl | rfl <;> simp [h1]
  rw [splitChar_last hv]
  have : (splitChar '=' pre ++ [q :: (body ++ [q])]).getLastD [] = q :: (body ++ [q]) := by
    rw [List.getLastD_eq_getLast?, List.getLast?_append]; rfl
  have hs : strip (q :: (body ++ [q])) = q :: (body ++ [q]) := by
    rcases hq with rfl | rfl <;> simp [strip, lstrip, rstrip, isSpace]
  rw [this, hs]
  simp only [if_pos hq, List.dropLast_concat]

/-- Hypotheses of `assignment_readback_partial`. -/
example : searchAssignment [py!"import os", py!"    x: 'TypeAlias' = Any", py!"y = 1"] py!"x" = .ok [(1, py!"Any")] ∧
    replaceAssignment [py!"import os", py!"    x: 'TypeAlias' = Any", py!"y = 1"] py!"x" py!"int" =
      .ok [py!"import os", py!"    x: 'TypeAlias' =int", py!"y = 1"] := by decide +kernel

/-- **C52 fails.** A value with `=` in it is not read back. -/
theorem assignment_readback_fails : ∃ lines var value lines' v, replaceAssignment lines var value = .ok lines' ∧
    searchAssignment lines' var = .ok [(0, v)] ∧ v ≠ value :=
  ⟨[py!"x = 1"], py!"x", py!"dict(a=1)", [py!"x =dict(a=1)"], py!"1)", by decide +kernel, by decide +kernel, by decide⟩

/-- **C52 fails.** An empty value makes searching raise. -/
theorem assignment_readback_fails_empty : ∃ lines var lines', replaceAssignment lines var [] = .ok lines' ∧
    searchAssignment lines' var = .error .index :=
  ⟨[py!"x = 1"], py!"x", [py!"x ="], by decide +kernel, by decide +kernel⟩

/-! ### C53 -/

/-- Write classes into the registry, one after the other. -/
def register : List Str → List Str → Option (List Str)
  | lines, [] => some lines
  | lines, c :: cs => match addRegistry c lines with
    | (lines', none) => register lines' cs
    | (_, some _) => none

theorem register_stub {U : Uni} : ∀ {cs cs0 is ys ds L : List Str}, IsStub U cs0 is ys ds L → (∀ c ∈ cs, ClassName U c) →
    ∃ L', register L cs = some L' ∧ IsStub U (cs0 ++ cs) is ys ds L'
  | [], cs0, _, _, _, L, h, _ => ⟨L, rfl, by simpa using h⟩
  | c :: cs, cs0, is, ys, ds, L, h, hc => by
    obtain ⟨L1, h1, h2⟩ := addRegistry_stub h (hc c (by simp))
    obtain ⟨L2, h3, h4⟩ := register_stub (cs := cs) h2 (fun c h => hc c (by simp [h]))
    refine ⟨L2, by simp only [register, h1, h3], ?_⟩
    rw [List.append_assoc] at h4
    exact h4

/-- **C53.** Writing any list of class names into the registry of a new stub, one after the other, and reading the names back returns the
list, from the lines in memory as well as from the file read again. -/
theorem registry_roundtrip (U : Uni) (cs : List Str) (h : ∀ c ∈ cs, nameOk U c = true) : ∃ L0 L, generateStub = .ok L0 ∧ register L0 cs = some L ∧
    registered L = .ok cs ∧ registered (splitlines (join py!"\n" L)) = .ok cs := by
  obtain ⟨L0, h0, hs⟩ := generateStub_isStub U
  obtain ⟨L, h1, h2⟩ := register_stub (cs := cs) hs (fun c hc => className_of_nameOk (h c hc))
  exact ⟨L0, L, h0, h1, registry_stub h2, registry_stub (reload_stub h2)⟩

/-- Two classes, the second name with a non-letter. -/
example : (match generateStub with
    | .ok L => (register L [py!"A", py!"B_2"]).map registered
    | .error _ => none) = some (.ok [py!"A", py!"B_2"]) ∧ nameOk asciiUni py!"B_2" = true := by decide +kernel

end Verif.Props
