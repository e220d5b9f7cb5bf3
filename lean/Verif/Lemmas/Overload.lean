import Verif.Lemmas.Stub
import Verif.Lemmas.Order
/-
Adding overloads to the stub, and reading it again.
-/
namespace Verif
open Verif.Spec

section
variable {U : Uni}

/-! ### Methods -/

theorem isMethod_false {name e t : Str} (h1 : lstrip e = t) (h2 : (py!"def " ++ name).isPrefixOf t = false) : isMethod name e = false := by
  unfold isMethod
  have : startsWith (strip e) (py!"def " ++ name) = false := by
    cases h : startsWith (strip e) (py!"def " ++ name) with
    | false => rfl
    | true =>
      unfold startsWith strip at h
      rw [h1, List.isPrefixOf_iff_prefix] at h
      have hp : rstrip t <+: t := by
        unfold rstrip
        have := List.dropWhile_suffix (l := t.reverse) isSpace
        rw [← List.reverse_prefix, List.reverse_reverse] at this
        exact this
      have := List.isPrefixOf_iff_prefix.mpr (h.trans hp)
      rw [h2] at this; cases this
  rw [this]; rfl

theorem unlines_lstrip {ds : List Str} (hd : ∀ d ∈ ds, Deco d) (hne : ds ≠ []) (x : Str) : ∃ r, lstrip (unlines ds ++ x) = '@' :: r := by
  cases ds with
  | nil => exact absurd rfl hne
  | cons d ds =>
    rcases hd d (by simp) with rfl | rfl
    · exact ⟨py!"overload" ++ '\n' :: (unlines ds ++ x), by simp [overloadLine, lstrip, List.dropWhile, isSpace]⟩
    · exact ⟨py!"override" ++ '\n' :: (unlines ds ++ x), by simp [overrideLine, lstrip, List.dropWhile, isSpace]⟩

/-- Whether the overload of a method is found when another (or the same) method is searched. -/
theorem overload_isMethod {m m' : Method} (hm : IsMethod m) (hm' : IsMethod m') {c : Str} {ds : List Str} (hd : ∀ d ∈ ds, Deco d)
    (h : ds ≠ [] ∨ m ≠ m') : isMethod m'.name (unlines ds ++ m.overload c) = false := by
  by_cases hne : ds = []
  · subst hne
    rcases hm with rfl | rfl <;> rcases hm' with rfl | rfl
    · simp at h
    · exact isMethod_false (t := (yamlMethod.overload c).drop 4) rfl rfl
    · exact isMethod_false (t := (dataMethod.overload c).drop 4) rfl rfl
    · simp at h
  · obtain ⟨r, hr⟩ := unlines_lstrip hd hne (m.overload c)
    exact isMethod_false hr rfl

theorem searchMethod_append (name : Str) : ∀ (A B : List Str) (i : Nat),
    searchMethodFrom name i (A ++ B) = searchMethodFrom name i A ++ searchMethodFrom name (i + A.length) B
  | [], B, i => rfl
  | a :: A, B, i => by
    have := searchMethod_append name A B (i + 1)
    rw [show i + 1 + A.length = i + (A.length + 1) by omega] at this
    simp only [List.cons_append, searchMethodFrom, List.length_cons, this]
    split <;> rfl

theorem searchMethod_none {name : Str} : ∀ {A : List Str} (i : Nat), (∀ e ∈ A, isMethod name e = false) → searchMethodFrom name i A = []
  | [], _, _ => rfl
  | a :: A, i, h => by
    simp only [searchMethodFrom, h a (by simp), Bool.false_eq_true, if_false]
    exact searchMethod_none (i + 1) (fun e he => h e (by simp [he]))

theorem searchMethod_last {name x : Str} {P Q : List Str} (hx : isMethod name x = true) (hQ : ∀ e ∈ Q, isMethod name e = false) :
    (searchMethod (P ++ x :: Q) name).getLast? = some P.length := by
  unfold searchMethod
  rw [searchMethod_append]
  simp only [searchMethodFrom, hx, if_true, searchMethod_none _ hQ, Nat.zero_add]
  simp

theorem aboveDecorators_walk {A R : List Str} (hA : A = [] ∨ ∃ x A', A = A' ++ [x] ∧ '@' ∉ x) : ∀ {S : List Str}, (∀ e ∈ S, '@' ∈ e) →
    aboveDecorators (A ++ S ++ R) (A.length + S.length) = A.length := by
  intro S hS
  have main : ∀ (n : Nat), n ≤ S.length → aboveDecorators (A ++ S ++ R) (A.length + n) = A.length := by
    intro n
    induction n with
    | zero =>
      intro _
      rcases hA with rfl | ⟨x, A', rfl, hx⟩
      · rfl
      · simp only [List.length_append, List.length_cons, List.length_nil, Nat.add_zero, aboveDecorators]
        rw [show (A' ++ [x] ++ S ++ R).getD A'.length [] = x by simp [List.getD_eq_getElem?_getD]]
        rw [show x.contains '@' = false by simpa using hx]
        simp
    | succ n ih =>
      intro hn
      have hlt : n < S.length := by omega
      rw [← Nat.add_assoc, aboveDecorators]
      have : (A ++ S ++ R).getD (A.length + n) [] = S[n] := by
        rw [List.getD_eq_getElem?_getD, List.append_assoc, List.getElem?_append_right (by omega),
          show A.length + n - A.length = n by omega, List.getElem?_append_left hlt, List.getElem?_eq_getElem hlt]
        rfl
      rw [this, show S[n].contains '@' = true by simpa using hS _ (List.getElem_mem hlt)]
      simp only [if_true]
      exact ih (by omega)
  exact main S.length (Nat.le_refl _)

/-! ### Elements above a method -/

theorem elems_append {m : Method} {A B cs : List Str} (h : Elems U m (A ++ B) cs) : ∃ cs1 cs2, cs = cs1 ++ cs2 ∧ Elems U m A cs1 ∧ Elems U m B cs2 := by
  induction A generalizing cs with
  | nil => exact ⟨[], cs, rfl, .nil, h⟩
  | cons a A ih =>
    rw [List.cons_append] at h
    cases h with
    | deco hd h =>
      obtain ⟨c1, c2, rfl, h1, h2⟩ := ih h
      exact ⟨c1, c2, rfl, .deco hd h1, h2⟩
    | over hd hc h =>
      obtain ⟨c1, c2, rfl, h1, h2⟩ := ih h
      exact ⟨_ :: c1, c2, rfl, .over hd hc h1, h2⟩

theorem elems_concat {m : Method} {A B cs cs' : List Str} (h1 : Elems U m A cs) (h2 : Elems U m B cs') : Elems U m (A ++ B) (cs ++ cs') := by
  induction h1 with
  | nil => exact h2
  | deco hd _ ih => exact .deco hd ih
  | over hd hc _ ih => exact .over hd hc ih

/-- The longest end of a list whose elements have a property. -/
theorem split_end (p : Str → Bool) : ∀ (l : List Str), ∃ A B, l = A ++ B ∧ (∀ e ∈ B, p e = true) ∧ (A = [] ∨ ∃ x A', A = A' ++ [x] ∧ p x = false) := by
  intro l
  induction l with
  | nil => exact ⟨[], [], rfl, by simp, .inl rfl⟩
  | cons a l ih =>
    obtain ⟨A, B, rfl, hB, hA⟩ := ih
    rcases hA with rfl | ⟨x, A', rfl, hx⟩
    · by_cases ha : p a = true
      · exact ⟨[], a :: B, rfl, by simpa [ha] using hB, .inl rfl⟩
      · exact ⟨[a], B, rfl, hB, .inr ⟨a, [], rfl, by simpa using ha⟩⟩
    · exact ⟨a :: (A' ++ [x]), B, rfl, hB, .inr ⟨x, a :: A', rfl, hx⟩⟩

theorem elems_isMethod {m m' : Method} (hm : IsMethod m) (hm' : IsMethod m') (hne : m ≠ m') {S cs : List Str} (h : Elems U m S cs) :
    ∀ e ∈ S, isMethod m'.name e = false := by
  induction h with
  | nil => simp
  | deco hd _ ih =>
    intro e he
    rcases List.mem_cons.mp he with rfl | he
    · rcases hm' with rfl | rfl <;> rcases hd with rfl | rfl <;> decide
    · exact ih e he
  | over hd hc _ ih =>
    intro e he
    rcases List.mem_cons.mp he with rfl | he
    · rw [join_snoc]; exact overload_isMethod hm hm' hd (.inr hne)
    · exact ih e he

/-- The signature found above a method. -/
theorem signatureLines_elems {m : Method} {S cs : List Str} (h : Elems U m S cs) (R : List Str) :
    ∃ xs ds T T', signatureLines (S ++ overrideLine :: m.main :: R) = .ok xs ∧ xs ≠ [] ∧ join py!"\n" xs = unlines ds ++ m.line T T' ∧
      (∀ d ∈ ds, Deco d) ∧ GoodType T ∧ GoodType T' := by
  have hline : ∀ T T' x, (x ++ m.line T T').contains ':' = true := by
    intro T T' x
    simp [Method.line]
  have hdeco : ∀ d, Deco d → (d.contains ')' || d.contains ':') = false := by
    rintro d (rfl | rfl) <;> decide
  induction h with
  | nil =>
    refine ⟨[overrideLine, m.main], [overrideLine], py!"str", py!"ObjectT", ?_, by simp, by simp [join, Method.main], ?_, ?_, ?_⟩
    · have := hline py!"str" py!"ObjectT" []
      simp only [List.nil_append] at this
      rw [List.nil_append, signatureLines, hdeco _ (.inr rfl), signatureLines, Method.main, this]
      simp [Except.map]
    · intro d hd; rw [List.mem_singleton.mp hd]; exact .inr rfl
    · unfold GoodType; decide
    · unfold GoodType; decide
  | deco hd _ ih =>
    rename_i d S cs h
    obtain ⟨xs, ds, T, T', h1, h2, h3, h4, h5, h6⟩ := ih
    refine ⟨d :: xs, d :: ds, T, T', ?_, by simp, ?_, ?_, h5, h6⟩
    · rw [List.cons_append, signatureLines, hdeco _ hd, h1]
      simp [Except.map]
    · cases xs with
      | nil => exact absurd rfl h2
      | cons x xs => rw [join_cons_cons, h3]; simp
    · intro e he
      rcases List.mem_cons.mp he with rfl | he
      · exact hd
      · exact h4 e he
  | over hd hc _ ih =>
    rename_i ds c S cs h
    refine ⟨[join py!"\n" (ds ++ [m.overload c])], ds, _, _, ?_, by simp, ?_, hd, literal_good hc, className_good hc⟩
    · rw [List.cons_append, signatureLines, join_snoc, Method.overload, hline]
      simp
    · rw [join_singleton, join_snoc]; rfl

theorem main_isMethod {m : Method} (hm : IsMethod m) : isMethod m.name m.main = true := by
  rcases hm with rfl | rfl <;> decide +kernel

theorem above_main {P S Q : List Str} {x : Str} {m : Method} (hm : IsMethod m) (hx : x = m.main) (hQ : ∀ e ∈ Q, isMethod m.name e = false)
    (hP : P = [] ∨ ∃ z P', P = P' ++ [z] ∧ '@' ∉ z) (hS : ∀ e ∈ S, '@' ∈ e) :
    (searchMethodAbove (P ++ S ++ x :: Q) m.name).getLast? = some P.length := by
  subst hx
  unfold searchMethodAbove
  have := searchMethod_last (P := P ++ S) (main_isMethod hm) hQ
  rw [List.getLast?_map, this, Option.map_some, List.length_append, aboveDecorators_walk hP hS]

/-- Adding an overload in a part of the stub. -/
theorem addOverload_part {m : Method} (hm : IsMethod m) {c : Str} (hc : ClassName U c) {P S Q cs : List Str} (h : Elems U m S cs)
    (hQ : ∀ e ∈ Q, isMethod m.name e = false) (hP : ∃ z P', P = P' ++ [z] ∧ '@' ∉ z) :
    ∃ S' cs1 cs2, cs = cs1 ++ cs2 ∧ Elems U m S' (cs1 ++ c :: cs2) ∧
      addOverload c m.name (P ++ S ++ overrideLine :: m.main :: Q) = (P ++ S' ++ overrideLine :: m.main :: Q, none) := by
  obtain ⟨S1, S2, rfl, h2, h1⟩ := split_end (fun e => e.contains '@') S
  obtain ⟨cs1, cs2, rfl, e1, e2⟩ := elems_append h
  have hP1 : P ++ S1 = [] ∨ ∃ z P', P ++ S1 = P' ++ [z] ∧ '@' ∉ z := by
    right
    rcases h1 with rfl | ⟨x, A', rfl, hx⟩
    · simpa using hP
    · exact ⟨x, P ++ A', by simp, by simpa using hx⟩
  -- after the first step
  have step : ∃ S2', Elems U m S2' cs2 ∧ (∀ e ∈ S2', '@' ∈ e) ∧
      overloadStart m.name (P ++ (S1 ++ S2) ++ overrideLine :: m.main :: Q) = (P ++ S1 ++ S2' ++ overrideLine :: m.main :: Q, none) := by
    unfold overloadStart
    split
    · refine ⟨overloadLine :: S2, .deco (.inl rfl) e2, ?_, ?_⟩
      · intro e he
        rcases List.mem_cons.mp he with rfl | he
        · decide
        · simpa using h2 e he
      · have hg := above_main (P := P ++ S1) (S := S2 ++ [overrideLine]) hm rfl hQ hP1 (by
          intro e he
          rcases List.mem_append.mp he with he | he
          · simpa using h2 e he
          · rw [List.mem_singleton.mp he]; decide)
        have ee : P ++ (S1 ++ S2) ++ overrideLine :: m.main :: Q = (P ++ S1) ++ (S2 ++ [overrideLine]) ++ m.main :: Q := by simp
        rw [ee, hg]
        simp only [addLine, List.append_assoc]
        rw [← List.append_assoc P S1, List.take_left, List.drop_left]
        simp [overloadLine, TAB]
    · exact ⟨S2, e2, by simpa using h2, by simp⟩
  obtain ⟨S2', e2', h2', hstep⟩ := step
  obtain ⟨xs, ds, T, T', s1, s2, s3, s4, s5, s6⟩ := signatureLines_elems e2' Q
  have hg := above_main (P := P ++ S1) (S := S2' ++ [overrideLine]) hm rfl hQ hP1 (by
    intro e he
    rcases List.mem_append.mp he with he | he
    · exact h2' e he
    · rw [List.mem_singleton.mp he]; decide)
  have ee : P ++ S1 ++ S2' ++ overrideLine :: m.main :: Q = (P ++ S1) ++ (S2' ++ [overrideLine]) ++ m.main :: Q := by simp
  refine ⟨S1 ++ join py!"\n" (ds ++ [m.overload c]) :: S2', cs1, cs2, rfl, elems_concat e1 (.over s4 hc e2'), ?_⟩
  unfold addOverload
  simp only [hstep]
  have hsig : getSignature (P ++ S1 ++ S2' ++ overrideLine :: m.main :: Q) m.name = .ok (unlines ds ++ m.line T T') := by
    unfold getSignature
    rw [ee, hg]
    simp only []
    rw [show P ++ S1 ++ (S2' ++ [overrideLine]) ++ m.main :: Q = (P ++ S1) ++ (S2' ++ overrideLine :: m.main :: Q) by simp, List.drop_left, s1]
    simp [Except.map, s3]
  rw [hsig]
  simp only [editSignature_line hm hc s4 s5 s6]
  rw [ee, hg]
  simp only [addLine]
  rw [show P ++ S1 ++ (S2' ++ [overrideLine]) ++ m.main :: Q = (P ++ S1) ++ (S2' ++ overrideLine :: m.main :: Q) by simp, List.drop_left, List.take_left, join_snoc]
  simp

theorem addOverload_data {cs is ys ds L : List Str} (h : IsStub U cs is ys ds L) {c : Str} (hc : ClassName U c) :
    ∃ L' ds1 ds2, ds = ds1 ++ ds2 ∧ addOverload c py!"from_data" L = (L', none) ∧ IsStub U cs is ys (ds1 ++ c :: ds2) L' := by
  obtain ⟨h1, h2, Y, D, tail, hY, hD, ht, rfl⟩ := h
  obtain ⟨S', c1, c2, e, hS', ha⟩ := addOverload_part (m := dataMethod) (.inr rfl) hc hD (Q := resetLines ++ tail)
    (P := is.map classImport ++ headLines ++ [registryLine cs] ++ initLines ++ (Y ++ [overrideLine, yamlMethod.main]) ++ [[]]) (by
      rcases ht with rfl | rfl <;> decide +kernel) ⟨[], _, rfl, by simp⟩
  refine ⟨_, c1, c2, e, ?_, h1, h2, Y, S', tail, hY, hS', ht, rfl⟩
  have : dataMethod.name = py!"from_data" := rfl
  rw [this] at ha
  simp only [List.append_assoc, List.cons_append, List.nil_append] at ha ⊢
  exact ha

theorem addOverload_yaml {cs is ys ds L : List Str} (h : IsStub U cs is ys ds L) {c : Str} (hc : ClassName U c) :
    ∃ L' ys1 ys2, ys = ys1 ++ ys2 ∧ addOverload c py!"from_yaml_file" L = (L', none) ∧ IsStub U cs is (ys1 ++ c :: ys2) ds L' := by
  obtain ⟨h1, h2, Y, D, tail, hY, hD, ht, rfl⟩ := h
  obtain ⟨S', c1, c2, e, hS', ha⟩ := addOverload_part (m := yamlMethod) (.inl rfl) hc hY
    (Q := [[]] ++ (D ++ [overrideLine, dataMethod.main]) ++ resetLines ++ tail)
    (P := is.map classImport ++ headLines ++ [registryLine cs] ++ initLines) (by
      intro e he
      simp only [List.mem_append] at he
      rcases he with ((he | he | he) | he) | he
      · revert e; decide +kernel
      · exact elems_isMethod (.inr rfl) (.inl rfl) (by intro h; have := congrArg Method.name h; revert this; decide) hD e he
      · revert e; decide +kernel
      · revert e; decide +kernel
      · rcases ht with rfl | rfl
        · cases he
        · revert e; decide +kernel) ⟨[], is.map classImport ++ headLines ++ [registryLine cs] ++ initLines.take 3, by simp [initLines], by simp⟩
  refine ⟨_, c1, c2, e, ?_, h1, h2, S', D, tail, hS', hD, ht, rfl⟩
  have : yamlMethod.name = py!"from_yaml_file" := rfl
  rw [this] at ha
  simp only [List.append_assoc, List.cons_append, List.nil_append] at ha ⊢
  exact ha

end
end Verif
