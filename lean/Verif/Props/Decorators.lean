import Verif.Props.Editor
/- Property C86: decorators are found above their methods. -/
namespace Verif.Props
open Verif Verif.Spec

/-- The full statement of C86: the lines found for a decorator and a method are those in which this decorator is applied to a
method of this name. -/
def FindsDecorators (ok : Str → Str → List Str → Prop) : Prop :=
  ∀ deco name lines, name ≠ [] → (∀ c ∈ name, nameChar c = true) → ok deco name lines →
    ∀ j, j ∈ searchDecorator lines deco name ↔
      ∃ d i l, lines[j]? = some d ∧ DecoratorLine deco d ∧ Decorates lines j i ∧ lines[i]? = some l ∧ MethodLine name l

theorem mem_searchDecorator {lines : List Str} {deco name : Str} {j : Nat} : j ∈ searchDecorator lines deco name ↔
    j + 1 ∈ searchMethod lines name ∧ contains ('@' :: deco) (lines.getD j []) = true := by
  unfold searchDecorator
  rw [List.mem_filterMap]
  constructor
  · rintro ⟨i, hi, h⟩
    cases i with
    | zero => cases h
    | succ k =>
      dsimp only at h
      split at h
      · rename_i hc
        simp only [Option.some.injEq] at h
        subst h
        exact ⟨hi, hc⟩
      · cases h
  · rintro ⟨h1, h2⟩
    exact ⟨j + 1, h1, by dsimp only; rw [if_pos h2]⟩

theorem decoratorLine_contains {deco l : Str} (h : DecoratorLine deco l) : contains ('@' :: deco) l = true := by
  obtain ⟨ind, rest, _, rfl, _⟩ := h
  exact (contains_iff_infix _ _).mpr ⟨ind, rest, by simp⟩

theorem decoratorLine_at {deco l : Str} (h : DecoratorLine deco l) : AtLine l := by
  obtain ⟨ind, rest, hi, rfl, _⟩ := h
  exact ⟨ind, deco ++ rest, hi, by simp⟩

theorem methodLine_not_at {name l : Str} (h : MethodLine name l) : ¬ AtLine l := by
  obtain ⟨ind, rest, hi, rfl, _⟩ := h
  rintro ⟨ind', rest', hi', e⟩
  have h1 : (ind ++ py!"def " ++ name ++ rest).dropWhile isSpace = py!"def " ++ name ++ rest := by
    rw [List.append_assoc, List.append_assoc, List.dropWhile_append_of_pos hi, List.append_assoc]
    rfl
  have h2 : (ind' ++ '@' :: rest').dropWhile isSpace = '@' :: rest' := by
    rw [List.dropWhile_append_of_pos hi']
    rfl
  rw [e, h2] at h1
  cases h1

/-- **C86, partial.** So it is if no method in the file has a longer name that begins with the name, the name of the decorator
with its sign occurs only where this decorator is applied, and no method has two decorators. -/
theorem decorators_found_partial : FindsDecorators (fun deco name lines => (∀ l ∈ lines, DefLine name l → MethodLine name l) ∧
    (∀ l ∈ lines, ('@' :: deco) <:+: l → DecoratorLine deco l) ∧
    ∀ (k : Nat) l l', lines[k]? = some l → lines[k + 1]? = some l' → AtLine l → ¬ AtLine l') := by
  intro deco name lines hne hn ⟨hdef, hdec, htwo⟩ j
  rw [mem_searchDecorator, methods_found_partial name lines hne hn hdef]
  constructor
  · rintro ⟨⟨l, h1, h2⟩, hc⟩
    have hlt : j < lines.length := by
      obtain ⟨h, _⟩ := List.getElem?_eq_some_iff.mp h1
      omega
    rw [List.getD_eq_getElem?_getD, List.getElem?_eq_getElem hlt, Option.getD_some] at hc
    have hd := hdec lines[j] (List.getElem_mem hlt) ((contains_iff_infix _ _).mp hc)
    refine ⟨lines[j], j + 1, l, List.getElem?_eq_getElem hlt, hd, ⟨Nat.lt_succ_self j, ?_⟩, h1, h2⟩
    intro k hk1 hk2
    have : k = j := by omega
    subst this
    exact ⟨_, List.getElem?_eq_getElem hlt, decoratorLine_at hd⟩
  · rintro ⟨d, i, l, h1, h2, ⟨h3, h4⟩, h5, h6⟩
    have hi : i = j + 1 := by
      rcases Nat.lt_or_ge (j + 1) i with h | h
      · obtain ⟨x, hx, hax⟩ := h4 j (Nat.le_refl _) h3
        obtain ⟨y, hy, hay⟩ := h4 (j + 1) (by omega) h
        exact absurd hay (htwo j x y hx hy hax)
      · omega
    subst hi
    refine ⟨⟨l, h5, h6⟩, ?_⟩
    rw [List.getD_eq_getElem?_getD, h1]
    exact decoratorLine_contains h2

/-- A file that meets the hypotheses, for its two overloads. -/
def overloadedFile : List Str :=
  [py!"class A:", py!"    @overload", py!"    def load(self, x: int): ...", py!"    @overload", py!"    def load(self, x: str): ...",
   py!"    def save(self): ..."]

example : searchDecorator overloadedFile py!"overload" py!"load" = [1, 3] := by decide

theorem atLine_strip {l : Str} : AtLine l ↔ (l.dropWhile isSpace).head? = some '@' := by
  constructor
  · rintro ⟨ind, rest, hi, rfl⟩
    rw [List.dropWhile_append_of_pos hi]
    rfl
  · intro h
    refine ⟨l.takeWhile isSpace, (l.dropWhile isSpace).tail, fun c hc => ?_, ?_⟩
    · exact List.all_eq_true.mp (List.all_takeWhile (l := l) (p := isSpace)) c hc
    · cases e : l.dropWhile isSpace with
      | nil => rw [e] at h; cases h
      | cons d r =>
        rw [e] at h
        simp only [List.head?_cons, Option.some.injEq] at h
        rw [List.tail_cons, ← h, ← e, List.takeWhile_append_dropWhile]

instance (l : Str) : Decidable (AtLine l) := decidable_of_iff' _ atLine_strip

example : (∀ l ∈ overloadedFile, DefLine py!"load" l → MethodLine py!"load" l) ∧
    (∀ l ∈ overloadedFile, ('@' :: py!"overload") <:+: l → DecoratorLine py!"overload" l) ∧
    ∀ (k : Nat) l l', overloadedFile[k]? = some l → overloadedFile[k + 1]? = some l' → AtLine l → ¬ AtLine l' := by
  refine ⟨?_, ?_, ?_⟩
  · intro l hl h
    have hm := (isMethod_iff (by simp) (by decide)).mpr h
    simp only [overloadedFile, List.mem_cons, List.not_mem_nil, or_false] at hl
    rcases hl with rfl | rfl | rfl | rfl | rfl | rfl
    · exact absurd hm (by decide)
    · exact absurd hm (by decide)
    · exact ⟨py!"    ", py!"(self, x: int): ...", by decide, rfl, by intro c hc; simp at hc; subst hc; decide⟩
    · exact absurd hm (by decide)
    · exact ⟨py!"    ", py!"(self, x: str): ...", by decide, rfl, by intro c hc; simp at hc; subst hc; decide⟩
    · exact absurd hm (by decide)
  · intro l hl h
    have hc := (contains_iff_infix _ _).mpr h
    simp only [overloadedFile, List.mem_cons, List.not_mem_nil, or_false] at hl
    rcases hl with rfl | rfl | rfl | rfl | rfl | rfl
    · exact absurd hc (by decide)
    · exact ⟨py!"    ", [], by unfold Blank; decide, rfl, by simp⟩
    · exact absurd hc (by decide)
    · exact ⟨py!"    ", [], by unfold Blank; decide, rfl, by simp⟩
    · exact absurd hc (by decide)
    · exact absurd hc (by decide)
  · intro k l l' h1 h2
    have hk : k < 6 := by
      obtain ⟨h, _⟩ := List.getElem?_eq_some_iff.mp h1
      exact h
    have key : ∀ k : Fin 6, ∀ l ∈ overloadedFile[k.1]?, ∀ l' ∈ overloadedFile[k.1 + 1]?, AtLine l → ¬ AtLine l' := by decide
    exact key ⟨k, hk⟩ l h1 l' h2

/-- **C86 fails.** Only the line directly above a method is looked at: of two decorators the first is not found. -/
theorem decorators_found_fails : ¬ FindsDecorators (fun _ _ _ => True) := by
  intro h
  have := (h py!"overload" py!"load" [py!"@overload", py!"@staticmethod", py!"def load(): ..."] (by simp) (by decide) trivial 0).mpr
    ⟨py!"@overload", 2, py!"def load(): ...", rfl, ⟨[], [], by simp [Blank], rfl, by simp⟩,
      ⟨by decide, fun k _ hk => ?_⟩, rfl, ⟨[], py!"(): ...", by simp, rfl, by intro c hc; simp at hc; subst hc; decide⟩⟩
  · exact absurd this (by decide)
  · match k, hk with
    | 0, _ => exact ⟨_, rfl, [], _, by simp [Blank], rfl⟩
    | 1, _ => exact ⟨_, rfl, [], _, by simp [Blank], rfl⟩

/-- **C86 fails.** Another decorator whose name begins with the given one is taken for it. -/
theorem decorators_found_fails_longer : ∃ j ∈ searchDecorator [py!"@property_cached", py!"def size(self): ..."] py!"property" py!"size",
    ∀ d, [py!"@property_cached", py!"def size(self): ..."][j]? = some d → ¬ DecoratorLine py!"property" d := by
  refine ⟨0, by decide, fun d hd => ?_⟩
  simp only [List.getElem?_cons_zero, Option.some.injEq] at hd
  subst hd
  rintro ⟨ind, rest, hi, e, hr⟩
  cases ind with
  | cons c ind =>
    have := hi c (by simp)
    simp only [List.cons_append, List.cons.injEq] at e
    rw [← e.1] at this
    exact absurd this (by decide)
  | nil =>
    simp only [List.nil_append, List.cons_append, List.cons.injEq, true_and] at e
    subst e
    exact absurd (hr '_' rfl) (by decide)

end Verif.Props
