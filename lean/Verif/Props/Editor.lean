import Verif.Lemmas.Private
import Verif.Lemmas.Crash
/-
The editor of stub files: removal of private methods, insertion of imports, lookup of methods.
-/
namespace Verif.Props
open Verif Verif.Spec

/-! ### Removing private methods -/

/-- The full statement of C74: from every well-formed file exactly the visible lines of private methods disappear. `ok` restricts the
files. -/
def RemovesPrivate (ok : List Piece → Prop) : Prop :=
  ∀ ps, GoodFile [] ps → ok ps → ∃ r, removePrivate (fileLines ps) = .ok r ∧ codeLines r = codeLines (otherLines ps)

/-- **C74, partial.** Removing private methods removes exactly them from files in which they contain no blank lines and are followed
by one. Missing: other files, for which the claim is false. -/
theorem private_removed_partial : RemovesPrivate Spaced := fun ps hg hs =>
  ⟨remaining ps, removePrivate_remaining ps hg hs, remaining_code ps [] hg hs⟩

/-- A class with two private methods, one of them with a decorator and parameters in several lines. -/
def sampleFile : List Piece :=
  [ .other [py!"import os", py!"", py!"class A(B):", py!"    x: int = 1", py!""],
    .method ⟨[py!"    @final"], py!"    ", py!"first(self,", [py!"        a: int", py!"    ) -> None:"], [py!"        return a"]⟩,
    .other [py!"", py!"    @override", py!"    def second(self): ...", py!""],
    .method ⟨[], py!"    ", py!"third(self): ...", [], []⟩ ]

/-- The hypotheses are met. -/
example : GoodFile [] sampleFile ∧ Spaced sampleFile := by
  refine ⟨goodFileB_sound (by decide +kernel), ?_, .inr ⟨_, _, rfl, by unfold Blank; decide, by decide⟩, ?_, .inl rfl, trivial⟩
  · intro l hl
    simp only [List.mem_singleton] at hl
    subst hl
    intro h
    have := h 'r' (by decide)
    revert this; decide
  · simp

example : removePrivate (fileLines sampleFile) =
    .ok [py!"import os", py!"", py!"class A(B):", py!"    x: int = 1", py!"", py!"    @override", py!"    def second(self): ...", py!""] := by
  decide +kernel

/-- The result for a file, if the claim holds for it. -/
theorem removes_at {ps : List Piece} (h : RemovesPrivate (fun _ => True)) (hg : goodFileB [] ps = true) :
    (match removePrivate (fileLines ps) with
      | .ok r => decide (codeLines r = codeLines (otherLines ps))
      | .error _ => false) = true := by
  obtain ⟨r, h1, h2⟩ := h ps (goodFileB_sound hg) trivial
  rw [h1]
  exact decide_eq_true h2

/-- **C74 fails.** The line below a private method is removed whatever it is: here a variable of the class. -/
theorem private_removed_fails : ¬ RemovesPrivate (fun _ => True) := by
  intro h
  have := removes_at (ps := [.other [py!"class A:"], .method ⟨[], py!"    ", py!"f(self): ...", [], []⟩, .other [py!"    x: int = 1"]]) h (by decide +kernel)
  revert this
  decide +kernel

/-- **C74 fails.** A body with a blank line is removed up to that line only. -/
theorem private_removed_fails_blank : ¬ RemovesPrivate (fun ps => ∀ p ∈ ps, ∀ m, p = .method m → m.body ≠ []) := by
  intro h
  let ps : List Piece := [.other [py!"class A:"], .method ⟨[], py!"    ", py!"f(self):", [], [py!"        a = 1", py!"", py!"        return a"]⟩]
  obtain ⟨r, h1, h2⟩ := h ps (goodFileB_sound (by decide +kernel)) (by
    intro p hp m e
    subst e
    simp only [ps, List.mem_cons, List.not_mem_nil, or_false] at hp
    rcases hp with hp | hp
    · cases hp
    · injection hp with hp; rw [hp]; simp)
  have h3 : removePrivate (fileLines ps) = .ok [py!"class A:", py!"        return a"] := by decide +kernel
  rw [h3] at h1
  injection h1 with h1
  subst h1
  revert h2
  decide +kernel

/-- **C74 fails.** Of two private methods with no line between them, the second is found twice, and a line that follows later is
removed as well. -/
theorem private_removed_fails_twice : removePrivate (fileLines
      [.other [py!"class A:"], .method ⟨[], py!"    ", py!"f(self): ...", [], []⟩, .method ⟨[], py!"    ", py!"g(self): ...", [], []⟩,
       .other [py!"", py!"    x: int = 1", py!"    y: int = 2"]]) = .ok [py!"class A:", py!"    y: int = 2"] := by
  decide +kernel

/-! ### Adding imports -/

theorem addLine_foldr (A B : List Str) : ∀ stmts : List Str,
    stmts.foldr (fun line ls => addLine ls A.length line) (A ++ B) = A ++ stmts ++ B
  | [] => by simp
  | s :: r => by
    rw [List.foldr_cons, addLine_foldr A B r, addLine]
    simp

theorem searchLine_split {kw : Str} : ∀ {lines : List Str} {i : Nat}, searchLine kw lines = .ok i →
    ∃ A t B, lines = A ++ t :: B ∧ A.length = i ∧ contains kw t = true ∧ ∀ l ∈ A, contains kw l = false
  | [], _, h => by simp [searchLine] at h
  | l :: r, i, h => by
    unfold searchLine at h
    by_cases hc : contains kw l = true
    · rw [if_pos hc] at h
      injection h with h
      exact ⟨[], l, r, rfl, h, hc, by simp⟩
    · rw [if_neg hc] at h
      cases hs : searchLine kw r with
      | error e => rw [hs] at h; cases h
      | ok j =>
        rw [hs] at h
        injection h with h
        have h : j + 1 = i := h
        obtain ⟨A, t, B, e, hl, ht, hA⟩ := searchLine_split hs
        refine ⟨l :: A, t, B, by rw [e]; rfl, by simp only [List.length_cons]; omega, ht, ?_⟩
        intro x hx
        rcases List.mem_cons.mp hx with rfl | hx
        · simpa using hc
        · exact hA x hx

theorem searchLine_found {kw t : Str} (ht : contains kw t = true) (B : List Str) : ∀ {A : List Str}, (∀ l ∈ A, contains kw l = false) →
    searchLine kw (A ++ t :: B) = .ok A.length
  | [], _ => by simp [searchLine, ht]
  | a :: A, h => by
    rw [List.cons_append, searchLine, if_neg (by simp [h a (by simp)]), searchLine_found ht B (fun l hl => h l (by simp [hl]))]
    rfl

/-- **C75.** Import statements are put together, in the given order, above all lines, which stay as they are. -/
theorem imports_on_top (lines stmts : List Str) : addImports lines stmts false = .ok (stmts ++ lines) := by
  unfold addImports
  rw [if_neg (by simp)]
  congr 1
  have := addLine_foldr [] lines stmts
  simpa using this

/-- **C75.** In a type-checking block they are put together, in the given order, below some line that contains
`if TYPE_CHECKING:`; all lines stay as they are. Without such a line the call fails. -/
theorem imports_below (lines stmts : List Str) :
    (∃ A t B, lines = A ++ t :: B ∧ py!"if TYPE_CHECKING:" <:+: t ∧ (∀ l ∈ A, ¬ py!"if TYPE_CHECKING:" <:+: l) ∧
      addImports lines stmts true = .ok (A ++ t :: (stmts.map (py!"    " ++ ·) ++ B))) ∨
    ((∀ l ∈ lines, ¬ py!"if TYPE_CHECKING:" <:+: l) ∧ addImports lines stmts true = .error .value) := by
  unfold addImports
  rw [if_pos rfl]
  cases hs : searchLine py!"if TYPE_CHECKING:" lines with
  | ok i =>
    left
    obtain ⟨A, t, B, e, hl, ht, hA⟩ := searchLine_split hs
    refine ⟨A, t, B, e, (contains_iff_infix _ _).mp ht, fun l h hi => ?_, ?_⟩
    · have := hA l h; rw [(contains_iff_infix _ _).mpr hi] at this; cases this
    · dsimp only
      congr 1
      have := addLine_foldr (A ++ [t]) B (stmts.map (TAB ++ ·))
      have e1 : (A ++ [t]).length = i + 1 := by simp [hl]
      rw [e1] at this
      have e2 : lines = A ++ [t] ++ B := by rw [e]; simp
      rw [e2, this]
      simp [TAB]
  | error e =>
    right
    have : ∀ {ls : List Str} {e}, searchLine py!"if TYPE_CHECKING:" ls = .error e → e = .value ∧ ∀ l ∈ ls, contains py!"if TYPE_CHECKING:" l = false := by
      intro ls
      induction ls with
      | nil => intro e h; injection h with h; exact ⟨h.symm, by simp⟩
      | cons l r ih =>
        intro e h
        unfold searchLine at h
        by_cases hc : contains py!"if TYPE_CHECKING:" l = true
        · rw [if_pos hc] at h; cases h
        · rw [if_neg hc] at h
          cases hr : searchLine py!"if TYPE_CHECKING:" r with
          | ok j => rw [hr] at h; cases h
          | error e' =>
            rw [hr] at h
            injection h with h
            subst h
            obtain ⟨h1, h2⟩ := ih hr
            refine ⟨h1, fun x hx => ?_⟩
            rcases List.mem_cons.mp hx with rfl | hx
            · simpa using hc
            · exact h2 x hx
    obtain ⟨h1, h2⟩ := this hs
    refine ⟨fun l hl hi => ?_, by rw [h1]⟩
    have := h2 l hl
    rw [(contains_iff_infix _ _).mpr hi] at this
    cases this

/-- The full statement of C75 for blocks: the statements become lines of the first type-checking block. -/
def ImportsInBlock (ok : List Str → Prop) : Prop :=
  ∀ lines stmts, (∃ t ∈ lines, strip t = py!"if TYPE_CHECKING:") → ok lines →
    ∃ A t B ls, lines = A ++ t :: B ∧ strip t = py!"if TYPE_CHECKING:" ∧ BlockBelow t ls ∧ ls.map lstrip = stmts.map lstrip ∧
      addImports lines stmts true = .ok (A ++ t :: (ls ++ B))

/-- **C75, partial.** So it is if the first line that contains these words is such a line and not indented. -/
theorem imports_in_block_partial : ImportsInBlock (fun lines => ∃ A B, lines = A ++ py!"if TYPE_CHECKING:" :: B ∧
    ∀ l ∈ A, ¬ py!"if TYPE_CHECKING:" <:+: l) := by
  rintro lines stmts - ⟨A, B, rfl, hA⟩
  have hA' : ∀ l ∈ A, contains py!"if TYPE_CHECKING:" l = false := fun l hl => by
    rw [← Bool.not_eq_true, contains_iff_infix]; exact hA l hl
  refine ⟨A, _, B, stmts.map (TAB ++ ·), rfl, by decide, ?_, ?_, ?_⟩
  · intro l hl
    obtain ⟨s, _, rfl⟩ := List.mem_map.mp hl
    have : (py!"if TYPE_CHECKING:").takeWhile isSpace = [] := by decide
    rw [this]
    exact ⟨py!" ", py!"   " ++ s, rfl, rfl, by decide⟩
  · rw [List.map_map]
    apply List.map_congr_left
    intro s _
    simp [TAB, lstrip, isSpace]
  · unfold addImports
    rw [if_pos rfl, searchLine_found (by decide) B hA']
    dsimp only
    congr 1
    have := addLine_foldr (A ++ [py!"if TYPE_CHECKING:"]) B (stmts.map (TAB ++ ·))
    have e1 : (A ++ [py!"if TYPE_CHECKING:"]).length = A.length + 1 := by simp
    rw [e1] at this
    have e2 : A ++ py!"if TYPE_CHECKING:" :: B = A ++ [py!"if TYPE_CHECKING:"] ++ B := by simp
    rw [e2, this]
    simp

/-- A file that meets the hypotheses. -/
example : ∃ A B, [py!"import C", py!"", py!"if TYPE_CHECKING:", py!"    import D"] = A ++ py!"if TYPE_CHECKING:" :: B ∧
    ∀ l ∈ A, ¬ py!"if TYPE_CHECKING:" <:+: l :=
  ⟨[py!"import C", py!""], [py!"    import D"], rfl, fun l hl h => by
    have := (contains_iff_infix _ _).mpr h
    simp only [List.mem_cons, List.not_mem_nil, or_false] at hl
    rcases hl with rfl | rfl <;> revert this <;> decide⟩

/-- **C75 fails.** A comment with these words is taken for the block. -/
theorem imports_in_block_fails : ¬ ImportsInBlock (fun _ => True) := by
  intro h
  obtain ⟨A, t, B, ls, h1, h2, _, h4, h5⟩ := h [py!"# if TYPE_CHECKING: below", py!"if TYPE_CHECKING:", py!"    import D"] [py!"import C"]
    ⟨py!"if TYPE_CHECKING:", by simp, by decide⟩ trivial
  have h6 : addImports [py!"# if TYPE_CHECKING: below", py!"if TYPE_CHECKING:", py!"    import D"] [py!"import C"] true =
    .ok [py!"# if TYPE_CHECKING: below", py!"    import C", py!"if TYPE_CHECKING:", py!"    import D"] := by decide +kernel
  rw [h6] at h5
  injection h5 with h5
  cases A with
  | nil =>
    injection h5 with h5 _
    subst h5
    revert h2; decide
  | cons a A =>
    injection h1 with ha h1
    injection h5 with _ h5
    cases A with
    | nil =>
      injection h1 with h1 _
      injection h5 with h5 _
      rw [← h1] at h5
      revert h5; decide
    | cons b A =>
      injection h1 with h1 _
      injection h5 with h5 _
      rw [← h1] at h5
      revert h5; decide

/-- **C75 fails.** Imports are put above imports from `__future__`. -/
theorem future_first_fails : ¬ ∀ lines stmts r, FutureFirst lines → FutureFirst stmts → addImports lines stmts false = .ok r → FutureFirst r := by
  intro h
  have hr := h [py!"from __future__ import annotations"] [py!"import os"] _
    ⟨[py!"from __future__ import annotations"], [], by decide, by decide, by simp⟩ ⟨[], [py!"import os"], by decide, by simp, by decide⟩
    (imports_on_top _ _)
  obtain ⟨a, b, h1, h2, h3⟩ := hr
  have e : codeLines ([py!"import os"] ++ [py!"from __future__ import annotations"]) = [py!"import os", py!"from __future__ import annotations"] := by decide
  rw [e] at h1
  cases a with
  | nil =>
    have := h3 py!"from __future__ import annotations" (by rw [← List.nil_append b, ← h1]; simp)
    exact this (by decide)
  | cons x a =>
    injection h1 with h1 _
    have := h2 x (by simp)
    rw [← h1] at this
    revert this; decide

/-- **C75, partial.** Without imports from `__future__` in the file nothing is put before such imports. -/
theorem future_first_partial (lines stmts r : List Str) (hl : ∀ l ∈ lines, ¬ py!"from __future__" <+: l) (hs : FutureFirst stmts)
    (h : addImports lines stmts false = .ok r) : FutureFirst r := by
  rw [imports_on_top] at h
  injection h with h
  subst h
  obtain ⟨a, b, h1, h2, h3⟩ := hs
  refine ⟨a, b ++ codeLines lines, ?_, h2, ?_⟩
  · rw [← List.append_assoc, ← h1]; simp [codeLines]
  · intro l hm
    rcases List.mem_append.mp hm with hm | hm
    · exact h3 l hm
    · exact hl l (List.mem_filter.mp hm).1

example : FutureFirst [py!"from __future__ import annotations", py!"import os"] ∧ ∀ l ∈ [py!"class A: ..."], ¬ py!"from __future__" <+: l :=
  ⟨⟨[py!"from __future__ import annotations"], [py!"import os"], by decide, by decide, by decide⟩, by decide⟩

/-! ### Looking up methods -/

theorem find_before {kw x y : Str} : ∃ i, find kw (x ++ kw ++ y) = some i ∧ i ≤ x.length := by
  induction x with
  | nil =>
    refine ⟨0, ?_, by simp⟩
    cases h : [] ++ kw ++ y with
    | nil =>
      have : kw = [] := by
        simp only [List.nil_append, List.append_eq_nil_iff] at h; exact h.1
      subst this; rfl
    | cons c r =>
      unfold find
      rw [if_pos]
      rw [← h, List.nil_append, List.isPrefixOf_iff_prefix]
      exact List.prefix_append ..
  | cons a x ih =>
    obtain ⟨i, h1, h2⟩ := ih
    rw [List.cons_append, List.cons_append, find]
    by_cases hp : kw.isPrefixOf (a :: (x ++ kw ++ y)) = true
    · rw [if_pos hp]; exact ⟨0, rfl, by simp⟩
    · rw [if_neg hp, h1]; exact ⟨i + 1, rfl, by simp; omega⟩

theorem space_noQuote {c : Char} (h : isSpace c = true) : c ≠ '"' ∧ c ≠ '\'' := by
  constructor <;> rintro rfl <;> revert h <;> decide

/-- The lines that the search takes for the method `name`: those in which some name that begins with `name` is defined. -/
theorem isMethod_iff {name l : Str} (hne : name ≠ []) (hn : ∀ c ∈ name, isSpace c = false) : isMethod name l = true ↔ DefLine name l := by
  constructor
  · intro h
    simp only [isMethod, Bool.and_eq_true] at h
    obtain ⟨ind, he, hi⟩ : ∃ t, l = t ++ lstrip l ∧ ∀ c ∈ t, isSpace c = true := lstrip_append
    obtain ⟨r, hr⟩ := startsWith_iff.mp h.1
    have hp : ∃ x, lstrip l = strip l ++ x := by
      unfold strip rstrip
      obtain ⟨x, hx⟩ := List.dropWhile_suffix (p := isSpace) (l := (lstrip l).reverse)
      exact ⟨x.reverse, by have := congrArg List.reverse hx; simpa using this.symm⟩
    obtain ⟨x, hx⟩ := hp
    exact ⟨ind, r ++ x, hi, by rw [he, hx, hr]; simp⟩
  · rintro ⟨ind, rest, hi, rfl⟩
    simp only [isMethod, Bool.and_eq_true, Bool.not_eq_true']
    constructor
    · obtain ⟨n0, c, rfl⟩ : ∃ n0 c, name = n0 ++ [c] := by
        rcases List.eq_nil_or_concat name with rfl | ⟨n0, c, rfl⟩
        · exact absurd rfl hne
        · exact ⟨n0, c, by simp⟩
      have e : ind ++ py!"def " ++ (n0 ++ [c]) ++ rest = ind ++ 'd' :: ((py!"ef " ++ n0) ++ c :: rest) := by simp
      rw [e, strip_cons_visible hi (by decide), rstrip_visible (hn c (by simp))]
      exact startsWith_iff.mpr ⟨rstrip rest, by simp⟩
    · obtain ⟨i, h1, h2⟩ := find_before (kw := name) (x := ind ++ py!"def ") (y := rest)
      unfold itIsString textBefore
      rw [h1]
      dsimp only
      have hsub : ∀ c ∈ (ind ++ py!"def " ++ name ++ rest).take i, c ≠ '"' ∧ c ≠ '\'' := by
        intro c hc
        rw [List.append_assoc, List.take_append_of_le_length h2] at hc
        rcases List.mem_append.mp (List.mem_of_mem_take hc) with hc | hc
        · exact space_noQuote (hi c hc)
        · simp only [List.mem_cons, List.not_mem_nil, or_false] at hc
          rcases hc with rfl | rfl | rfl | rfl <;> decide
      rw [Bool.or_eq_false_iff]
      constructor
      · rw [← Bool.not_eq_true, List.contains_iff_mem]; intro hm; exact (hsub _ hm).1 rfl
      · rw [← Bool.not_eq_true, List.contains_iff_mem]; intro hm; exact (hsub _ hm).2 rfl

theorem mem_searchFrom {name : Str} {i : Nat} : ∀ {lines : List Str} {k : Nat}, i ∈ searchMethodFrom name k lines ↔
    ∃ l, k ≤ i ∧ lines[i - k]? = some l ∧ isMethod name l = true
  | [], k => by simp [searchMethodFrom]
  | a :: r, k => by
    have ih := mem_searchFrom (name := name) (i := i) (lines := r) (k := k + 1)
    have hstep : (∃ l, k ≤ i ∧ (a :: r)[i - k]? = some l ∧ isMethod name l = true) ↔
        (i = k ∧ isMethod name a = true) ∨ ∃ l, k + 1 ≤ i ∧ r[i - (k + 1)]? = some l ∧ isMethod name l = true := by
      constructor
      · rintro ⟨l, h1, h2, h3⟩
        rcases Nat.eq_or_lt_of_le h1 with rfl | hlt
        · rw [Nat.sub_self] at h2
          simp only [List.getElem?_cons_zero, Option.some.injEq] at h2
          exact .inl ⟨rfl, by rw [h2]; exact h3⟩
        · right
          refine ⟨l, hlt, ?_, h3⟩
          have : i - k = (i - (k + 1)) + 1 := by omega
          rw [this, List.getElem?_cons_succ] at h2
          exact h2
      · rintro (⟨rfl, h⟩ | ⟨l, h1, h2, h3⟩)
        · exact ⟨a, Nat.le_refl _, by simp, h⟩
        · refine ⟨l, by omega, ?_, h3⟩
          have : i - k = (i - (k + 1)) + 1 := by omega
          rw [this, List.getElem?_cons_succ]
          exact h2
    rw [hstep, ← ih, searchMethodFrom]
    by_cases ha : isMethod name a = true
    · rw [if_pos ha, List.mem_cons]
      constructor
      · rintro (h | h)
        · exact .inl ⟨h, ha⟩
        · exact .inr h
      · rintro (h | h)
        · exact .inl h.1
        · exact .inr h
    · rw [if_neg ha]
      constructor
      · exact .inr
      · rintro (h | h)
        · exact absurd h.2 ha
        · exact h

/-- The full statement of C76: the lines found for a name are those in which a method of this name is defined. -/
def FindsMethods (ok : Str → List Str → Prop) : Prop :=
  ∀ name lines, name ≠ [] → (∀ c ∈ name, nameChar c = true) → ok name lines →
    ∀ i, i ∈ searchMethod lines name ↔ ∃ l, lines[i]? = some l ∧ MethodLine name l

theorem nameChar_visible {c : Char} (h : nameChar c = true) : isSpace c = false := by
  have hn : (65 ≤ c.toNat ∧ c.toNat ≤ 90) ∨ (97 ≤ c.toNat ∧ c.toNat ≤ 122) ∨ (48 ≤ c.toNat ∧ c.toNat ≤ 57) ∨ c.toNat = 95 := by
    simp only [nameChar, Char.isAlphanum, Char.isAlpha, Char.isUpper, Char.isLower, Char.isDigit, Bool.or_eq_true, Bool.and_eq_true, decide_eq_true_eq, beq_iff_eq] at h
    rcases h with ((h | h) | h) | h
    · left; exact h
    · right; left; exact h
    · right; right; left; exact h
    · right; right; right; rw [h]; decide
  unfold isSpace
  simp only [Bool.or_eq_false_iff, Bool.and_eq_false_iff, decide_eq_false_iff_not, beq_eq_false_iff_ne]
  omega

/-- **C76, partial.** So it is if no name in the file is longer and begins with the name. -/
theorem methods_found_partial : FindsMethods (fun name lines => ∀ l ∈ lines, DefLine name l → MethodLine name l) := by
  intro name lines hne hn hok i
  rw [searchMethod, mem_searchFrom]
  simp only [Nat.zero_le, Nat.sub_zero, true_and]
  constructor
  · rintro ⟨l, h1, h2⟩
    exact ⟨l, h1, hok l (List.mem_of_getElem? h1) ((isMethod_iff hne (fun c hc => nameChar_visible (hn c hc))).mp h2)⟩
  · rintro ⟨l, h1, ind, rest, hi, rfl, _⟩
    exact ⟨_, h1, (isMethod_iff hne (fun c hc => nameChar_visible (hn c hc))).mpr ⟨ind, rest, hi, rfl⟩⟩

/-- A file with two methods that meets the hypotheses. -/
example : ∀ l ∈ [py!"class A:", py!"    @override", py!"    def from_data(self): ...", py!"    def from_yaml(self): ..."],
    DefLine py!"from_data" l → MethodLine py!"from_data" l := by
  intro l hl h
  have hm := (isMethod_iff (by simp) (by decide)).mpr h
  simp only [List.mem_cons, List.not_mem_nil, or_false] at hl
  rcases hl with rfl | rfl | rfl | rfl
  · exact absurd hm (by decide)
  · exact absurd hm (by decide)
  · exact ⟨py!"    ", py!"(self): ...", by decide, rfl, by intro c hc; simp at hc; subst hc; decide⟩
  · exact absurd hm (by decide)

/-- **C76 fails.** A method with a longer name is found as well. -/
theorem methods_found_fails : ¬ FindsMethods (fun _ _ => True) := by
  intro h
  have := (h py!"from_data" [py!"def from_database(self): ..."] (by simp) (by decide) trivial 0).mp (by decide)
  obtain ⟨l, h1, ind, rest, hi, e, hr⟩ := this
  simp only [List.getElem?_cons_zero, Option.some.injEq] at h1
  subst h1
  cases ind with
  | cons c ind =>
    injection e with e _
    have := hi c (by simp)
    rw [← e] at this
    revert this; decide
  | nil =>
    have : rest = py!"base(self): ..." := by simpa using e.symm
    subst this
    have := hr 'b' rfl
    revert this; decide

/-! ### Signatures of methods -/

/-- The full statement of C77: the signature of a method is returned with its decorators and all its lines. -/
def GetsSignature (ok : List Str → List Str → Prop) : Prop :=
  ∀ name A D head params B, name ≠ [] → (∀ c ∈ name, nameChar c = true) → (∃ p, A.getLast? = some p ∧ '@' ∉ p) → (∀ d ∈ D, '@' ∈ d) →
    MethodLine name head → ClosedBrackets (head :: params) → (∀ l ∈ params ++ B, ¬ DefLine name l) → ok D (head :: params) →
    getSignature (A ++ D ++ (head :: params) ++ B) name = .ok (join py!"\n" (D ++ head :: params))

theorem searchFrom_append (name : Str) : ∀ (k : Nat) (a b : List Str),
    searchMethodFrom name k (a ++ b) = searchMethodFrom name k a ++ searchMethodFrom name (k + a.length) b
  | k, [], b => by simp [searchMethodFrom]
  | k, x :: a, b => by
    have e : k + 1 + a.length = k + (x :: a).length := by simp; omega
    simp only [List.cons_append, searchMethodFrom]
    rw [searchFrom_append name (k + 1) a b, e]
    split <;> rfl

theorem searchFrom_none {name : Str} : ∀ {k : Nat} {a : List Str}, (∀ l ∈ a, isMethod name l = false) → searchMethodFrom name k a = []
  | _, [], _ => rfl
  | k, x :: a, h => by
    rw [searchMethodFrom, if_neg (by simp [h x (by simp)])]
    exact searchFrom_none (fun l hl => h l (by simp [hl]))

theorem above_found (A B : List Str) (p : Str) (hp : A.getLast? = some p) (hp' : '@' ∉ p) : ∀ (n : Nat) (D D' : List Str), D.length = n →
    (∀ d ∈ D, '@' ∈ d) → aboveDecorators (A ++ D ++ D' ++ B) (A.length + D.length) = A.length := by
  intro n
  induction n with
  | zero =>
    intro D D' hn _
    have : D = [] := List.length_eq_zero_iff.mp hn
    subst this
    obtain ⟨A0, rfl⟩ : ∃ A0, A = A0 ++ [p] := by
      rcases List.eq_nil_or_concat A with rfl | ⟨A0, a, rfl⟩
      · simp at hp
      · rw [List.concat_eq_append] at hp ⊢
        rw [List.getLast?_concat] at hp
        injection hp with hp
        exact ⟨A0, by rw [hp]⟩
    have e : (A0 ++ [p]).length + ([] : List Str).length = A0.length + 1 := by simp
    rw [e, aboveDecorators]
    have : ((A0 ++ [p]) ++ [] ++ D' ++ B).getD A0.length [] = p := by simp
    rw [this, if_neg (by simpa using hp')]
    simp
  | succ n ih =>
    intro D D' hn hd
    rcases List.eq_nil_or_concat D with rfl | ⟨D0, d, rfl⟩
    · cases hn
    rw [List.concat_eq_append] at hn hd ⊢
    have e : A.length + (D0 ++ [d]).length = (A.length + D0.length) + 1 := by simp; omega
    rw [e, aboveDecorators]
    have : (A ++ (D0 ++ [d]) ++ D' ++ B).getD (A.length + D0.length) [] = d := by
      have e2 : A ++ (D0 ++ [d]) ++ D' ++ B = (A ++ D0) ++ d :: (D' ++ B) := by simp
      rw [e2, List.getD_eq_getElem?_getD, List.getElem?_append_right (by simp)]
      simp
    rw [this, if_pos (by simpa using hd d (by simp))]
    have e3 : A ++ (D0 ++ [d]) ++ D' ++ B = A ++ D0 ++ (d :: D') ++ B := by simp
    rw [e3]
    exact ih D0 (d :: D') (by simp at hn; omega) (fun x hx => hd x (by simp [hx]))

theorem signatureLines_found {last : Str} {B : List Str} (hl : ')' ∈ last) : ∀ {init : List Str}, (∀ l ∈ init, ')' ∉ l ∧ ':' ∉ l) →
    signatureLines (init ++ last :: B) = .ok (init ++ [last])
  | [], _ => by simp [signatureLines, hl]
  | x :: init, h => by
    have hx := h x (by simp)
    rw [List.cons_append, signatureLines, if_neg (by simp [hx.1, hx.2]), signatureLines_found hl (fun l hh => h l (by simp [hh]))]
    rfl

theorem countIn_append (c : Char) (a b : List Str) : countIn c (a ++ b) = countIn c a + countIn c b := by simp [countIn]

/-- **C77, partial.** So it is if brackets are closed and colons occur in the last line only. -/
theorem signature_complete_partial : GetsSignature (fun D sig => ∀ l ∈ D ++ sig.dropLast, ')' ∉ l ∧ ':' ∉ l) := by
  rintro name A D head params B hne hn ⟨p, hp, hp'⟩ hD hh hc hlater hok
  have hvis : ∀ c ∈ name, isSpace c = false := fun c hc => nameChar_visible (hn c hc)
  obtain ⟨ind, rest, hi, rfl, -⟩ := hh
  generalize hhead : ind ++ py!"def " ++ name ++ rest = head at *
  have hhm : isMethod name head = true := (isMethod_iff hne hvis).mpr ⟨ind, rest, hi, hhead.symm⟩
  have hsearch : searchMethod (A ++ D ++ (head :: params) ++ B) name = searchMethodFrom name 0 (A ++ D) ++ [A.length + D.length] := by
    have e : A ++ D ++ (head :: params) ++ B = (A ++ D) ++ (head :: (params ++ B)) := by simp
    rw [e, searchMethod, searchFrom_append, searchMethodFrom, if_pos hhm, searchFrom_none (a := params ++ B)]
    · simp
    · intro l hl
      rw [← Bool.not_eq_true, isMethod_iff hne hvis]
      exact hlater l hl
  unfold getSignature searchMethodAbove
  rw [hsearch, List.map_append, List.map_cons, List.map_nil, List.getLast?_concat]
  dsimp only
  rw [above_found A B p hp hp' D.length D (head :: params) rfl hD]
  have edrop : (A ++ D ++ (head :: params) ++ B).drop A.length = D ++ (head :: params) ++ B := by simp
  rw [edrop]
  obtain ⟨init, last, hsig⟩ : ∃ init last, head :: params = init ++ [last] :=
    ⟨(head :: params).dropLast, _, (List.dropLast_concat_getLast (by simp)).symm⟩
  rw [hsig] at hok hc ⊢
  rw [List.dropLast_concat] at hok
  have hlast : ')' ∈ last := by
    obtain ⟨h0, h1, h2⟩ := hc
    simp only [countIn_append] at h0 h1
    have hs : ∀ c, countIn c [last] = List.count c last := by intro c; simp [countIn]
    rw [hs, hs] at h1
    rw [hs] at h0
    apply List.count_pos_iff.mp
    cases hin : init with
    | nil =>
      have : ∀ c, countIn c ([] : List Str) = 0 := fun _ => rfl
      rw [hin, this, this] at h1
      rw [hin, this] at h0
      omega
    | cons x t =>
      have := h2 init [last] rfl (by rw [hin]; simp) (by simp)
      omega
  have e : D ++ (init ++ [last]) ++ B = (D ++ init) ++ last :: B := by simp
  rw [e, signatureLines_found hlast hok]
  simp [Except.map]

/-- A decorated method with a signature in three lines meets the hypotheses. -/
example : MethodLine py!"load" py!"    def load(self," ∧ ClosedBrackets [py!"    def load(self,", py!"        path", py!"    ) -> None: ..."] := by
  refine ⟨⟨py!"    ", py!"(self,", by decide, rfl, by intro c hc; simp at hc; subst hc; decide⟩, by decide, by decide, ?_⟩
  intro a b e ha hb
  match a, ha with
  | [x], _ => injection e with e _; subst e; decide
  | [x, y], _ => injection e with e1 e; injection e with e2 _; subst e1; subst e2; decide
  | [x, y, z], _ =>
    injection e with _ e; injection e with _ e; injection e with _ e
    exact absurd e.symm hb
  | x :: y :: z :: w :: r, _ =>
    injection e with _ e; injection e with _ e; injection e with _ e
    cases e

/-- **C77 fails.** An annotated parameter in a line of its own ends the signature. -/
theorem signature_complete_fails : ¬ GetsSignature (fun _ _ => True) := by
  intro h
  have := h py!"load" [py!"class A:"] [] py!"    def load(self," [py!"        path: str,", py!"    ) -> None: ..."] [] (by simp) (by decide)
    ⟨_, rfl, by decide⟩ (by simp) ⟨py!"    ", py!"(self,", by decide, rfl, by intro c hc; simp at hc; subst hc; decide⟩
    ⟨by decide, by decide, by
      intro a b e ha hb
      match a, ha with
      | [x], _ => injection e with e _; subst e; decide
      | [x, y], _ => injection e with e1 e; injection e with e2 _; subst e1; subst e2; decide
      | [x, y, z], _ =>
        injection e with _ e; injection e with _ e; injection e with _ e
        exact absurd e.symm hb
      | x :: y :: z :: w :: r, _ =>
        injection e with _ e; injection e with _ e; injection e with _ e
        cases e⟩
    (by
      intro l hl hd
      have hm := (isMethod_iff (name := py!"load") (by simp) (by decide)).mpr hd
      simp only [List.append_nil, List.mem_cons, List.not_mem_nil, or_false] at hl
      rcases hl with rfl | rfl <;> revert hm <;> decide) trivial
  revert this
  decide +kernel

/-- **C77 fails.** So does a decorator with arguments: nothing of the method itself is returned. -/
theorem signature_complete_fails_decorator :
    getSignature [py!"class A:", py!"    @deprecated(since=2)", py!"    def load(self): ..."] py!"load" = .ok py!"    @deprecated(since=2)" := by
  decide +kernel

end Verif.Props
