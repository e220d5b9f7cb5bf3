import Verif.Model.Iter
import Verif.Py.Str
/-
Loops over the children of a tree (C84).
-/
namespace Verif.Props
open Verif

/-- The children that a loop is meant to visit: all, for a mapping those before a `None` key (see C42). -/
def toVisit {α} (t : IterTree α) : List α :=
  match t.kind with
  | .simple => []
  | .index => t.children.map (·.2)
  | .keys => (t.children.takeWhile fun c => c.1 != .none).map (·.2)

/-- The full statement: a loop visits all children in order, whatever its body does, as long as that comes to an end. -/
def LoopsVisit {α} (T : Nat → IterTree α) (i : Nat) (ok : (α → Cursors → Option Cursors) → Prop) : Prop :=
  ∀ (body : α → Cursors → Option Cursors), (∀ c s, (body c s).isSome) → ok body →
    ∀ s, ∃ steps s', forLoop T i body steps s = some (toVisit (T i), s')

theorem next_some {α} {t : IterTree α} {p : Nat} {c : α} (h : (toVisit t)[p]? = some c) : nextChild t p = (some c, p + 1) := by
  unfold toVisit at h
  unfold nextChild
  cases hk : t.kind with
  | simple => rw [hk] at h; simp at h
  | index =>
    rw [hk] at h
    simp only [List.getElem?_map, Option.map_eq_some_iff] at h
    obtain ⟨x, hx, rfl⟩ := h
    simp [hx]
  | keys =>
    rw [hk] at h
    simp only [List.getElem?_map, Option.map_eq_some_iff] at h
    obtain ⟨x, hx, rfl⟩ := h
    have hx' : t.children[p]? = some x := by
      have hpre := List.takeWhile_prefix (fun c : Key × α => c.1 != .none) (l := t.children)
      obtain ⟨r, hr⟩ := hpre
      rw [← hr, List.getElem?_append_left (by
        rcases Nat.lt_or_ge p (t.children.takeWhile fun c => c.1 != .none).length with h | h
        · exact h
        · rw [List.getElem?_eq_none h] at hx; cases hx)]
      exact hx
    have hm : x ∈ t.children.takeWhile fun c => c.1 != .none := List.mem_of_getElem? hx
    have hn : x.1 ≠ .none := by
      have := List.all_takeWhile (l := t.children) (p := fun c : Key × α => c.1 != .none)
      rw [List.all_eq_true] at this
      simpa using this x hm
    obtain ⟨k, c⟩ := x
    cases k with
    | none => exact absurd rfl hn
    | str s => simp only [hx']
    | other t r => simp only [hx']

theorem next_none {α} {t : IterTree α} {p : Nat} (h : p = (toVisit t).length) : (nextChild t p).1 = none := by
  subst h
  unfold toVisit nextChild
  cases hk : t.kind with
  | simple => rfl
  | index => simp
  | keys =>
    simp only [List.length_map]
    cases hx : t.children[(t.children.takeWhile fun c => c.1 != .none).length]? with
    | none => rfl
    | some x =>
      have hx : (t.children.dropWhile fun c => c.1 != .none)[0]? = some x := by
        have happ : ∀ (a b : List (Key × α)), a ++ b = t.children → t.children[a.length]? = b[0]? := by
          intro a b h
          rw [← h, List.getElem?_append_right (Nat.le_refl _), Nat.sub_self]
        rw [← happ _ _ List.takeWhile_append_dropWhile]
        exact hx
      have hd : (t.children.dropWhile fun c => c.1 != .none).head? = some x := by
        rw [List.head?_eq_getElem?]; exact hx
      have := List.head?_dropWhile_not (fun c : Key × α => c.1 != .none) t.children
      rw [hd] at this
      obtain ⟨k, c⟩ := x
      have hk : k = .none := by simpa using this
      subst hk
      rfl

theorem loop_rest {α} {T : Nat → IterTree α} {i : Nat} {body : α → Cursors → Option Cursors} (hend : ∀ c s, (body c s).isSome)
    (hb : ∀ c s s', body c s = some s' → s' i = s i) : ∀ (rest done : List α), done ++ rest = toVisit (T i) → ∀ s : Cursors, s i = done.length →
    ∃ s', loopFrom T i body (rest.length + 1) s = some (rest, s')
  | [], done, h, s, hs => by
    refine ⟨s.set i (nextChild (T i) (s i)).2, ?_⟩
    have : (nextChild (T i) (s i)).1 = none := next_none (by rw [hs, ← h]; simp)
    simp only [loopFrom, List.length_nil]
    generalize hn : nextChild (T i) (s i) = r at this ⊢
    obtain ⟨a, b⟩ := r
    simp only at this
    subst this
    rfl
  | c :: rest, done, h, s, hs => by
    have hn : nextChild (T i) (s i) = (some c, s i + 1) := next_some (by rw [hs, ← h]; simp)
    obtain ⟨s1, h1⟩ := Option.isSome_iff_exists.mp (hend c (s.set i (s i + 1)))
    have hs1 : s1 i = (done ++ [c]).length := by
      rw [hb _ _ _ h1]
      simp [Cursors.set, hs]
    obtain ⟨s', h'⟩ := loop_rest hend hb rest (done ++ [c]) (by simpa using h) s1 hs1
    refine ⟨s', ?_⟩
    rw [List.length_cons, loopFrom, hn]
    simp only [h1, h', Option.map_some]

/-- **C84** for loops whose body leaves the position of the same tree alone. It may loop over all other trees. -/
theorem loop_visits_partial {α} (T : Nat → IterTree α) (i : Nat) :
    LoopsVisit T i (fun body => ∀ c s s', body c s = some s' → s' i = s i) := by
  intro body hend hb s
  obtain ⟨s', h⟩ := loop_rest hend hb (toVisit (T i)) [] rfl (s.set i 0) (by simp [Cursors.set])
  exact ⟨_, s', h⟩

theorem loop_keeps {α} {T : Nat → IterTree α} {i j : Nat} (hij : j ≠ i) {body : α → Cursors → Option Cursors}
    (hb : ∀ c s s', body c s = some s' → s' j = s j) :
    ∀ (steps : Nat) (s : Cursors) (r : List α × Cursors), loopFrom T i body steps s = some r → r.2 j = s j
  | 0, _, _, h => by cases h
  | steps + 1, s, r, h => by
    rw [loopFrom] at h
    generalize hn : nextChild (T i) (s i) = n at h
    obtain ⟨o, pos⟩ := n
    cases o with
    | none =>
      simp only [Option.some.injEq] at h
      rw [← h]
      simp [Cursors.set, hij]
    | some c =>
      simp only at h
      cases h1 : body c (s.set i pos) with
      | none => rw [h1] at h; cases h
      | some s1 =>
        rw [h1] at h
        simp only [Option.map_eq_some_iff] at h
        obtain ⟨r1, h2, rfl⟩ := h
        rw [loop_keeps hij hb steps s1 r1 h2, hb _ _ _ h1]
        simp [Cursors.set, hij]

/-- A loop over one tree leaves the positions of the others alone, unless its body moves them. -/
theorem loop_leaves_others {α} (T : Nat → IterTree α) {i j : Nat} (hij : j ≠ i) (body : α → Cursors → Option Cursors)
    (hb : ∀ c s s', body c s = some s' → s' j = s j) (steps : Nat) (s : Cursors) (visited : List α) (s' : Cursors)
    (h : forLoop T i body steps s = some (visited, s')) : s' j = s j := by
  have h1 := loop_keeps hij hb steps (s.set i 0) _ h
  simpa [Cursors.set, hij] using h1

/-- So **C84** holds of a loop in which each child, another tree, is itself looped over: the outer loop visits all children, and so does
each of the inner ones. -/
theorem nested_loops_visit {α} (T : Nat → IterTree α) (i : Nat) (tree : α → Nat) (ho : ∀ c, tree c ≠ i) (s : Cursors) :
    (∃ steps s', forLoop T i (fun c s => (forLoop T (tree c) (fun _ s => some s) ((toVisit (T (tree c))).length + 1) s).map (·.2)) steps s =
      some (toVisit (T i), s')) ∧
    ∀ c s, ∃ s', forLoop T (tree c) (fun _ s => some s) ((toVisit (T (tree c))).length + 1) s = some (toVisit (T (tree c)), s') := by
  have hin : ∀ c s, ∃ s', forLoop T (tree c) (fun _ s => some s) ((toVisit (T (tree c))).length + 1) s = some (toVisit (T (tree c)), s') :=
    fun c s => loop_rest (fun _ _ => rfl) (fun _ _ _ h => by cases h; rfl) (toVisit (T (tree c))) [] rfl (s.set (tree c) 0) (by simp [Cursors.set])
  refine ⟨loop_visits_partial T i _ ?_ ?_ s, hin⟩
  · intro c s
    obtain ⟨s', h⟩ := hin c s
    rw [h]
    rfl
  · intro c s s' h
    obtain ⟨s1, h1⟩ := hin c s
    simp only [h1, Option.map_some, Option.some.injEq] at h
    subst h
    exact loop_leaves_others T (ho c).symm _ (fun _ _ _ h => by cases h; rfl) _ _ _ _ h1

/-- A loop over the same tree, inside of the loop. -/
def innerLoop {α} (T : Nat → IterTree α) (i : Nat) : α → Cursors → Option Cursors :=
  fun _ s => (forLoop T i (fun _ s => some s) ((toVisit (T i)).length + 1) s).map (·.2)

/-- A test like `x in tree`, which finds the first child and stops. -/
def lookFirst {α} (T : Nat → IterTree α) (i : Nat) : α → Cursors → Option Cursors :=
  fun _ s => some (s.set i (nextChild (T i) 0).2)

theorem loop_end {α} {T : Nat → IterTree α} {i : Nat} : ∀ (rest done : List α), done ++ rest = toVisit (T i) → ∀ s : Cursors, s i = done.length →
    ∃ s', loopFrom T i (fun _ s => some s) (rest.length + 1) s = some (rest, s') ∧ s' i = (nextChild (T i) (toVisit (T i)).length).2
  | [], done, h, s, hs => by
    have hl : s i = (toVisit (T i)).length := by rw [hs, ← h]; simp
    refine ⟨s.set i (nextChild (T i) (s i)).2, ?_, by simp [Cursors.set, hl]⟩
    have : (nextChild (T i) (s i)).1 = none := next_none hl
    simp only [loopFrom, List.length_nil]
    generalize hn : nextChild (T i) (s i) = r at this ⊢
    obtain ⟨a, b⟩ := r
    simp only at this
    subst this
    rfl
  | c :: rest, done, h, s, hs => by
    have hn : nextChild (T i) (s i) = (some c, s i + 1) := next_some (by rw [hs, ← h]; simp)
    obtain ⟨s', h', he⟩ := loop_end rest (done ++ [c]) (by simpa using h) (s.set i (s i + 1)) (by simp [Cursors.set, hs])
    refine ⟨s', ?_, he⟩
    rw [List.length_cons, loopFrom, hn]
    simp only [h', Option.map_some]

/-- **C84** is false for a loop inside of a loop over the same sequence: the outer loop ends after its first child. -/
theorem loop_visits_fails_nested {α} (T : Nat → IterTree α) (i : Nat) (hk : (T i).kind = .index) (c : α) (rest : List α) (hc : toVisit (T i) = c :: rest)
    (steps : Nat) (s : Cursors) : ∃ s', forLoop T i (innerLoop T i) (steps + 2) s = some ([c], s') := by
  have hn : nextChild (T i) 0 = (some c, 1) := next_some (by rw [hc]; rfl)
  obtain ⟨s1, h1, he⟩ := loop_end (T := T) (i := i) (toVisit (T i)) [] rfl (((s.set i 0).set i 1).set i 0) (by simp [Cursors.set])
  have hb : innerLoop T i c ((s.set i 0).set i 1) = some s1 := by
    unfold innerLoop forLoop
    rw [h1]
    rfl
  have hlen : (toVisit (T i)).length = (T i).children.length := by unfold toVisit; rw [hk]; simp
  have hend : nextChild (T i) (toVisit (T i)).length = (none, (toVisit (T i)).length) := by
    unfold nextChild
    rw [hk, hlen]
    simp
  have h2 : nextChild (T i) (s1 i) = (none, (toVisit (T i)).length) := by
    rw [he, hend]
    exact hend
  refine ⟨s1.set i (toVisit (T i)).length, ?_⟩
  unfold forLoop
  have h0 : (s.set i 0) i = 0 := by simp [Cursors.set]
  rw [loopFrom, h0, hn]
  simp only [hb]
  rw [loopFrom, h2]
  rfl

/-- **C84** is false for a body that looks for something in the same tree: the loop never ends if there are two children. -/
theorem loop_visits_fails_endless {α} (T : Nat → IterTree α) (i : Nat) (a b : α) (rest : List α) (hc : toVisit (T i) = a :: b :: rest)
    (steps : Nat) (s : Cursors) : forLoop T i (lookFirst T i) steps s = none := by
  have h0 : nextChild (T i) 0 = (some a, 1) := next_some (by rw [hc]; rfl)
  have h1 : nextChild (T i) 1 = (some b, 2) := next_some (by rw [hc]; rfl)
  have key : ∀ steps (s : Cursors), s i = 1 → loopFrom T i (lookFirst T i) steps s = none := by
    intro steps
    induction steps with
    | zero => intros; rfl
    | succ n ih =>
      intro s hs
      rw [loopFrom, hs, h1]
      simp only [lookFirst, h0]
      rw [ih _ (by simp [Cursors.set])]
      rfl
  unfold forLoop
  cases steps with
  | zero => rfl
  | succ n =>
    rw [loopFrom, show (s.set i 0) i = 0 by simp [Cursors.set], h0]
    simp only [lookFirst, h0]
    rw [key _ _ (by simp [Cursors.set])]
    rfl

/-- **C84** is false, for every tree with two children. -/
theorem loop_visits_fails {α} (T : Nat → IterTree α) (i : Nat) (a b : α) (rest : List α) (hc : toVisit (T i) = a :: b :: rest) :
    ¬ LoopsVisit T i (fun _ => True) := by
  intro h
  obtain ⟨steps, s', h⟩ := h (lookFirst T i) (fun _ _ => rfl) trivial (fun _ => 0)
  rw [loop_visits_fails_endless T i a b rest hc] at h
  cases h

/-- The tree of a dictionary with two keys, and, as its second child, one of a list with three elements. -/
def twoTrees : Nat → IterTree Nat
  | 0 => ⟨.keys, [(.str py!"a", 10), (.str py!"b", 1)]⟩
  | 1 => ⟨.index, [(.str [], 20), (.str [], 30), (.str [], 40)]⟩
  | _ => ⟨.simple, []⟩

example : toVisit (twoTrees 0) = [10, 1] ∧ toVisit (twoTrees 1) = [20, 30, 40] := by decide
example : (forLoop twoTrees 0 (fun _ s => (forLoop twoTrees 1 (fun _ s => some s) 9 s).map (·.2)) 9 (fun _ => 0)).map (·.1) = some [10, 1] := by decide
example : ∀ c : Nat, (fun c => if c = 1 then 1 else 2) c ≠ 0 := by intro c; dsimp only; split <;> decide
example : (forLoop twoTrees 1 (innerLoop twoTrees 1) 9 (fun _ => 0)).map (·.1) = some [20] := by decide
example : ∀ (c : Nat) s s', ((forLoop twoTrees 1 (fun _ s => some s) 9 s).map (·.2)) = some s' → s' 0 = s 0 := by
  intro c s s' h
  simp [forLoop, loopFrom, nextChild, twoTrees, Cursors.set] at h
  rw [← h]
  rfl

end Verif.Props
