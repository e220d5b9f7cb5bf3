import Verif.Model.Recursion
import Verif.Lemmas.Recursion
import Verif.Props.Names
import Verif.Props.Sound
/-
How deep the recursion of the generation goes (C83).
-/
namespace Verif.Props
open Verif Verif.Spec

theorem build_within {E : Env} (hE : E.Fair) {levels : Nat} {name : Str} {v : Val} (h : ¬ Nested E.S levels v) :
    build E levels true name v = buildTree E name v := by
  have h1 : build E levels true name v ≠ .error .fuel := fun e => h (fuel_nested hE e)
  have h2 := (build_final (E := E) (g := max levels (v.depth + 1)) (Nat.le_max_left ..) (root := true) (name := name) (v := v)).resolve_left h1
  rw [h2]
  exact build_fuel hE (Nat.lt_succ_self _) (Nat.le_max_right ..)

/-- **C83**: a limit on the recursion does not matter unless the data, as far as they are looked at, have as many levels, and if
they do then no hint is returned. -/
theorem recursion_exact (E : Env) (hE : E.Fair) (levels : Nat) (name : Str) (v : Val) :
    (¬ Nested E.S levels v → fromDataWithin E levels name v = fromData E name v) ∧
    (Nested E.S levels v → ∀ n, fromDataWithin E levels name v ≠ .ok n) := by
  constructor
  · intro h
    unfold fromDataWithin fromData
    rw [build_within hE h]
    rfl
  · intro h n e
    unfold fromDataWithin at e
    split at e
    · split at e
      · rename_i hb
        exact build_nested hb h
      · cases e
    · cases e

/-- **C83**: for ordinary data (see C16) the failure is the one for lack of recursion. -/
theorem recursion_error (E : Env) (hE : E.Fair) (hm : 0 < E.S.merge) (levels : Nat) (name : Str) (v : Val)
    (hn : nameOk E.U name = true) (hv : Ordinary E.U v) :
    fromDataWithin E levels name v = .error (.build .fuel) ↔ Nested E.S levels v := by
  constructor
  · intro h
    apply Classical.byContradiction
    intro hnest
    obtain ⟨n, h', _⟩ := names_always_valid_partial E hE hm name v hn hv
    rw [(recursion_exact E hE levels name v).1 hnest, h'] at h
    cases h
  · intro h
    obtain ⟨n, h', _⟩ := names_always_valid_partial E hE hm name v hn hv
    unfold fromData buildTree at h'
    rw [if_pos hn] at h'
    unfold fromDataWithin
    rw [if_pos hn]
    have hle : levels ≤ v.depth + 1 := Nat.le_succ_of_le (nested_depth h)
    rcases build_final (E := E) hle (root := true) (name := name) (v := v) with e | e
    · rw [e]
    · exfalso
      cases hb : build E levels true name v with
      | ok n => exact build_nested hb h
      | error er =>
        rw [← e, hb] at h'
        cases h'

/-- **C83**: for an object that contains itself no limit is large enough. What is seen of it from far enough away has too many
levels, however far the recursion may go. -/
theorem endless_raises (E : Env) (m : Memory) (r : Nat) (h : Endless E.S m r) (hE : E.Fair) (levels k : Nat) (hk : levels ≤ k) (name : Str) :
    (∀ n, fromDataWithin E levels name (seenFrom m k r) ≠ .ok n) ∧
    (0 < E.S.merge → nameOk E.U name = true → Ordinary E.U (seenFrom m k r) →
      fromDataWithin E levels name (seenFrom m k r) = .error (.build .fuel)) := by
  obtain ⟨path, h0, hp⟩ := h
  have hnest : Nested E.S levels (seenFrom m k r) := h0 ▸ endless_nested hp levels k 0 hk
  exact ⟨(recursion_exact E hE levels name _).2 hnest, fun hm hn hv => (recursion_error E hE hm levels name _ hn hv).mpr hnest⟩

/-- **C83**: for every other object some limit is large enough, from however far one looks at it. -/
theorem finite_succeeds (E : Env) (m : Memory) (r : Nat) (h : ¬ Endless E.S m r) (hE : E.Fair) :
    ∃ levels, ∀ k name, fromDataWithin E levels name (seenFrom m k r) = fromData E name (seenFrom m k r) := by
  obtain ⟨n, hn⟩ := shallow_of_not_endless h
  exact ⟨n, fun k name => (recursion_exact E hE n name _).1 (hn k)⟩

/-- The list `l` after `l = [1]; l.append({"a": l})`, at the address 0. -/
def knot : Memory
  | 0 => .seq .list .list [1, 2]
  | 1 => .val (.inst .int none)
  | _ => .map .dict .dict [.str py!"a"] [0]

theorem knot_endless : Endless {} knot 0 := by
  refine ⟨fun i => if i % 2 = 0 then 0 else 2, rfl, ?_⟩
  intro i
  rcases Nat.mod_two_eq_zero_or_one i with h | h
  · have h' : (i + 1) % 2 = 1 := by omega
    simp only [h, h']
    decide +kernel
  · have h' : (i + 1) % 2 = 0 := by omega
    simp only [h, h']
    decide +kernel

example : ∀ levels k, levels ≤ k → ∀ n, fromDataWithin (exEnv {}) levels py!"X" (seenFrom knot k 0) ≠ .ok n :=
  fun levels k hk => (endless_raises (exEnv {}) knot 0 knot_endless (exEnv_fair _) levels k hk py!"X").1

instance (S : Strategies) : ∀ (n : Nat) (v : Val), Decidable (Nested S n v)
  | 0, _ => isTrue trivial
  | n + 1, v =>
    have : ∀ w, Decidable (Nested S n w) := instDecidableNested S n
    inferInstanceAs (Decidable (∃ w ∈ parts S v, Nested S n w))

/-- `[[], {"a": [1]}]` needs four levels, with a limit of one element only two. -/
def twoDeep : Val := .seq .list .list [.seq .list .list [], dictOf [(py!"a", .seq .list .list [.inst .int none])]]

example : Nested {} 3 twoDeep ∧ ¬ Nested {} 4 twoDeep ∧ Nested { checkMax := 1 } 1 twoDeep ∧ ¬ Nested { checkMax := 1 } 2 twoDeep := by
  decide +kernel
example : Ordinary (exEnv {}).U twoDeep ∧ nameOk (exEnv {}).U py!"X" = true := by
  exact ⟨(plain_regular (by decide +kernel)).1, by decide +kernel⟩

end Verif.Props
