import Verif.Model.PushHook
/-
Checks before code is pushed.
-/
namespace Verif.Spec
open Verif

/-- The call asks to switch automatic checks on or off. -/
def Switches (lower : Str → Str) (a : CliArgs) (on : Bool) : Prop :=
  ∃ s, a.autoLinting = some s ∧ lower s = (if on then py!"enable" else py!"disable") ∧ (a.single = [] ∨ a.onlyRun = [])

/-- The call has nothing to do with automatic checks. -/
def JustRuns (a : CliArgs) : Prop := a.autoLinting = none

/-- Whether automatic checks are on after a sequence of calls, all of which switch them on or off, or just run the tools. -/
inductive Guarded (lower : Str → Str) : List CliArgs → Bool → Prop
  | start : Guarded lower [] false
  | switch {l : List CliArgs} {a : CliArgs} {before on : Bool} : Guarded lower l before → Switches lower a on → Guarded lower (l ++ [a]) on
  | run {l : List CliArgs} {a : CliArgs} {on : Bool} : Guarded lower l on → JustRuns a → Guarded lower (l ++ [a]) on

/-- Every tool but the tests passes. -/
def LintersPass (tools : List (Str × Bool)) : Prop := ∀ t ∈ tools, t.1 ≠ py!"pytest" → t.2 = true

/-- The tools chosen by name pass, and there are some. -/
def ChosenPass (tools : List (Str × Bool)) (l : List Str) : Prop :=
  (l = [] → ∀ t ∈ tools, t.2 = true) ∧ (py!"all linters" ∈ l → LintersPass tools) ∧
  (l ≠ [] → py!"all linters" ∉ l → (∃ t ∈ tools, t.1 ∈ l) ∧ ∀ t ∈ tools, t.1 ∈ l → t.2 = true)

end Verif.Spec
