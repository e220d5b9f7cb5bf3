import Verif.Model.ResetSteps
import Verif.Spec.Together
/-
What is expected of a call while other processes reset everything.
-/
namespace Verif
open Verif

/-- The call has not begun. The resets may be anywhere. -/
def ResetSys.Begins (s : ResetSys) (g : Live) (c : Str) (v : Val) : Prop := s.caller = ⟨.start g c v, false, false⟩

/-- The call has returned or raised. -/
def ResetSys.CallOver (s : ResetSys) : Prop := s.caller.gone = true ∨ ∃ r, s.caller.proc.pc = .done r

/-- The call has returned, or raised a `FileNotFoundError`. -/
def ResetSys.CallOk (s : ResetSys) : Prop := s.caller.gone = true ∨ ∃ x, s.caller.proc.pc = .done (.ok x)

/-- The next step removes the directory of generated classes. -/
def ResetSys.RemovesDir (s : ResetSys) (i : Option Nat) : Prop := ∃ j, i = some j ∧ s.resets j = .removeDir ∧ s.disk.build = true

namespace Spec

/-- The call ends as if nobody had reset anything, but the stub may be missing. -/
def CallDespiteResets (E : Env) (P : ResetSys → List (Option Nat) → Prop) : Prop :=
  ∀ (s : ResetSys) sched g c v, s.Begins g c v → P s sched → 16 ≤ sched.count none →
    let r := g.fromData E s.disk c v
    let t := s.run E sched
    t.caller.proc = ⟨r.live, c, v, .done (r.result.mapError .live)⟩ ∧ t.caller.gone = false ∧ t.disk.build = r.disk.build ∧
      t.disk.files = r.disk.files ∧ (t.disk.pyi = none ∨ t.disk.pyi = r.disk.pyi)

/-- When the call is over, every file is missing, as it was, or complete. -/
def NothingTorn (E : Env) : Prop :=
  ∀ (s : ResetSys) sched g c v, s.Begins g c v → (s.run E sched).CallOver →
    let d := (s.run E sched).disk
    (∀ x, x ≠ c → d.files x = none ∨ d.files x = s.disk.files x) ∧
    (d.files c = none ∨ d.files c = s.disk.files c ∨ ∃ text, generate { E with S := g.S } c v true = .ok text ∧ d.files c = some text) ∧
    ((s.run E sched).CallOk → d.pyi = none ∨ d.pyi = s.disk.pyi ∨ d.pyi = some (join py!"\n" (s.run E sched).caller.proc.live.lines))

/-- When the call is over and the resets too, every class in the registry of the stub has a file. -/
def RegistryHasFiles (E : Env) (P : ResetSys → List (Option Nat) → Prop) : Prop :=
  ∀ (s : ResetSys) sched g c v, s.Begins g c v → P s sched → (s.run E sched).CallOver → (∀ j, ∃ ok, (s.run E sched).resets j = .done ok) →
    ∀ text names, (s.run E sched).disk.pyi = some text → registered (splitlines text) = .ok names →
      ∀ x ∈ names, (s.run E sched).disk.files x ≠ none

end Spec
end Verif
