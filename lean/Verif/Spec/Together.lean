import Verif.Model.LiveSteps
/-
Live calls in several processes at the same time, and what is expected of them.
-/
namespace Verif
open Verif

/-- A process that is about to call `from_data(v, class_name=c)` on the generator `g`. -/
def Proc.start (g : Live) (c : Str) (v : Val) : Proc := ⟨g, c, v, .begin⟩

/-- The calls are for different classes. -/
def Sys.Distinct (s : Sys) : Prop := ∀ i j p q, i ≠ j → s.procs i = some p → s.procs j = some q → p.c ≠ q.c

/-- No class that a generator knows has lost its file. -/
def Sys.Complete (s : Sys) : Prop :=
  ∀ i p, s.procs i = some p → ∀ names, registered p.live.lines = .ok names → ∀ n ∈ names, s.disk.files n ≠ none

/-- The process has opened the stub and not written its text yet. -/
def Proc.Writing (p : Proc) : Prop := ∃ text es, p.pc = .writeStub text es

/-- At most one process has opened the stub. -/
def Sys.OneWriter (s : Sys) : Prop := ∀ i j p q, s.procs i = some p → s.procs j = some q → p.Writing → q.Writing → i = j

/-- The process has opened the file of its class and not written its text yet. -/
def Proc.WritingClass (p : Proc) : Prop := ∃ text, p.pc = .writeClass text

/-- At most one process has opened the file of a class. -/
def Sys.OneClassWriter (s : Sys) : Prop :=
  ∀ i j p q, s.procs i = some p → s.procs j = some q → p.c = q.c → p.WritingClass → q.WritingClass → i = j

namespace Spec

/-- Calls at the same time end as if each of them were the only one, with the outcome of `Live.fromData` on the disk before: its result,
its copy of the stub and the file of its class. A call has at most 16 steps. -/
def Undisturbed (E : Env) (P : Sys → Prop) : Prop :=
  ∀ s sched i g c v, P s → (∀ j q, s.procs j = some q → q.pc = .begin) → s.procs i = some (.start g c v) → 16 ≤ sched.count i →
    (s.run E sched).procs i = some ⟨(g.fromData E s.disk c v).live, c, v, .done ((g.fromData E s.disk c v).result.mapError .live)⟩ ∧
    (s.run E sched).disk.files c = (g.fromData E s.disk c v).disk.files c

/-- When all calls have succeeded the stub is the one from before or the complete text that one of the generators holds. -/
def WholeStub (E : Env) (P : Sys → List Nat → Prop) : Prop :=
  ∀ s sched, P s sched → (∀ j q, s.procs j = some q → q.pc = .begin) → (∀ j q, (s.run E sched).procs j = some q → q.pc = .done (.ok q.v)) →
    (s.run E sched).disk.pyi = s.disk.pyi ∨
    ∃ j q, (s.run E sched).procs j = some q ∧ (s.run E sched).disk.pyi = some (join py!"\n" q.live.lines)

/-- When all calls have succeeded the file of every class is the one from before or the complete text that one of the calls
for this class generates. -/
def WholeClass (E : Env) (P : Sys → List Nat → Prop) : Prop :=
  ∀ s sched, P s sched → (∀ j q, s.procs j = some q → q.pc = .begin) → (∀ j q, (s.run E sched).procs j = some q → q.pc = .done (.ok q.v)) →
    ∀ x, ((∀ j q, s.procs j = some q → q.c ≠ x) ∧ (s.run E sched).disk.files x = s.disk.files x) ∨
      ∃ j q text, s.procs j = some q ∧ q.c = x ∧ generate { E with S := q.live.S } x q.v true = .ok text ∧
        (s.run E sched).disk.files x = some text

end Spec
end Verif
