import Verif.Model.Pieces
/-
What is expected of files that are written in pieces by several processes.
-/
namespace Verif
open Verif

/-- The call has opened the file and not closed it yet. -/
def FileWriter.Open (w : FileWriter) : Prop := ∃ pos, w.phase = .opened pos

/-- All calls that have the file open write the same text. -/
def SharedFile.OneText (f : SharedFile) : Prop :=
  ∀ i j v w, f.writers i = some v → f.writers j = some w → v.Open → w.Open → v.bytes = w.bytes

/-- At most one call has the file open. -/
def SharedFile.OneOpen (f : SharedFile) : Prop :=
  ∀ i j v w, f.writers i = some v → f.writers j = some w → v.Open → w.Open → i = j

namespace Spec

/-- When all calls have come to their end, the file holds the complete text of one of them, or is as before if there are none. -/
def WholeFile (P : SharedFile → List (Nat × Nat) → Prop) : Prop :=
  ∀ f sched, P f sched → (∀ i w, f.writers i = some w → w.phase = .before) →
    (∀ i w, (f.run sched).writers i = some w → w.phase = .closed) →
    ((∀ i, f.writers i = none) ∧ (f.run sched).content = f.content) ∨
    ∃ i w, f.writers i = some w ∧ (f.run sched).content = some w.bytes

end Spec
end Verif
