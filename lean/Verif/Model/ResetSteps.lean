import Verif.Model.LiveSteps
/-
A call of the live generator while other processes reset everything. Simplified: one process calls `from_data`, any number of others
call `reset`; removing the directory is one step; a file that is removed while it is open stays writable, and what is written is lost
(as POSIX demands).
-/
namespace Verif

/-- Where a call of `reset` stands (lazy_type_hint_live.py:157-163); `done false` after a `FileNotFoundError`. -/
inductive ResetPc
  /-- line 160 -/
  | dirTest
  /-- line 161 -/
  | removeDir
  /-- line 162 -/
  | stubTest
  /-- line 163 -/
  | removeStub
  | done (ok : Bool)
  deriving DecidableEq

/-- The next step of a reset. -/
def ResetPc.step : ResetPc → Disk → ResetPc × Disk
  | .dirTest, d => (if d.build then .removeDir else .stubTest, d)
  | .removeDir, d => if d.build then (.stubTest, { d with build := false, files := fun _ => none }) else (.done false, d)
  | .stubTest, d => (if d.pyi.isSome then .removeStub else .done true, d)
  | .removeStub, d => if d.pyi.isSome then (.done true, { d with pyi := none }) else (.done false, d)
  | .done ok, d => (.done ok, d)

/-- The process that calls `from_data`. `lost`: the file it has open was removed; `gone`: it has raised a `FileNotFoundError`. -/
structure Caller where
  proc : Proc
  lost : Bool
  gone : Bool

/-- The next step of the caller: that of `Proc.step`, but files cannot be read (lazy_type_hint_live.py:129) or made (line 180) in a
directory that is gone, and what is written into a removed file is lost (lines 180 and 251). -/
def Caller.step (E : Env) (r : Caller) (d : Disk) : Caller × Disk :=
  let next : Caller × Disk := ({ r with proc := (r.proc.step E d).1 }, (r.proc.step E d).2)
  if r.gone then (r, d)
  else match r.proc.pc with
    | .compare known =>
      match generate { E with S := r.proc.live.S } r.proc.c r.proc.v true with
      | .error _ => next
      | .ok _ => if known && r.proc.live.mode == .validate && (d.files r.proc.c).isNone then ({ r with gone := true }, d) else next
    | .openClass _ => if d.build then next else ({ r with gone := true }, d)
    | .writeClass _ | .writeStub _ _ => if r.lost then ({ next.1 with lost := false }, d) else next
    | _ => next

/-- The caller loses the file it has open when a reset removes it. -/
def Caller.after (r : Caller) (x : ResetPc) (d : Disk) : Caller := match x, r.proc.pc with
  | .removeDir, .writeClass _ => { r with lost := r.lost || d.build }
  | .removeStub, .writeStub _ _ => { r with lost := r.lost || d.pyi.isSome }
  | _, _ => r

/-- The caller, the processes that reset, by number, and the disk they share. -/
structure ResetSys where
  caller : Caller
  resets : Nat → ResetPc
  disk : Disk

/-- The caller (`none`) or one of the resets makes its next step. -/
def ResetSys.move (E : Env) (s : ResetSys) : Option Nat → ResetSys
  | none => { s with caller := (s.caller.step E s.disk).1, disk := (s.caller.step E s.disk).2 }
  | some j => { caller := s.caller.after (s.resets j) s.disk, disk := ((s.resets j).step s.disk).2,
                resets := fun i => if i = j then ((s.resets j).step s.disk).1 else s.resets i }

/-- The steps in the order of a schedule. -/
def ResetSys.run (E : Env) : ResetSys → List (Option Nat) → ResetSys
  | s, [] => s
  | s, i :: r => ResetSys.run E (s.move E i) r

end Verif
