import Verif.Model.Live
/-
Live generators in several processes at the same time. A call is a sequence of steps on the disk, and the steps of several calls
may be interleaved in any way. Simplified: the files of the registered classes are looked up in one step, a text is written in one
step after the file was opened, and nobody calls `reset` in the meantime.
-/
namespace Verif

/-- Failures: those of `Model/Live`, and the `FileExistsError` of `os.makedirs`. -/
inductive StepErr
  | live (e : LiveErr)
  | dirExists
  deriving DecidableEq

/-- Where a call of `from_data` stands (lazy_type_hint_live.py:112-145). -/
inductive Pc
  /-- line 118 -/
  | begin
  /-- line 124, after the look at the registered classes -/
  | compare (known : Bool)
  /-- `if not ...exists()` (line 176) -/
  | dirTest (text : Str)
  /-- `os.makedirs` (line 177) -/
  | makeDir (text : Str)
  /-- `path.write_text` (line 180) opens the file, which makes it empty -/
  | openClass (text : Str)
  /-- ... and writes the text -/
  | writeClass (text : Str)
  /-- line 142 -/
  | check
  /-- the edits of the stub that are left (lines 182-187); the next step makes one of them and opens the stub -/
  | edit (es : List Edit)
  /-- `write_text` (line 251) -/
  | writeStub (text : Str) (es : List Edit)
  | done (r : Except StepErr Val)

/-- A process that calls `from_data(v, class_name=c)`. -/
structure Proc where
  live : Live
  c : Str
  v : Val
  pc : Pc

/-- A text written from the beginning of a file that holds `old`: what lies behind it stays. -/
def overlay (text old : Str) : Str := text ++ old.drop text.length

/-- The next step of a process. -/
def Proc.step (E : Env) (p : Proc) (d : Disk) : Proc × Disk :=
  let stop (e : LiveErr) : Proc := { p with pc := .done (.error (.live e)) }
  match p.pc with
  | .begin =>
    if nameOk E.U p.c then
      match classesAdded p.live.lines d with
      | .error e => (stop e, d)
      | .ok names => ({ p with pc := .compare (names.contains p.c) }, d)
    else (stop .className, d)
  | .compare known =>
    match generate { E with S := p.live.S } p.c p.v true with
    | .error e => (stop (.gen e), d)
    | .ok text =>
      if known && p.live.mode == .validate && removeDocstrings text != removeDocstrings ((d.files p.c).getD []) then (stop .validation, d)
      else ({ p with pc := .dirTest text }, d)
  | .dirTest text => ({ p with pc := if d.build then .openClass text else .makeDir text }, d)
  | .makeDir text =>
    if d.build then ({ p with pc := .done (.error .dirExists) }, d)
    else ({ p with pc := .openClass text }, { d with build := true })
  | .openClass text => ({ p with pc := .writeClass text }, d.writeClass p.c [])
  | .writeClass text => ({ p with pc := .check }, d.writeClass p.c (overlay text ((d.files p.c).getD [])))
  | .check =>
    match classesAdded p.live.lines d with
    | .error e => (stop e, d)
    | .ok names => ({ p with pc := if names.contains p.c then .done (.ok p.v) else .edit (newClassEdits p.c) }, d)
  | .edit [] => ({ p with pc := .done (.ok p.v) }, d)
  | .edit (e :: es) =>
    match e p.live.lines with
    | (lines, some err) => ({ p with live := { p.live with lines }, pc := .done (.error (.live err)) }, d)
    | (lines, none) => ({ p with live := { p.live with lines }, pc := .writeStub (join py!"\n" lines) es }, d.writePyi [])
  | .writeStub text es => ({ p with pc := .edit es }, d.writePyi (overlay text (d.pyi.getD [])))
  | .done _ => (p, d)

/-- `n` steps of a process that nobody interrupts. -/
def Proc.alone (E : Env) : Nat → Proc → Disk → Proc × Disk
  | 0, p, d => (p, d)
  | n + 1, p, d => Proc.alone E n (p.step E d).1 (p.step E d).2

/-- Processes, by number, and the disk they share. -/
structure Sys where
  procs : Nat → Option Proc
  disk : Disk

/-- The process `i` makes its next step. -/
def Sys.move (E : Env) (s : Sys) (i : Nat) : Sys :=
  match s.procs i with
  | none => s
  | some p => { procs := fun j => if j = i then some (p.step E s.disk).1 else s.procs j, disk := (p.step E s.disk).2 }

/-- The steps in the order of a schedule. -/
def Sys.run (E : Env) : Sys → List Nat → Sys
  | s, [] => s
  | s, i :: r => Sys.run E (s.move E i) r

end Verif
