import Verif.Model.CheckCode
/-
The command line of the script that runs the quality tools, and the hook it installs (check_code.py). Splitting the command line
(`argparse`) is not modelled: the options are given with their values.
-/
namespace Verif

/-- The options as `argparse` returns them (check_code.py:103-130). `--disable-parallel` is missing: its default is `True` and the option
sets it to `True`, so it always is. `--cls` is missing too. -/
structure CliArgs where
  autoLinting : Option Str := none
  onlyRun : List Str := []
  single : Str := []

/-- The attribute `auto_linting` (check_code.py:57): `None`, `True`, or the text as it was given (which is not `True`). -/
inductive AutoLinting
  | none
  | true
  | text
  deriving DecidableEq

structure CliArguments where
  auto : AutoLinting
  choice : ToolChoice

/-- `Arguments.from_argparse` (check_code.py:78-100) with `__post_init__` (68-70) and the property `tools` (72-76); `none` for a
`ValueError`. `lower` is `str.lower`. -/
def parseCli (lower : Str → Str) (a : CliArgs) : Option CliArguments :=
  let auto := match a.autoLinting with
    | .none => some AutoLinting.none
    | .some s =>
      if s.isEmpty then some .text
      else if contains py!"enable" (lower s) then some .true
      else if contains py!"disable" (lower s) then some .text
      else .none
  match auto with
  | .none => .none
  | .some auto =>
    if !a.single.isEmpty && !a.onlyRun.isEmpty then .none
    else some { auto, choice := if a.single.isEmpty then .several a.onlyRun else .single a.single }

/-- What is in the file `.git/hooks/pre-push`: the script of `PRE_PUSH_TEMPLATE` (check_code.py:35-50), or another one, with the status it
exits with. (That the shell reads the path of the repository in the script as one word is assumed.) -/
inductive HookScript
  | ours
  | other (status : Nat)

structure HookFile where
  script : HookScript
  executable : Bool

/-- `main` (check_code.py:388-420): the hook file afterwards, and the exit status. `tools` are the configured tools with their results
(`run_tool`), `none` if the configuration is refused (342-348). Exceptions that nobody catches make Python exit with 1. Files made by `open`
are not executable. -/
def checkMain (lower : Str → Str) (tools : Option (List (Str × Bool))) (a : CliArgs) (hook : Option HookFile) : Option HookFile × Nat :=
  match parseCli lower a with
  | none => (hook, 1)
  | some args => match args.auto with
    | .true => match hook with                                     -- `_setup_auto_run` (312-324)
      | some h => (some h, 0)
      | none => (some { script := .ours, executable := false }, 0)
    | .text => (none, 0)                                           -- `_disable_auto_run` (301-309)
    | .none => match tools with
      | none => (hook, 1)
      | some tools => match filterTools lower (·.1) tools args.choice with
        | none => (hook, 1)
        | some l => (hook, exitStatus (l.map (·.2)))

/-- The status of a hook: the template calls the script with `--single-tool 'all linters'` and passes on whether it succeeded
(check_code.py:40-49). -/
def hookStatus (lower : Str → Str) (tools : Option (List (Str × Bool))) (h : HookFile) : Nat := match h.script with
  | .ours => if (checkMain lower tools { single := py!"all linters" } (some h)).2 = 0 then 0 else 1
  | .other s => s

/-- Whether `git push` goes on: git runs the hook if there is one. Where files have permissions, hooks that are not executable are ignored. -/
def pushGoesOn (permissions : Bool) (lower : Str → Str) (tools : Option (List (Str × Bool))) : Option HookFile → Bool
  | none => true
  | some h => if permissions && !h.executable then true else hookStatus lower tools h == 0

/-- A sequence of calls of the script, each with the configuration and the results of the tools at its time. -/
def runScript (lower : Str → Str) (hook : Option HookFile) : List (CliArgs × Option (List (Str × Bool))) → Option HookFile
  | [] => hook
  | (a, tools) :: r => runScript lower (checkMain lower tools a hook).1 r

end Verif
