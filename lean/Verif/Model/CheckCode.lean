import Verif.Py.Str
/-
The script that runs the quality tools (check_code.py). Running a tool is not modelled: its return code and output are arguments.
-/
namespace Verif

/-- What the command line asks for: `--single-tool` (a text) or `--only-run-tools` (a list); the property `tools` (check_code.py:72-76). -/
inductive ToolChoice
  | single (s : Str)
  | several (l : List Str)

/-- `filter_tools_to_be_used` (check_code.py:358-385) on tools given with their names; `lower` is `str.lower`; `none` for a `ValueError`. -/
def filterTools {α} (lower : Str → Str) (name : α → Str) (tools : List α) (c : ToolChoice) : Option (List α) :=
  let pick (isIn : Str → Bool) :=
    if isIn py!"all linters" then some (tools.filter (fun t => name t != py!"pytest"))
    else
      let l := tools.filter (fun t => isIn (name t))
      if l.isEmpty then none else some l
  match c with
  | .single [] => some tools
  | .several [] => some tools
  | .single s => pick (fun t => contains t (lower s))
  | .several l => pick (fun t => l.contains t)

/-- What a tool did. -/
structure ToolRun where
  code : Nat
  out : Str
  err : Str

/-- The status of `run_tool` (check_code.py:228-234); `pass` is `pass_if_output_contains`. -/
def toolStatus (r : ToolRun) (pass : List Str) : Bool :=
  (r.code == 0 && !contains py!"ERROR" r.out) || pass.any (fun s => contains s r.out)

/-- The lines `run_tool` prints for a failure (check_code.py:236-247). -/
def shownLines (r : ToolRun) (pass ignore : List Str) (only : Option (List Str)) : List Str :=
  let text := if !toolStatus r pass && !r.out.isEmpty && r.err.isEmpty then r.out else r.err
  let lines := splitlines text
  match only with
  | some (k :: ks) => lines.filter (fun l => (k :: ks).any (fun o => contains o l))
  | _ => lines.filter (fun l => !ignore.any (fun i => contains i l))

/-- The exit status of `main` (check_code.py:397-420), given the results in the order in which they arrive. -/
def exitStatus (results : List Bool) : Nat := if results.contains false then 1 else 0

end Verif
