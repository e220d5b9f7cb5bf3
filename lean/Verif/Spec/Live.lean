import Verif.Model.Live
/-
What a user of live generators expects, without any stub: a list of the classes generated since the last reset and the text of each.
-/
namespace Verif.Spec
open Verif

structure LiveState where
  /-- settings of the generators alive -/
  gens : Nat → Option (Strategies × Mode)
  /-- the classes generated, in order -/
  classes : List Str
  /-- the text generated last for a class -/
  text : Str → Option Str

def LiveState.empty : LiveState := { gens := fun _ => none, classes := [], text := fun _ => none }

/-- The text that a call generates, if it is accepted: the name is a class name, the data have hints, and if the class is to be validated,
the hints are the stored ones up to documentation. -/
def LiveState.accepts (E : Env) (st : LiveState) (S : Strategies) (mode : Mode) (c : Str) (v : Val) : Option Str :=
  if nameOk E.U c then
    match generate { E with S := S } c v true with
    | .ok text =>
      if c ∈ st.classes ∧ mode = .validate ∧ removeDocstrings text ≠ removeDocstrings ((st.text c).getD []) then none else some text
    | .error _ => none
  else none

def LiveState.step (E : Env) (st : LiveState) : Event → LiveState
  | .new i S mode => { st with gens := fun j => if j = i then some (S, mode) else st.gens j }
  | .call i c v => match st.gens i with
    | none => st
    | some (S, mode) => match st.accepts E S mode c v with
      | none => st
      | some text =>
        { st with
          classes := if c ∈ st.classes then st.classes else st.classes ++ [c]
          text := fun x => if x = c then some text else st.text x }
  | .reset => { st with classes := [], text := fun _ => none }

def LiveState.run (E : Env) : LiveState → List Event → LiveState
  | st, [] => st
  | st, e :: es => (st.step E e).run E es

/-- A generator is up to date: its copy of the stub was read from the stub on disk or written to it, or is that of a new stub if there is none. -/
def UpToDate (d : Disk) (g : Live) : Prop := match d.pyi with
  | some text => g.lines = splitlines text ∨ join py!"\n" g.lines = text
  | none => generateStub = .ok g.lines

/-- Only generators that are up to date are called. -/
def CallsUpToDate (E : Env) : World → List Event → Prop
  | _, [] => True
  | w, e :: es => (match e with
      | .call i _ _ => ∀ g, w.gens i = some g → UpToDate w.disk g
      | _ => True) ∧ CallsUpToDate E (w.step E e) es

/-- Every call is made by the generator that was created last, with no reset in between. -/
def OneAtATime : Option Nat → List Event → Prop
  | _, [] => True
  | _, .new i _ _ :: es => OneAtATime (some i) es
  | cur, .call i _ _ :: es => cur = some i ∧ OneAtATime cur es
  | _, .reset :: es => OneAtATime none es

end Verif.Spec
