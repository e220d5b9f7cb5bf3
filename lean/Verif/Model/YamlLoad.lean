import Verif.Model.Yaml
import Verif.Model.Live
/-
`from_yaml_file` of both generators (lazy_type_hint/generators/lazy_type_hint_abc.py:58-76). The loader belongs to the caller: any
function of the name and the content of the file it is given. Whether the temporary file can be written is an input.
-/
namespace Verif

/-- A loader: from the file name and the content (`none`: no such file) to the data, or an exception. -/
abbrev Loader (ε : Type) := Str → Option Str → Except ε Val

/-- Failures of `from_yaml_file`: opening the file for comments, the loader, `from_data`. -/
inductive YamlFail (ε δ : Type)
  | opening (e : YamlErr)
  | loader (e : ε)
  | data (e : δ)

/-- A file: its name (the last component of its path) and its content. -/
structure YamlFile where
  name : Str
  content : Option Str

/-- The name of the temporary file (yaml_file_modifier.py:429). -/
def tempName (name : Str) : Str := '_' :: name

/-- The data with the comments as hidden keys, if nothing raises (lazy_type_hint_abc.py:72-73). -/
def commentedData {ε : Type} (U : Uni) (load : Loader ε) (canWrite : Bool) (f : YamlFile) (cs : List CommentsAre) (lines : List Str) : Option Val :=
  match withHiddenKeys U cs lines with
  | .error _ => none
  | .ok text =>
    if canWrite then
      match load (tempName f.name) (some text) with
      | .ok v => some v
      | .error _ => none
    else none

/-- `LazyTypeHintABC.from_yaml_file` (lazy_type_hint_abc.py:58-76) with its `from_data`. -/
def fromYaml {ε : Type} (E : Env) (load : Loader ε) (canWrite : Bool) (f : YamlFile) (comments : Option (List CommentsAre)) (c : Str) :
    Except (YamlFail ε GenErr) Node :=
  match comments with
  | none => match load f.name f.content with
    | .error e => .error (.loader e)
    | .ok v => (fromData E c v).mapError .data
  | some cs => match yamlOpen f.name f.content cs with
    | .error e => .error (.opening e)
    | .ok lines => match load f.name f.content with
      | .error e => .error (.loader e)
      | .ok v => match commentedData E.U load canWrite f cs lines with
        | none => (fromData E c v).mapError .data
        | some v' => match fromData E c v' with
          | .ok n => .ok n
          | .error _ => (fromData E c v).mapError .data

/-- What a live call leaves behind, with another kind of failure. -/
def Run.mapError {δ α : Type} (f : LiveErr → δ) (r : Run α) : Live × Disk × List Disk × Except δ α :=
  (r.live, r.disk, r.states, r.result.mapError f)

/-- `LazyTypeHintLive.from_yaml_file` (generators/lazy_type_hint_live.py:100-110): the same with its own `from_data`, which may have
effects before it raises. -/
def Live.fromYaml {ε : Type} (E : Env) (g : Live) (d : Disk) (load : Loader ε) (canWrite : Bool) (f : YamlFile)
    (comments : Option (List CommentsAre)) (c : Str) : Live × Disk × List Disk × Except (YamlFail ε LiveErr) Val :=
  match comments with
  | none => match load f.name f.content with
    | .error e => (g, d, [d], .error (.loader e))
    | .ok v => (g.fromData E d c v).mapError .data
  | some cs => match yamlOpen f.name f.content cs with
    | .error e => (g, d, [d], .error (.opening e))
    | .ok lines => match load f.name f.content with
      | .error e => (g, d, [d], .error (.loader e))
      | .ok v => match commentedData E.U load canWrite f cs lines with
        | none => (g.fromData E d c v).mapError .data
        | some v' =>
          let r := g.fromData E d c v'
          match r.result with
          | .ok _ => r.mapError .data
          | .error _ =>
            let r2 := r.live.fromData E r.disk c v
            (r2.live, r2.disk, r.states ++ r2.states, r2.result.mapError .data)

/-- Calls of several processes share the directory of temporary files: a call writes its file, and later its loader reads it
(yaml_file_modifier.py:419-431, lazy_type_hint_abc.py:72-73). -/
inductive TempStep
  | write (i : Nat)
  | load (i : Nat)
  deriving DecidableEq

/-- The temporary files, by name, and what each call's loader got. -/
structure Temp where
  files : Str → Option Str
  got : Nat → Option Str

def Temp.empty : Temp := { files := fun _ => none, got := fun _ => none }

/-- `calls i` is the file name and the new text of call `i`. -/
def Temp.step (calls : Nat → Str × Str) (t : Temp) : TempStep → Temp
  | .write i => { t with files := fun x => if x = tempName (calls i).1 then some (calls i).2 else t.files x }
  | .load i => { t with got := fun j => if j = i then t.files (tempName (calls i).1) else t.got j }

def Temp.run (calls : Nat → Str × Str) : Temp → List TempStep → Temp
  | t, [] => t
  | t, s :: r => (t.step calls s).run calls r

end Verif
