import Verif.Model.Generator
import Verif.Model.PyFile
/-
The live generator (lazy_type_hint/generators/lazy_type_hint_live.py): its stub file, the directory of generated classes, and the
calls of several generators on them. Text files are read back as written (encodings and line-end translation are not modelled).
-/
namespace Verif

/-- The part of the disk that live generators use: the stub, whether the directory `build` exists, and the generated files by
class name. -/
structure Disk where
  pyi : Option Str
  build : Bool
  files : Str → Option Str

def Disk.empty : Disk := { pyi := none, build := false, files := fun _ => none }

inductive Mode | overwrite | validate
  deriving DecidableEq

/-- A generator: its settings and its copy of the stub (`this_file_pyi`). -/
structure Live where
  S : Strategies
  mode : Mode
  lines : List Str

inductive LiveErr
  /-- the class name is rejected -/
  | className
  /-- a registered class has no source file -/
  | missing (c : Str)
  /-- no `classes_created` in the stub -/
  | noRegistry
  /-- no method, or no argument `class_name`, to overload -/
  | noMethod
  | noArgument
  /-- "Error in validation" -/
  | validation
  | py (e : PyErr)
  | gen (e : GenErr ⊕ StrErr)
  deriving DecidableEq

/-- `__init__` (lazy_type_hint_live.py:65-77). -/
def newLive (S : Strategies) (mode : Mode) (d : Disk) : Except PyErr Live :=
  match d.pyi with
  | some text => .ok { S, mode, lines := splitlines text }
  | none => generateStub.map (fun lines => { S, mode, lines })

/-- `re.findall(r'"(.*?)"', s)` (lazy_type_hint_live.py:87): from each opening quote to the next one in the same line. `skip` counts the
characters of the match just found. -/
def quotedNames : Nat → Str → List Str
  | _, [] => []
  | skip + 1, _ :: r => quotedNames skip r
  | 0, c :: r =>
    if c = '"' then
      let w := r.takeWhile (fun x => x != '"' && x != '\n')
      match r.drop w.length with
      | '"' :: _ => w :: quotedNames (w.length + 1) r
      | _ => quotedNames 0 r
    else quotedNames 0 r

/-- The names in the registry of a stub, without looking for their files (lazy_type_hint_live.py:80-87). -/
def registered (lines : List Str) : Except LiveErr (List Str) :=
  match searchAssignment lines py!"classes_created" with
  | .error e => .error (.py e)
  | .ok [] => .error .noRegistry
  | .ok ((_, v) :: _) => .ok (if v = py!"Any" then [] else quotedNames 0 v)

/-- `_get_classes_added` (lazy_type_hint_live.py:79-98): the keys of the dictionary. -/
def classesAdded (lines : List Str) (d : Disk) : Except LiveErr (List Str) :=
  match registered lines with
  | .error e => .error e
  | .ok names => match names.find? (fun c => (d.files c).isNone) with
    | some c => .error (.missing c)
    | none => .ok (dedup names)

/-- `_remove_docstrings` (lazy_type_hint_live.py:147-155). -/
def removeDocstrings (s : Str) : Str :=
  if contains py!"\"\"\"" s then join py!"\n" ((splitlines s).map (fun l => if contains py!"\"\"\"" l then [] else l)) else s

/-- An edit of the stub: the lines afterwards and the exception, if any. -/
abbrev Edit := List Str → List Str × Option LiveErr

/-- `_add_class_created_to_this_file_pyi` without the final write (lazy_type_hint_live.py:232-247). -/
def addRegistry (c : Str) : Edit := fun lines =>
  match searchAssignment lines py!"classes_created" with
  | .error e => (lines, some (.py e))
  | .ok [] => (lines, some (.py .index))
  | .ok ((_, v) :: _) =>
    if v = [] then (lines, some .noRegistry)
    else
      let v' := if v = py!"Any" then py!"Union[Literal[\"" ++ c ++ py!"\"], Any]"
        else replace py!"], Any]" (py!", \"" ++ c ++ py!"\"], Any]") v
      match replaceAssignment lines py!"classes_created" v' with
      | .error e => (lines, some (.py e))
      | .ok lines' => (lines', none)

/-- `_add_import_to_this_file_pyi` without the final write (lazy_type_hint_live.py:189-196). -/
def importLine (c : Str) : Str := py!"from lazy_type_hint.generators.build." ++ c ++ py!" import " ++ c

def addClassImport (c : Str) : Edit := fun lines => (addImport lines (importLine c), none)

/-- `s[:i]` and `s[i:]` for the result of `rfind`, where `none` stands for `-1` (the index is shifted by `k` first). -/
def sliceTo (s : Str) (i : Option Nat) (k : Nat) : Str := match i with
  | some i => s.take (i + k)
  | none => if k = 0 then s.dropLast else s.take (k - 1)

def sliceFrom (s : Str) (i : Option Nat) : Str := match i with
  | some i => s.drop i
  | none => s.drop (s.length - 1)

/-- The new signature (lazy_type_hint_live.py:212-226). -/
def editSignature (c sig : Str) : Except LiveErr Str :=
  match find py!"class_name" sig with
  | none => .error .noArgument
  | some i =>
    let first := i + 10
    let hint := (sig.drop first).takeWhile (fun x => x != ',' && x != ')')
    let last := first + hint.length
    if last < sig.length then
      let s := sig.take (first + 1) ++ py!" Literal[\"" ++ c ++ py!"\"]" ++ sig.drop last
      .ok (sliceTo s (rfind py!"->" s) 3 ++ c ++ sliceFrom s (rfindChar ':' s))
    else .error (.py .index)

/-- The first overload of a method gets its decorator first (lazy_type_hint_live.py:203-208). -/
def overloadStart (method : Str) : Edit := fun lines =>
  if (searchDecorator lines py!"overload" method).isEmpty then
    match (searchMethodAbove lines method).getLast? with
    | none => (lines, some .noMethod)
    | some i => (addLine lines i (TAB ++ py!"@overload"), none)
  else (lines, none)

/-- `_add_overload_to_this_file_pyi` without the final write (lazy_type_hint_live.py:198-230). -/
def addOverload (c method : Str) : Edit := fun lines =>
  match overloadStart method lines with
  | (lines, some e) => (lines, some e)
  | (lines, none) =>
    match getSignature lines method with
    | .error e => (lines, some (.py e))
    | .ok sig => match editSignature c sig with
      | .error e => (lines, some e)
      | .ok sig' => match (searchMethodAbove lines method).getLast? with
        | none => (lines, some (.py .index))
        | some i => (addLine lines i sig', none)

/-- `_add_new_class_to_loader_pyi` (lazy_type_hint_live.py:182-187): each edit is followed by a write of the stub. -/
def newClassEdits (c : Str) : List Edit :=
  [addRegistry c, addClassImport c, addOverload c py!"from_data", addOverload c py!"from_yaml_file"]

/-- All prefixes of a text, the shortest first. -/
def prefixes (s : Str) : List Str := (List.range (s.length + 1)).map (fun n => s.take n)

def Disk.writePyi (d : Disk) (s : Str) : Disk := { d with pyi := some s }
def Disk.writeClass (d : Disk) (c s : Str) : Disk := { d with files := fun x => if x = c then some s else d.files x }

/-- What a call leaves behind: the generator, the disk, all states of the disk on the way (a file that is being written holds a prefix
of its text), and the outcome. -/
structure Run (α : Type) where
  live : Live
  disk : Disk
  states : List Disk
  result : Except LiveErr α

/-- `_update_this_file_pyi` (lazy_type_hint_live.py:249-251) after each of the edits. -/
def runEdits : List Edit → List Str → Disk → List Str × Disk × List Disk × Option LiveErr
  | [], lines, d => (lines, d, [], none)
  | e :: es, lines, d =>
    match e lines with
    | (lines', some err) => (lines', d, [], some err)
    | (lines', none) =>
      let text := join py!"\n" lines'
      let r := runEdits es lines' (d.writePyi text)
      (r.1, r.2.1, (prefixes text).map d.writePyi ++ r.2.2.1, r.2.2.2)

/-- `LazyTypeHintLive.from_data` (lazy_type_hint_live.py:112-145). -/
def Live.fromData (E : Env) (g : Live) (d : Disk) (c : Str) (v : Val) : Run Val :=
  let fail (e : LiveErr) : Run Val := { live := g, disk := d, states := [d], result := .error e }
  if nameOk E.U c then
    match classesAdded g.lines d with
    | .error e => fail e
    | .ok names =>
      match generate { E with S := g.S } c v true with
      | .error e => fail (.gen e)
      | .ok text =>
        if names.contains c && g.mode == .validate && removeDocstrings text != removeDocstrings ((d.files c).getD []) then
          fail .validation
        else
          let d1 : Disk := { d with build := true }
          let d2 := d1.writeClass c text
          let states := d :: d1 :: (prefixes text).map (d1.writeClass c)
          match classesAdded g.lines d2 with
          | .error e => { live := g, disk := d2, states, result := .error e }
          | .ok names =>
            if names.contains c then { live := g, disk := d2, states, result := .ok v }
            else
              let r := runEdits (newClassEdits c) g.lines d2
              { live := { g with lines := r.1 }, disk := r.2.1, states := states ++ r.2.2.1,
                result := match r.2.2.2 with
                  | some e => .error e
                  | none => .ok v }
  else fail .className

/-- `reset` (lazy_type_hint_live.py:157-163): the states of the disk on the way, the last one final. Removing the directory is taken to
be one step. -/
def reset (d : Disk) : List Disk :=
  [d, { d with build := false, files := fun _ => none }, { pyi := none, build := false, files := fun _ => none }]

/-- What can happen: a generator is created, asked for hints, or everything is reset. -/
inductive Event
  | new (i : Nat) (S : Strategies) (mode : Mode)
  | call (i : Nat) (c : Str) (v : Val)
  | reset

/-- The world: the disk and the generators alive. -/
structure World where
  disk : Disk
  gens : Nat → Option Live

def World.empty : World := { disk := .empty, gens := fun _ => none }

def World.step (E : Env) (w : World) : Event → World
  | .new i S mode => match newLive S mode w.disk with
    | .ok g => { w with gens := fun j => if j = i then some g else w.gens j }
    | .error _ => w
  | .call i c v => match w.gens i with
    | some g =>
      let r := g.fromData E w.disk c v
      { disk := r.disk, gens := fun j => if j = i then some r.live else w.gens j }
    | none => w
  | .reset => { w with disk := (reset w.disk).getLastD w.disk }

def World.run (E : Env) : World → List Event → World
  | w, [] => w
  | w, e :: es => (w.step E e).run E es

end Verif
