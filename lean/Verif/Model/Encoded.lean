import Verif.Model.Live
/-
The files of the live generator as bytes. `Path.write_text(text)` writes in the encoding of the locale and ends lines as the platform
does; `read_text(encoding="utf-8")` decodes UTF-8 and turns every line end into `\n` (CPython's `io.TextIOWrapper`).
-/
namespace Verif

abbrev Bytes := List Nat

/-- UTF-8, one character. -/
def utf8Char (c : Char) : Bytes :=
  let n := c.toNat
  if n < 0x80 then [n]
  else if n < 0x800 then [0xC0 + n / 64, 0x80 + n % 64]
  else if n < 0x10000 then [0xE0 + n / 4096, 0x80 + n / 64 % 64, 0x80 + n % 64]
  else [0xF0 + n / 262144, 0x80 + n / 4096 % 64, 0x80 + n / 64 % 64, 0x80 + n % 64]

/-- Continuation bytes. -/
def isCont (b : Nat) : Bool := 0x80 ≤ b && b < 0xC0

/-- The first character of UTF-8 bytes. Only the shortest form of a character is accepted, and no surrogates. -/
def utf8First : Bytes → Option (Char × Bytes)
  | [] => none
  | b :: r =>
    if b < 0x80 then some (Char.ofNat b, r)
    else if b < 0xC2 then none
    else if b < 0xE0 then match r with
      | x :: r => if isCont x then some (Char.ofNat ((b - 0xC0) * 64 + (x - 0x80)), r) else none
      | _ => none
    else if b < 0xF0 then match r with
      | x :: y :: r =>
        let n := (b - 0xE0) * 4096 + (x - 0x80) * 64 + (y - 0x80)
        if isCont x && isCont y && 0x800 ≤ n && (n < 0xD800 || 0xDFFF < n) then some (Char.ofNat n, r) else none
      | _ => none
    else if b < 0xF5 then match r with
      | x :: y :: z :: r =>
        let n := (b - 0xF0) * 262144 + (x - 0x80) * 4096 + (y - 0x80) * 64 + (z - 0x80)
        if isCont x && isCont y && isCont z && 0x10000 ≤ n && n < 0x110000 then some (Char.ofNat n, r) else none
      | _ => none
    else none

/-- `bytes.decode("utf-8")`; a character takes at least one byte, so that as many rounds as there are bytes suffice. -/
def utf8Decode : Nat → Bytes → Option Str
  | _, [] => some []
  | 0, _ => none
  | n + 1, bs => match utf8First bs with
    | some (c, r) => (utf8Decode n r).map (c :: ·)
    | none => none

/-- Every line end becomes `\n`. -/
def universalNewlines : Str → Str
  | [] => []
  | '\r' :: '\n' :: r => '\n' :: universalNewlines r
  | c :: r => (if c = '\r' then '\n' else c) :: universalNewlines r

/-- `path.read_text(encoding="utf-8")`; nothing stands for a `UnicodeDecodeError`. -/
def readUtf8 (bs : Bytes) : Option Str := (utf8Decode bs.length bs).map universalNewlines

/-- The locale: its encoding, which may lack characters, and whether lines end with `\r\n`. Simplified: characters are encoded one by
one, which leaves out encodings with a mark at the beginning of the text. -/
structure Locale where
  enc : Char → Option Bytes
  crlf : Bool

def encodeAll (enc : Char → Option Bytes) : Str → Option Bytes
  | [] => some []
  | c :: r => match enc c, encodeAll enc r with
    | some b, some bs => some (b ++ bs)
    | _, _ => none

/-- The bytes that `path.write_text(text)` puts into the file; nothing stands for a `UnicodeEncodeError`, which leaves the file empty. -/
def Locale.write (l : Locale) (text : Str) : Option Bytes :=
  encodeAll l.enc (text.flatMap (fun c => if c = '\n' && l.crlf then py!"\r\n" else [c]))

/-- The part of the disk that live generators use, as bytes. -/
structure ByteDisk where
  pyi : Option Bytes
  build : Bool
  files : Str → Option Bytes

/-- Which files there are: all that `_get_classes_added` looks at (lazy_type_hint_live.py:89-97). -/
def ByteDisk.present (d : ByteDisk) : Disk := { pyi := none, build := d.build, files := fun c => (d.files c).map (fun _ => []) }

def ByteDisk.writePyi (d : ByteDisk) (b : Bytes) : ByteDisk := { d with pyi := some b }
def ByteDisk.writeClass (d : ByteDisk) (c : Str) (b : Bytes) : ByteDisk := { d with files := fun x => if x = c then some b else d.files x }

inductive TextErr
  | live (e : LiveErr)
  /-- `UnicodeEncodeError` -/
  | encode
  /-- `UnicodeDecodeError` -/
  | decode
  deriving DecidableEq

/-- `__init__` (lazy_type_hint_live.py:65-77). -/
def newLiveBytes (S : Strategies) (mode : Mode) (d : ByteDisk) : Except TextErr Live :=
  match d.pyi with
  | some bs => match readUtf8 bs with
    | some text => .ok { S, mode, lines := splitlines text }
    | none => .error .decode
  | none => match generateStub with
    | .ok lines => .ok { S, mode, lines }
    | .error e => .error (.live (.py e))

structure ByteRun where
  live : Live
  disk : ByteDisk
  result : Except TextErr Val

/-- `_update_this_file_pyi` (lazy_type_hint_live.py:249-251) after each of the edits. -/
def runEditsBytes (l : Locale) : List Edit → List Str → ByteDisk → List Str × ByteDisk × Option TextErr
  | [], lines, d => (lines, d, none)
  | e :: es, lines, d =>
    match e lines with
    | (lines', some err) => (lines', d, some (.live err))
    | (lines', none) => match l.write (join py!"\n" lines') with
      | some bs => runEditsBytes l es lines' (d.writePyi bs)
      | none => (lines', d.writePyi [], some .encode)

/-- The comparison with the file of the class, if one is asked for (lazy_type_hint_live.py:124-135). -/
def compareBytes (asked : Bool) (text : Str) (file : Bytes) : Option TextErr :=
  if asked then
    match readUtf8 file with
    | none => some .decode
    | some old => if removeDocstrings text != removeDocstrings old then some (.live .validation) else none
  else none

/-- `LazyTypeHintLive.from_data` (lazy_type_hint_live.py:112-145). -/
def Live.fromDataBytes (l : Locale) (E : Env) (g : Live) (d : ByteDisk) (c : Str) (v : Val) : ByteRun :=
  let fail (e : TextErr) : ByteRun := { live := g, disk := d, result := .error e }
  if nameOk E.U c then
    match classesAdded g.lines d.present with
    | .error e => fail (.live e)
    | .ok names =>
      match generate { E with S := g.S } c v true with
      | .error e => fail (.live (.gen e))
      | .ok text =>
        match compareBytes (names.contains c && g.mode == .validate) text ((d.files c).getD []) with
        | some e => fail e
        | none =>
          let d1 : ByteDisk := { d with build := true }
          match l.write text with
          | none => { live := g, disk := d1.writeClass c [], result := .error .encode }
          | some bs =>
            let d2 := d1.writeClass c bs
            match classesAdded g.lines d2.present with
            | .error e => { live := g, disk := d2, result := .error (.live e) }
            | .ok names =>
              if names.contains c then { live := g, disk := d2, result := .ok v }
              else
                let r := runEditsBytes l (newClassEdits c) g.lines d2
                { live := { g with lines := r.1 }, disk := r.2.1,
                  result := match r.2.2 with
                    | some e => .error e
                    | none => .ok v }
  else fail (.live .className)

/-- The disk and the generators alive. -/
structure ByteWorld where
  disk : ByteDisk
  gens : Nat → Option Live

def ByteWorld.empty : ByteWorld := { disk := { pyi := none, build := false, files := fun _ => none }, gens := fun _ => none }

def ByteWorld.step (l : Locale) (E : Env) (w : ByteWorld) : Event → ByteWorld
  | .new i S mode => match newLiveBytes S mode w.disk with
    | .ok g => { w with gens := fun j => if j = i then some g else w.gens j }
    | .error _ => w
  | .call i c v => match w.gens i with
    | some g =>
      let r := g.fromDataBytes l E w.disk c v
      { disk := r.disk, gens := fun j => if j = i then some r.live else w.gens j }
    | none => w
  | .reset => { w with disk := { pyi := none, build := false, files := fun _ => none } }

/-- What the caller sees: nothing, a value, or an exception. -/
inductive Outcome
  | quiet
  | returned (v : Val)
  | raised (e : TextErr)

def ByteWorld.outcome (l : Locale) (E : Env) (w : ByteWorld) : Event → Outcome
  | .new _ S mode => match newLiveBytes S mode w.disk with
    | .ok _ => .quiet
    | .error e => .raised e
  | .call i c v => match w.gens i with
    | some g => match (g.fromDataBytes l E w.disk c v).result with
      | .ok v => .returned v
      | .error e => .raised e
    | none => .quiet
  | .reset => .quiet

/-- The outcomes of a history, and the disk at its end. -/
def ByteWorld.run (l : Locale) (E : Env) : ByteWorld → List Event → List Outcome × ByteDisk
  | w, [] => ([], w.disk)
  | w, e :: es => (w.outcome l E e :: ((w.step l E e).run l E es).1, ((w.step l E e).run l E es).2)

end Verif
