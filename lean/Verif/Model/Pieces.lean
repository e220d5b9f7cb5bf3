/-
Processes that write the same file with `Path.write_text` at the same time, seen as the operating system sees it: a file is opened
(which empties it), written piece by piece and closed.
-/
namespace Verif

/-- How far a call of `write_text` is. -/
inductive WritePhase
  | before
  | opened (pos : Nat)
  | closed
  deriving DecidableEq

/-- A call of `path.write_text(text)`, with the encoded text (lazy_type_hint_live.py:180, 251; yaml_file_modifier.py:430;
lazy_type_hint_abc.py:44). -/
structure FileWriter where
  bytes : List UInt8
  phase : WritePhase
  deriving DecidableEq

/-- A file, if it exists, and the calls that write it. -/
structure SharedFile where
  content : Option (List UInt8)
  writers : Nat → Option FileWriter

/-- The POSIX call `write` at an offset: bytes that are already there are overwritten, and a gap behind the end of the file is filled with
zeros. Writing nothing has no effect. -/
def writeAt (c : List UInt8) (pos : Nat) (s : List UInt8) : List UInt8 :=
  if s.isEmpty then c else c.take pos ++ List.replicate (pos - c.length) 0 ++ s ++ c.drop (pos + s.length)

/-- The next step of one call (the `write_text` of `pathlib`, called in the lines above): it opens and empties the file, writes at most `n`
further bytes at its own offset, or closes the file after the last byte. Simplified: opening and writing do not fail. -/
def FileWriter.step (w : FileWriter) (content : Option (List UInt8)) (n : Nat) : FileWriter × Option (List UInt8) :=
  match w.phase with
  | .before => ({ w with phase := .opened 0 }, some [])
  | .opened pos =>
    if pos < w.bytes.length then
      ({ w with phase := .opened (pos + ((w.bytes.drop pos).take n).length) }, content.map (writeAt · pos ((w.bytes.drop pos).take n)))
    else ({ w with phase := .closed }, content)
  | .closed => (w, content)

/-- A step of the call `i`. -/
def SharedFile.step (f : SharedFile) (i n : Nat) : SharedFile :=
  match f.writers i with
  | none => f
  | some w => { content := (w.step f.content n).2, writers := fun j => if j = i then some (w.step f.content n).1 else f.writers j }

/-- Steps of the calls in some order, each with the size of the piece to write. -/
def SharedFile.run (f : SharedFile) : List (Nat × Nat) → SharedFile
  | [] => f
  | a :: r => (f.step a.1 a.2).run r

end Verif
