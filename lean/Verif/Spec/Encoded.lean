import Verif.Model.Encoded
/-
The files of the live generator in any locale.
-/
namespace Verif.Spec
open Verif

/-- What the caller sees if files are read back as written. -/
def seenCall (E : Env) (w : World) : Event → Outcome
  | .new _ S mode => match newLive S mode w.disk with
    | .ok _ => .quiet
    | .error e => .raised (.live (.py e))
  | .call i c v => match w.gens i with
    | some g => match (g.fromData E w.disk c v).result with
      | .ok v => .returned v
      | .error e => .raised (.live e)
    | none => .quiet
  | .reset => .quiet

def seenAll (E : Env) : World → List Event → List Outcome
  | _, [] => []
  | w, e :: es => seenCall E w e :: seenAll E (w.step E e) es

/-- A file that holds a text, for programs that read UTF-8. -/
def Reads (b : Option Bytes) (t : Option Str) : Prop := match b, t with
  | none, none => True
  | some b, some t => readUtf8 b = some t
  | _, _ => False

/-- Histories in which every call has the outcome it would have if files were read back as written, and at the end of which every file
can be read as UTF-8 and holds its text. -/
def LocaleFree (l : Locale) (E : Env) (P : List Event → Prop) : Prop :=
  ∀ hist, P hist → (ByteWorld.empty.run l E hist).1 = seenAll E World.empty hist ∧
    Reads (ByteWorld.empty.run l E hist).2.pyi (World.empty.run E hist).disk.pyi ∧
    ∀ c, Reads ((ByteWorld.empty.run l E hist).2.files c) ((World.empty.run E hist).disk.files c)

/-- The encoding is that of ASCII for the characters of ASCII. -/
def Locale.AsciiBased (l : Locale) : Prop := ∀ c, c.toNat < 128 → l.enc c = some [c.toNat]

/-- The character is written as in UTF-8, and it is not the line end that is translated when it is read. -/
def Locale.Safe (l : Locale) (c : Char) : Prop := c ≠ '\r' ∧ l.enc c = some (utf8Char c)

/-- Class names and hints consist of safe characters. -/
def SafeTexts (l : Locale) (E : Env) (hist : List Event) : Prop :=
  ∀ i c v, .call i c v ∈ hist → (∀ x ∈ c, Locale.Safe l x) ∧
    ∀ j S mode text, .new j S mode ∈ hist → generate { E with S := S } c v true = .ok text → ∀ x ∈ text, Locale.Safe l x

/-- UTF-8. -/
def utf8Locale (crlf : Bool) : Locale := { enc := fun c => some (utf8Char c), crlf }

/-- ISO 8859-1. -/
def latin1 : Locale := { enc := fun c => if c.toNat < 256 then some [c.toNat] else none, crlf := false }

end Verif.Spec
