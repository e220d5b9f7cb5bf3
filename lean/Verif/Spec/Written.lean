import Verif.Spec.Grammar
import Verif.Spec.Values
/-
Data whose classes, keys, labels and documentation can be written down in Python source.
-/
namespace Verif.Spec
open Verif

/-- ASCII letters, digits and underscores. -/
def asciiWord (c : Char) : Bool := isAscii c && (c.isAlphanum || c == '_')

/-- A class whose name consists of ASCII letters, digits and underscores. -/
def WordTy (t : Ty) : Prop := ∀ c ∈ t.name, asciiWord c = true

/-- Keys in ASCII: strings that need no escaping between quotes, and instances of classes with a proper name. -/
def WordKey : Key → Prop
  | .str s => (∀ c ∈ s, isAscii c = true) ∧ InQuotes s
  | .none => True
  | .other t r => (WordTy t ∧ Identifier t.name) ∧ ∀ c ∈ r, isAscii c = true

/-- Documentation that stays inside its triple quotes: no quotes at all, or neither three of them nor backslashes. -/
def DocText (s : Str) : Prop := '"' ∉ s ∨ (¬ py!"\"\"\"" <:+: s ∧ '\\' ∉ s)

/-- The value under a key is documentation that stays inside its quotes, if the key is one for documentation. -/
def DocEntry (docKey : Str) (k : Key) (v : Val) : Prop :=
  k.hidden = true ∨ k = .str docKey → ∀ t s, v = .inst t (some s) → DocText s

/-- A label that can be written in `Literal[...]`: a string, a number or a truth value whose `repr` is an expression. -/
def LiteralLabel (G : Copied) (repr : Str → Str) : Key → Prop
  | .str s => G.expr (repr s)
  | .none => False
  | .other t r => (t = .int ∨ t = .bool) ∧ G.expr r

/-- What is copied from the value can be written down. -/
def Written (G : Copied) (repr : Str → Str) (docKey : Str) : Val → Prop
  | .cls _ n => InQuotes n
  | .ndarray _ d => InQuotes d
  | .func f => f.isLambda = false → ∀ text n, f.sig = .ok text n → PySignature G text
  | .map k _ ks vs => (∀ kv ∈ ks.zip vs, DocEntry docKey kv.1 kv.2) ∧ ∀ i, k = .frame i → ∀ l ∈ ks, LiteralLabel G repr l
  | _ => True

/-- Data that can be written down. -/
def Writable (G : Copied) (repr : Str → Str) (docKey : Str) (v : Val) : Prop :=
  ValAll WordTy WordKey (fun _ => True) v ∧ Every (Written G repr docKey) v

/-- A class name that starts with a letter and cannot be completed to a keyword. -/
def GoodName (s : Str) : Prop :=
  (∃ c r, s = c :: r ∧ c.isAlpha = true) ∧ (∀ c ∈ s, asciiWord c = true) ∧ ∀ k ∈ keywords, ¬ s <+: k

end Verif.Spec
