import Verif.Py.Str
/-
Signatures of Python functions, how they are printed, and which calls they accept.
-/
namespace Verif.Spec
open Verif

inductive ParamKind | positionalOnly | positional | varPositional | keywordOnly | varKeyword
  deriving DecidableEq

/-- A parameter with the texts of its annotation and default value. -/
structure Formal where
  name : Str
  kind : ParamKind := .positional
  ann : Option Str := none
  default : Option Str := none

/-- A call: the number of its positional arguments and the names of its keyword arguments. -/
structure Call where
  positional : Nat
  keywords : List Str := []

/-- The parameters that positional arguments can be given to. -/
def positionals (ps : List Formal) : List Formal := ps.filter (fun p => decide (p.kind = .positionalOnly) || decide (p.kind = .positional))

def HasVarPositional (ps : List Formal) : Prop := ∃ p ∈ ps, p.kind = .varPositional

/-- The binding rules of Python: positional arguments go to the positional parameters in order, more of them need `*args`; a keyword
goes to the parameter of its name, which must not have got an argument already, or to `**kwargs`; all other parameters need defaults. -/
def Accepts (ps : List Formal) (c : Call) : Prop :=
  (c.positional ≤ (positionals ps).length ∨ HasVarPositional ps) ∧
  (∀ k ∈ c.keywords,
    (∃ p ∈ (positionals ps).drop c.positional, p.kind = .positional ∧ p.name = k) ∨
    (∃ p ∈ ps, p.kind = .keywordOnly ∧ p.name = k) ∨
    ((∃ p ∈ ps, p.kind = .varKeyword) ∧ ∀ p ∈ ps, p.kind = .positional → p.name ≠ k)) ∧
  (∀ p ∈ (positionals ps).drop c.positional, p.default.isSome = true ∨ p.kind = .positional ∧ p.name ∈ c.keywords) ∧
  (∀ p ∈ ps, p.kind = .keywordOnly → p.default.isSome = true ∨ p.name ∈ c.keywords)

/-- A call of an object whose class has the method `__call__` with these parameters: the object is the first argument. -/
def ObjectAccepts (ps : List Formal) (c : Call) : Prop := Accepts ps { c with positional := c.positional + 1 }

/-- A call of something of type `Callable[[Any, ..., Any], Any]` with `n` arguments. -/
def CallableAccepts (n : Nat) (c : Call) : Prop := c.positional = n ∧ c.keywords = []

/-- `str(parameter)`. -/
def Formal.print (p : Formal) : Str :=
  (match p.kind with
    | .varPositional => py!"*"
    | .varKeyword => py!"**"
    | _ => []) ++ p.name ++
  (match p.ann with
    | some a => py!": " ++ a
    | none => []) ++
  (match p.default with
    | some d => (if p.ann.isSome then py!" = " else py!"=") ++ d
    | none => [])

/-- The printed parameters with the separators `/` and `*`: `slash` if a `/` is due, `star` if a `*` is due before a keyword-only parameter. -/
def printParams : (slash star : Bool) → List Formal → List Str
  | slash, _, [] => if slash then [py!"/"] else []
  | slash, star, p :: ps =>
    (if slash && p.kind != .positionalOnly then [py!"/"] else []) ++
    (if star && p.kind == .keywordOnly then [py!"*"] else []) ++
    p.print :: printParams (p.kind == .positionalOnly) (star && p.kind != .varPositional && p.kind != .keywordOnly) ps

/-- `str(inspect.signature(f))`. -/
def printSignature (ps : List Formal) (ret : Option Str) : Str :=
  py!"(" ++ join py!", " (printParams false true ps) ++ py!")" ++
  (match ret with
    | some r => py!" -> " ++ r
    | none => [])

/-- A class whose objects are called like the method `__call__` with the printed signature. -/
def protocolText (name : Str) (signature : Str) : Str := py!"class " ++ name ++ py!"(Protocol):\n    def __call__" ++ signature ++ py!": ..."

def callableText (name : Str) (n : Nat) : Str :=
  name ++ py!": TypeAlias = Callable[[" ++ join py!", " (List.replicate n py!"Any") ++ py!"], Any]"

example : printSignature [{ name := py!"a", kind := .positionalOnly }, { name := py!"b", ann := some py!"int", default := some py!"1" },
    { name := py!"c", kind := .keywordOnly, default := some py!"None" }, { name := py!"kw", kind := .varKeyword }] (some py!"str") =
    py!"(a, /, b: int = 1, *, c=None, **kw) -> str" := by decide +kernel

/-! Bodies of functions. -/

/-- Statements, as far as `return` and `yield` are concerned: a `return` with or without a value, a statement with a `yield`, a statement
that contains blocks (conditions, loops, ...), the definition of a nested function, and all others. -/
inductive Stmt
  | ret (value : Bool)
  | yield
  | block (body : List Stmt)
  | define (body : List Stmt)
  | other

mutual
/-- Does calling the function possibly give something else than `None`: it has a `return` with a value, or it is a generator? Nested
functions do not count. -/
def givesValue : Stmt → Bool
  | .ret v => v
  | .yield => true
  | .block b => givesValueAny b
  | .define _ => false
  | .other => false
def givesValueAny : List Stmt → Bool
  | [] => false
  | s :: r => givesValue s || givesValueAny r
end

mutual
/-- Is the function a generator? -/
def yields : Stmt → Bool
  | .yield => true
  | .block b => yieldsAny b
  | _ => false
def yieldsAny : List Stmt → Bool
  | [] => false
  | s :: r => yields s || yieldsAny r
end

end Verif.Spec
