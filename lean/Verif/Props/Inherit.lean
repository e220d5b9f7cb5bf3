import Verif.Props.Layout
/-
The option to declare the requested class as a subclass of the hint.
-/
namespace Verif.Props
open Verif Verif.Spec

/-- The text of the class that inherits from the renamed hint. -/
def subclassText (name : Str) : Str := py!"class " ++ name ++ py!"(_" ++ name ++ py!"):\n    ..."

/-- The full statement of C78: with the option, the last declaration gets an underscore before its name, a subclass of the old
name follows, and all other strings stay as they are. -/
def InheritsHint (E : Env) (ok : TDecl → Prop) : Prop :=
  ∀ (n : Node) (imports : Bool) (before : List Str) (d : TDecl), nodeStrings E n imports = .ok (before ++ [d.print]) →
    nameOk E.U d.name = true → ok d →
    toStringInherit E n imports = .ok (formatNodeStrings (before ++ [TDecl.print ⟨'_' :: d.name, d.body⟩, subclassText d.name]))

theorem rename_const (U : Uni) (f : Str → Str) (d : Str) :
    renameDeclaration U f d = renameDeclaration U (fun _ => f (renameDeclaration U f d).2) d := by
  by_cases h : '=' ∈ d
  · cases hs : splitChar '=' d with
    | nil => simp [renameDeclaration, h, hs]
    | cons a r => simp [renameDeclaration, h, hs]
  · by_cases hc : startsWith d py!"class " = true
    · cases hs : classSearch U d with
      | none => simp [renameDeclaration, h, hs]
      | some old => simp [renameDeclaration, h, hc, hs]
    · simp [renameDeclaration, h, hc]

theorem rename_old (U : Uni) (f g : Str → Str) (d : Str) : (renameDeclaration U f d).2 = (renameDeclaration U g d).2 := by
  by_cases h : '=' ∈ d
  · cases hs : splitChar '=' d with
    | nil => simp [renameDeclaration, h, hs]
    | cons a r => simp [renameDeclaration, h, hs]
  · by_cases hc : startsWith d py!"class " = true
    · cases hs : classSearch U d with
      | none => simp [renameDeclaration, h, hs]
      | some old => simp [renameDeclaration, h, hc, hs]
    · simp [renameDeclaration, h, hc]

theorem inherit_strings {E : Env} {n : Node} {imports : Bool} {strs : List Str} (h : nodeStrings E n imports = .ok strs) :
    toStringInherit E n imports = .ok (formatNodeStrings (inheritStrings E.U strs)) := by
  unfold toStringInherit
  rw [h]
  rfl

theorem inherit_class (U : Uni) (before : List Str) (d : TDecl) (hn : nameOk U d.name = true)
    (hd : '=' ∉ d.print ∧ ∃ rest, (∀ new, TDecl.print ⟨new, d.body⟩ = py!"class " ++ new ++ rest) ∧
      (∀ c, rest.head? = some c → c = '(') ∧ NoClassWord rest) :
    inheritStrings U (before ++ [d.print]) = before ++ [TDecl.print ⟨'_' :: d.name, d.body⟩, subclassText d.name] := by
  have h := rename_declaration_partial U d ('_' :: d.name) hn hd
  have h2 : (renameDeclaration U (fun n => '_' :: n) d.print).2 = d.name := by
    rw [rename_old U _ (fun _ => '_' :: d.name), h]
  have h3 : renameDeclaration U (fun n => '_' :: n) d.print = (TDecl.print ⟨'_' :: d.name, d.body⟩, d.name) := by
    rw [rename_const, h2, h]
  unfold inheritStrings
  rw [List.getLast?_concat]
  dsimp only
  rw [h3, List.dropLast_concat]
  simp [subclassText, TAB]

/-- **C78, partial.** So it is for declarations in class syntax that contain no `=` and, after the name, no word that ends in
`class` before white space. Missing: aliases (`inherit_alias`) and functional TypedDicts (`inherit_functional`), for which the
claim is false. -/
theorem inherit_partial (E : Env) :
    InheritsHint E (fun d => '=' ∉ d.print ∧ ∃ rest, (∀ new, TDecl.print ⟨new, d.body⟩ = py!"class " ++ new ++ rest) ∧
      (∀ c, rest.head? = some c → c = '(') ∧ NoClassWord rest) := by
  intro n imports before d h hn hd
  rw [inherit_strings h, inherit_class E.U before d hn hd]

/-- The text for a dictionary. -/
example : (match fromData (exEnv {}) py!"X" (.dict [(.str py!"a", .inst .int none)]) with
    | .ok n => toStringInherit (exEnv {}) n false
    | .error _ => .ok []) = .ok py!"class _X(TypedDict):\n    a: int\n\n\nclass X(_X):\n    ..." := by decide +kernel

/-- **C78 fails.** For an alias the class statement is given the annotation as part of its name, so the text is no Python. -/
theorem inherit_fails : ¬ InheritsHint (exEnv {}) (fun _ => True) := by
  intro h
  have h1 : ∃ n, fromData (exEnv {}) py!"X" (.seq .list .list [.inst .int none]) = .ok n ∧
      nodeStrings (exEnv {}) n false = .ok [TDecl.print ⟨py!"X", .alias (.app py!"List" (.name py!"int"))⟩] ∧
      toStringInherit (exEnv {}) n false = .ok py!"_X: TypeAlias = List[int]\n\n\nclass X: TypeAlias(_X: TypeAlias):\n    ..." := by
    refine ⟨_, rfl, ?_, ?_⟩ <;> rfl
  obtain ⟨n, _, h2, h3⟩ := h1
  have := h n false [] _ h2 (by decide) trivial
  rw [h3] at this
  injection this with this
  revert this
  decide

/-- What the option gives for every alias. -/
theorem inherit_alias (E : Env) (node : Node) (imports : Bool) (before : List Str) (n : Str) (t : TExpr)
    (hs : nodeStrings E node imports = .ok (before ++ [TDecl.print ⟨n, .alias t⟩])) (hn : '=' ∉ n)
    (h0 : ∀ c, n.head? = some c → isSpace c = false) (hne : n ≠ []) (ht : '=' ∉ t.print) :
    toStringInherit E node imports = .ok (formatNodeStrings (before ++ [py!"_" ++ n ++ py!": TypeAlias = " ++ t.print,
        py!"class " ++ n ++ py!": TypeAlias(_" ++ n ++ py!": TypeAlias):\n    ..."])) := by
  rw [inherit_strings hs]
  generalize E.U = U
  congr 2
  have h := rename_alias U n (py!"_" ++ n ++ py!": TypeAlias") t hn h0 hne ht
  have h2 : (renameDeclaration U (fun n => '_' :: n) (TDecl.print ⟨n, .alias t⟩)).2 = n ++ py!": TypeAlias" := by
    rw [rename_old U _ (fun _ => py!"_" ++ n ++ py!": TypeAlias"), h]
  unfold inheritStrings
  rw [List.getLast?_concat]
  dsimp only
  rw [rename_const, h2]
  have e : ('_' :: (n ++ py!": TypeAlias")) = py!"_" ++ n ++ py!": TypeAlias" := by simp
  rw [e, h, List.dropLast_concat]
  simp [TAB]

/-- The text for a list. -/
example : (match fromData (exEnv {}) py!"X" (.seq .list .list [.inst .int none]) with
    | .ok n => toStringInherit (exEnv {}) n false
    | .error _ => .ok []) = .ok py!"_X: TypeAlias = List[int]\n\n\nclass X: TypeAlias(_X: TypeAlias):\n    ..." := by decide +kernel

/-- What the option gives for a TypedDict in functional syntax: it keeps its old name as an argument, so that the declared
name and the argument differ. -/
theorem inherit_functional (E : Env) (node : Node) (imports : Bool) (before : List Str) (n body : Str)
    (hs : nodeStrings E node imports = .ok (before ++ [n ++ py!" = TypedDict(\n    \"" ++ n ++ body])) (hn : '=' ∉ n) (hne : n ≠ [])
    (h0 : ∀ c, n.head? = some c → isSpace c = false) (h1 : ∀ c, n.getLast? = some c → isSpace c = false) (hb : '=' ∉ body) :
    toStringInherit E node imports =
      .ok (formatNodeStrings (before ++ [py!"_" ++ n ++ py!" = TypedDict(\n    \"" ++ n ++ body, subclassText n])) := by
  rw [inherit_strings hs]
  generalize E.U = U
  congr 2
  have h := rename_functional U n (py!"_" ++ n) body hn hne h0 h1 hb
  have h2 : (renameDeclaration U (fun n => '_' :: n) (n ++ py!" = TypedDict(\n    \"" ++ n ++ body)).2 = n := by
    rw [rename_old U _ (fun _ => py!"_" ++ n), h]
  unfold inheritStrings
  rw [List.getLast?_concat]
  dsimp only
  rw [rename_const, h2]
  rw [show '_' :: n = py!"_" ++ n from rfl, h, List.dropLast_concat]
  simp [subclassText, TAB]

/-- The text for a dictionary with a key that is no name. -/
example : (match fromData (exEnv {}) py!"X" (.dict [(.str py!"a b", .inst .int none)]) with
    | .ok n => toStringInherit (exEnv {}) n false
    | .error _ => .ok []) =
    .ok py!"_X = TypedDict(\n    \"X\",\n    {\n        \"a b\": int,\n    },\n)\n\n\nclass X(_X):\n    ..." := by decide +kernel

end Verif.Props
