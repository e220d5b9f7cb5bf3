import Verif.Lemmas.Symbols
import Verif.Lemmas.Keyed
import Verif.Props.Docstring
import Verif.Spec.Written
/-
Generated declarations follow the grammar.
-/
namespace Verif
open Verif.Spec

variable {G : Copied}

/-! ### Pieces -/

theorem gap_nil : Gap [] := by intro c hc; simp at hc

theorem gap_of {s : Str} (h : s.all (fun c => c == ' ' || c == '\n') = true) : Gap s := by
  intro c hc
  have := List.all_eq_true.mp h c hc
  simpa using this

theorem Spec.Items.single {P : Str → Prop} {a : Str} (h : P a) : Items P a := by
  simpa using Items.last (w := []) (w' := []) gap_nil h gap_nil

theorem Spec.Items.gap {P : Str → Prop} {w s : Str} (hw : Gap w) (h : Items P s) : Items P (w ++ s) := by
  have app : ∀ {w'}, Gap w' → Gap (w ++ w') := by
    intro w' h' c hc
    rcases List.mem_append.mp hc with h | h
    · exact hw c h
    · exact h' c h
  cases h with
  | last h1 h2 h3 => simpa using Items.last (app h1) h2 h3
  | trailing h1 h2 h3 h4 => simpa using Items.trailing (app h1) h2 h3 h4
  | more h1 h2 h3 h4 => simpa using Items.more (app h1) h2 h3 h4

/-- Items on top of each other, separated by a comma and a gap. -/
theorem Spec.Items.cons {P : Str → Prop} {a w s : Str} (h : P a) (hw : Gap w) (hs : Items P s) : Items P (a ++ py!"," ++ w ++ s) := by
  simpa using Items.more (w := []) (w' := []) gap_nil h gap_nil (hs.gap hw)

theorem items_join {P : Str → Prop} : ∀ {l : List Str}, l ≠ [] → (∀ a ∈ l, P a) → Items P (join py!", " l)
  | [], h, _ => absurd rfl h
  | [a], _, h => Items.single (h a (by simp))
  | a :: b :: r, _, h => by
    have ih := items_join (l := b :: r) (by simp) (fun x hx => h x (by simp [hx]))
    simpa [join] using Items.cons (w := py!" ") (h a (by simp)) (gap_of (by decide)) ih

/-- A check of identifiers, keywords included. -/
def identLike : Str → Bool
  | [] => false
  | c :: r => (c.isAlpha || c == '_') && r.all (fun d => d.isAlpha || d.isDigit || d == '_')

theorem identifier_of {s : Str} (h1 : s ∉ keywords := by decide) (h2 : identLike s = true := by decide) :
    Identifier s := by
  refine ⟨?_, h1⟩
  cases s with
  | nil => cases h2
  | cons c r =>
    simp only [identLike, Bool.and_eq_true, Bool.or_eq_true, beq_iff_eq, List.all_eq_true] at h2
    exact ⟨c, r, rfl, h2.1, fun d hd => by have := h2.2 d hd; rwa [or_assoc] at this⟩

theorem lib_name {n : Str} (h : n ∈ [py!"Any", py!"Union", py!"Optional", py!"object", py!"List", py!"Sequence", py!"Set",
    py!"FrozenSet", py!"Iterator", py!"Tuple", py!"Dict", py!"Mapping", py!"MappingProxyType", py!"Callable", py!"Type",
    py!"ModuleType", py!"TextIO", py!"TypeAlias", py!"TypedDict", py!"Protocol", py!"NotRequired", py!"ReadOnly", py!"Literal",
    py!"Hashable", py!"Scalar", py!"str", py!"NoneType", py!"pd", py!"np", py!"npt"] := by decide) : PyExpr G n := by
  refine .name ?_
  revert n
  have : ∀ n ∈ [py!"Any", py!"Union", py!"Optional", py!"object", py!"List", py!"Sequence", py!"Set",
    py!"FrozenSet", py!"Iterator", py!"Tuple", py!"Dict", py!"Mapping", py!"MappingProxyType", py!"Callable", py!"Type",
    py!"ModuleType", py!"TextIO", py!"TypeAlias", py!"TypedDict", py!"Protocol", py!"NotRequired", py!"ReadOnly", py!"Literal",
    py!"Hashable", py!"Scalar", py!"str", py!"NoneType", py!"pd", py!"np", py!"npt"], n ∉ keywords ∧ identLike n = true := by
    decide +kernel
  intro n hn
  exact identifier_of (this n hn).1 (this n hn).2

theorem pd_attr {n : Str} (h : Identifier n) : PyExpr G (py!"pd." ++ n) := .attribute (e := py!"pd") lib_name h

theorem sub1 {c t : Str} (hc : PyExpr G c) (ht : PyExpr G t) : PyExpr G (c ++ py!"[" ++ t ++ py!"]") :=
  .subscript hc (Items.single ht)

theorem sub2 {c s t : Str} (hc : PyExpr G c) (hs : PyExpr G s) (ht : PyExpr G t) :
    PyExpr G (c ++ py!"[" ++ s ++ py!", " ++ t ++ py!"]") := by
  have := PyExpr.subscript hc (Items.cons (w := py!" ") hs (gap_of (by decide)) (Items.single ht))
  simpa using this

theorem printList_eq : ∀ (ts : List TExpr), printList ts = ts.map TExpr.print
  | [] => rfl
  | t :: r => by simp [printList, printList_eq r]

theorem union_expr {ts : List TExpr} (hne : ts ≠ []) (h : ∀ t ∈ ts, PyExpr G t.print) : PyExpr G (unionOf ts).print := by
  have gen : PyExpr G (TExpr.union ts).print := by
    simp only [TExpr.print, printList_eq]
    have := PyExpr.subscript (G := G) (e := py!"Union") lib_name (items_join (l := ts.map TExpr.print) (by simpa using hne) (by
      intro a ha
      obtain ⟨t, ht, rfl⟩ := List.mem_map.mp ha
      exact h t ht))
    simpa using this
  match ts with
  | [] => exact absurd rfl hne
  | [t] => exact h t (by simp)
  | a :: b :: r => exact gen

theorem uniqueTypes_ne {l : List Str} (h : l ≠ []) : uniqueTypes l ≠ [] := by
  intro e
  have key : ∀ x, x ∈ l → x = py!"int" ∧ py!"float" ∈ l := by
    intro x hx
    by_cases hc : x = py!"int" ∧ py!"float" ∈ l
    · exact hc
    · have := mem_uniqueTypes.mpr ⟨hx, hc⟩
      rw [e] at this
      simp at this
  cases l with
  | nil => exact h rfl
  | cons a r =>
    have := key _ (key a (by simp)).2
    exact absurd this.1 (by decide)

/-! ### Expressions of children -/

theorem aTypes_expr {kids : List AOut} (h : ∀ k ∈ kids, PyExpr G (aref k).print) {t : TExpr} (ht : t ∈ aTypes kids) : PyExpr G t.print := by
  unfold aTypes at ht
  split at ht
  · simp only [List.mem_singleton] at ht
    subst ht
    exact lib_name
  · obtain ⟨k, hk, rfl⟩ := List.mem_map.mp ht
    exact h k hk

theorem aAlias_expr {kids : List AOut} (h : ∀ k ∈ kids, PyExpr G (aref k).print) : PyExpr G (aAlias kids).print := by
  refine union_expr ?_ (fun t ht => aTypes_expr h (aUnique_mem ht))
  unfold aUnique
  simp only [ne_eq, List.map_eq_nil_iff]
  exact uniqueTypes_ne (by simpa using aTypes_ne _)

theorem aTuple_expr {S : Strategies} {kids : List AOut} (h : ∀ k ∈ kids, PyExpr G (aref k).print) : PyExpr G (aTuple S kids).print := by
  have dots : ∀ {t}, PyExpr G t → PyExpr G (py!"Tuple[" ++ t ++ py!", ...]") := by
    intro t ht
    have := sub2 (G := G) (c := py!"Tuple") lib_name ht (PyExpr.constant (c := py!"...") (by decide))
    simpa using this
  unfold aTuple
  split
  · split
    · exact dots lib_name
    · simp only [TExpr.print, printList_eq]
      have := PyExpr.subscript (G := G) (e := py!"Tuple") lib_name (items_join (l := (aTypes kids).map TExpr.print) (by simpa using aTypes_ne _) (by
        intro a ha
        obtain ⟨t, ht, rfl⟩ := List.mem_map.mp ha
        exact aTypes_expr h ht))
      simpa using this
  · exact dots (aAlias_expr h)

theorem seqCon_expr (S : Strategies) (k : SeqKind) : PyExpr G (seqCon S k) := by
  cases k with
  | list => simp only [seqCon]; split <;> exact lib_name
  | series => exact pd_attr (n := py!"Series") identifier_of
  | _ => simp only [seqCon]; exact lib_name

theorem mapCon_expr (S : Strategies) (t : Ty) : PyExpr G (mapCon S t) := by
  unfold mapCon
  split
  · exact lib_name
  · split <;> exact lib_name

theorem key_ty_ident {k : Key} (h : WordKey k) : Identifier k.ty.name := by
  cases k with
  | str s => exact identifier_of (s := py!"str")
  | none => exact identifier_of (s := py!"NoneType")
  | other t r => exact h.1.2

theorem keyExpr_expr {keys : List Key} (h : ∀ k ∈ keys, WordKey k) : PyExpr G (keyExpr keys).print := by
  unfold keyExpr
  split
  · exact lib_name
  · rename_i hne
    refine union_expr ?_ ?_
    · simp only [ne_eq, List.map_eq_nil_iff]
      exact uniqueTypes_ne (by simpa using hne)
    · intro t ht
      obtain ⟨s, hs, rfl⟩ := List.mem_map.mp ht
      obtain ⟨k, hk, rfl⟩ := List.mem_map.mp (mem_uniqueTypes.mp hs).1
      exact .name (key_ty_ident (h k hk))

theorem asciiWord_cases {P : Char → Prop}
    (h : ∀ n : Fin 128, ((Char.ofNat n).isAlphanum || (Char.ofNat n) == '_') = true → P (Char.ofNat n)) {c : Char}
    (hc : asciiWord c = true) : P c := by
  simp only [asciiWord, Bool.and_eq_true] at hc
  have h3 : c.toNat < 128 := by simpa [isAscii] using hc.1
  have := h ⟨c.toNat, h3⟩ (by simpa [Char.ofNat_toNat] using hc.2)
  simpa [Char.ofNat_toNat] using this

theorem inQuotes_word {s : Str} (h : ∀ c ∈ s, asciiWord c = true) : InQuotes s := by
  intro c hc
  exact asciiWord_cases (P := fun c => c ≠ '"' ∧ c ≠ '\\' ∧ c ≠ '\n' ∧ c ≠ '\r') (by decide +kernel) (h c hc)

theorem asciiWord_ident {c : Char} (h : asciiWord c = true) : c.isAlpha = true ∨ c.isDigit = true ∨ c = '_' := by
  simp only [asciiWord, Bool.and_eq_true, Bool.or_eq_true, Char.isAlphanum, beq_iff_eq] at h
  rcases h.2 with (h | h) | h
  · exact .inl h
  · exact .inr (.inl h)
  · exact .inr (.inr h)

/-- The builtin names of an environment are written as they are. -/
def BuiltinNames (E : Env) : Prop := ∀ x, E.isBuiltin x = true → Identifier x ∨ x ∈ [py!"None", py!"True", py!"False"]

theorem builtin_expr {E : Env} (hB : BuiltinNames E) {x : Str} (h : E.isBuiltin x = true) : PyExpr G x := by
  rcases hB x h with h | h
  · exact .name h
  · refine .constant ?_
    simp only [List.mem_cons, List.not_mem_nil, or_false] at h ⊢
    rcases h with h | h | h <;> simp [h]

theorem atom_expr {E : Env} (hB : BuiltinNames E) {t : Ty} (h : WordTy t) : PyExpr G (atom E t).print := by
  unfold atom
  split
  · exact sub1 (G := G) (c := py!"Optional") (t := py!"object") lib_name lib_name
  · split
    · rename_i hb; exact builtin_expr hB hb
    · exact .string (inQuotes_word h)

/-! ### Declarations -/

theorem join_append {sep : Str} : ∀ {a b : List Str}, a ≠ [] → b ≠ [] → join sep (a ++ b) = join sep a ++ sep ++ join sep b
  | [], _, h, _ => absurd rfl h
  | [x], b, _, hb => by
    cases b with
    | nil => exact absurd rfl hb
    | cons y r => simp [join]
  | x :: y :: r, b, _, hb => by
    have := join_append (sep := sep) (a := y :: r) (b := b) (by simp) hb
    simp only [List.cons_append] at this ⊢
    simp only [join, this, List.append_assoc]

theorem pyModule_stmt {s : Str} (h : PyStmt G s) : PyModule G s := ⟨[s], by simpa using h, rfl⟩

theorem pyModule_append {a b : Str} (ha : PyModule G a) (hb : PyModule G b) : PyModule G (a ++ py!"\n" ++ b) := by
  obtain ⟨l, h1, rfl⟩ := ha
  obtain ⟨m, h2, rfl⟩ := hb
  refine ⟨(if l = [] then [[]] else l) ++ (if m = [] then [[]] else m), ?_, ?_⟩
  · intro s hs
    rcases List.mem_append.mp hs with hs | hs
    · split at hs
      · simp only [List.mem_singleton] at hs; subst hs; exact .empty
      · exact h1 s hs
    · split at hs
      · simp only [List.mem_singleton] at hs; subst hs; exact .empty
      · exact h2 s hs
  · have e : ∀ l : List Str, join py!"\n" (if l = [] then [[]] else l) = join py!"\n" l := by
      intro l; split
      · rename_i h; rw [h]; rfl
      · rfl
    rw [join_append, e, e]
    · split
      · simp
      · assumption
    · split
      · simp
      · assumption

theorem typeText_expr {e : Entry} (h : PyExpr G e.type.print) : PyExpr G e.typeText := by
  unfold Entry.typeText
  dsimp only
  have h1 : PyExpr G (if e.required then e.type.print else py!"NotRequired[" ++ e.type.print ++ py!"]") := by
    split
    · exact h
    · simpa using sub1 (G := G) (c := py!"NotRequired") lib_name h
  split
  · simpa using sub1 (G := G) (c := py!"ReadOnly") lib_name h1
  · exact h1

theorem alias_stmt {n : Str} {t : TExpr} (hn : Identifier n) (ht : PyExpr G t.print) : PyModule G (TDecl.mk n (.alias t)).print := by
  refine pyModule_stmt ?_
  have := PyStmt.annotated (G := G) (a := py!"TypeAlias") hn lib_name ht
  simpa [TDecl.print] using this

/-- A docstring with its indentation. -/
def DocLit (ind : Str) (d : Str) : Prop := ∃ l b, IsTripleLiteral l b ∧ d = ind ++ l

theorem formatDoc_lit {s : Str} {n : Nat} {ind : Str} (hi : Blank ind) (h : DocText s) : DocLit ind (formatDoc s n ind) := by
  rcases h with h | ⟨h1, h2⟩
  · obtain ⟨d, b, e, hl, _⟩ := Props.docstring_literal_noquote_partial s n ind hi h
    exact ⟨d, b, hl, e⟩
  · obtain ⟨d, b, e, hl, _⟩ := Props.docstring_literal_partial s n ind hi h1 h2
    exact ⟨d, b, hl, e⟩

theorem flatMap_nl : ∀ {l : List Str}, l ≠ [] → l.flatMap (fun m => '\n' :: m) = '\n' :: join py!"\n" l
  | [], h => absurd rfl h
  | [x], _ => by simp [join]
  | x :: y :: r, _ => by
    rw [List.flatMap_cons, flatMap_nl (l := y :: r) (by simp)]
    simp [join]

theorem class_stmt {n b body : Str} {ms : List Str} (hn : Identifier n) (hb : PyExpr G b) (hm : ∀ m ∈ ms, PyMember G m)
    (hne : ∃ m ∈ ms, m ≠ []) (e : body = join py!"\n" ms) : PyStmt G (py!"class " ++ n ++ py!"(" ++ b ++ py!"):\n" ++ body) := by
  have := PyStmt.class hn hb hm hne
  rw [flatMap_nl (by rintro rfl; simp at hne)] at this
  rw [e]
  simpa using this

theorem record_class {n : Str} {doc : Option Str} {es : List Entry} (hn : Identifier n)
    (hd : ∀ d, doc = some d → DocLit py!"    " d)
    (he : ∀ e ∈ es, Identifier e.key ∧ PyExpr G e.type.print ∧ ∀ d, e.doc = some d → DocLit py!"    " d) :
    PyModule G (recordText n false doc (es.map Entry.raw)) := by
  have hes : ∀ es : List Entry, es ≠ [] → (∀ e ∈ es, Identifier e.key ∧ PyExpr G e.type.print ∧ ∀ d, e.doc = some d → DocLit py!"    " d) →
      ∃ ms, (∀ m ∈ ms, PyMember G m) ∧ (∃ m ∈ ms, m ≠ []) ∧ ms ≠ [] ∧ join py!"\n" ((es.map Entry.raw).map RawEntry.classText) = join py!"\n" ms := by
    intro es
    induction es with
    | nil => intro h; exact absurd rfl h
    | cons e r ih =>
      intro _ he
      obtain ⟨h1, h2, h3⟩ := he e (by simp)
      have hf : PyMember G (py!"    " ++ e.key ++ py!": " ++ e.typeText) := .field h1 (typeText_expr h2)
      have hone : ∃ ms, (∀ m ∈ ms, PyMember G m) ∧ (∃ m ∈ ms, m ≠ []) ∧ ms ≠ [] ∧ e.raw.classText = join py!"\n" ms := by
        cases hd : e.doc with
        | none => exact ⟨[_], by simpa using hf, ⟨_, List.mem_singleton.mpr rfl, by simp⟩, by simp, by simp [RawEntry.classText, Entry.raw, hd, join]⟩
        | some d =>
          obtain ⟨l, b, hl, ed⟩ := h3 d hd
          refine ⟨[py!"    " ++ e.key ++ py!": " ++ e.typeText, py!"    " ++ l], ?_, ⟨_, List.mem_cons_self, by simp⟩, by simp, ?_⟩
          · intro m hm
            simp only [List.mem_cons, List.not_mem_nil, or_false] at hm
            rcases hm with rfl | rfl
            · exact hf
            · exact .docstring hl
          · simp [RawEntry.classText, Entry.raw, hd, join, ed]
      obtain ⟨ms, a1, a2, a3, a4⟩ := hone
      cases r with
      | nil => exact ⟨ms, a1, a2, a3, by simpa [join] using a4⟩
      | cons e' r =>
        obtain ⟨ms', b1, b2, b3, b4⟩ := ih (by simp) (fun x hx => he x (by simp [hx]))
        refine ⟨ms ++ ms', ?_, ?_, by simp [a3], ?_⟩
        · intro m hm
          rcases List.mem_append.mp hm with h | h
          · exact a1 m h
          · exact b1 m h
        · obtain ⟨m, hm, h⟩ := a2
          exact ⟨m, by simp [hm], h⟩
        · rw [join_append a3 b3, ← a4, ← b4]
          simp [join]
  have hbody : ∃ ms, (∀ m ∈ ms, PyMember G m) ∧ (∃ m ∈ ms, m ≠ []) ∧ ms ≠ [] ∧
      recordText n false doc (es.map Entry.raw) = py!"class " ++ n ++ py!"(TypedDict):\n" ++ ((doc.map (fun t => t ++ py!"\n\n")).getD [] ++
        join py!"\n" ms) := by
    cases es with
    | nil => exact ⟨[py!"    ..."], by simpa using PyMember.ellipsis, ⟨_, List.mem_singleton.mpr rfl, by simp⟩, by simp, by cases doc <;> simp [recordText, join]⟩
    | cons e r =>
      obtain ⟨ms, b1, b2, b3, b4⟩ := hes (e :: r) (by simp) he
      refine ⟨ms, b1, b2, b3, ?_⟩
      rw [← b4]
      cases doc <;> simp [recordText]
  obtain ⟨ms, a1, a2, a3, a4⟩ := hbody
  refine pyModule_stmt ?_
  rw [a4]
  cases doc with
  | none =>
    have := class_stmt (G := G) (b := py!"TypedDict") hn lib_name a1 a2 rfl
    simpa using this
  | some d =>
    obtain ⟨l, b, hl, rfl⟩ := hd d rfl
    have := class_stmt (G := G) (b := py!"TypedDict") (ms := [py!"    " ++ l, []] ++ ms) hn lib_name (by
      intro m hm
      rcases List.mem_append.mp hm with h | h
      · simp only [List.mem_cons, List.not_mem_nil, or_false] at h
        rcases h with rfl | rfl
        · exact .docstring hl
        · exact .empty
      · exact a1 m h) (by
      obtain ⟨m, hm, h⟩ := a2
      exact ⟨m, by simp [hm], h⟩) rfl
    rw [join_append (by simp) a3] at this
    simpa [join] using this

theorem pairs_items : ∀ {es : List Entry}, es ≠ [] → (∀ e ∈ es, InQuotes e.key ∧ PyExpr G e.type.print) →
    Items (PyPair G) (py!"\n" ++ join py!"\n" ((es.map Entry.raw).map RawEntry.functionalText) ++ py!"\n    ")
  | [], h, _ => absurd rfl h
  | [e], _, h => by
    have hp : PyPair G (py!"\"" ++ e.key ++ py!"\": " ++ e.typeText) := ⟨_, _, (h e (by simp)).1, typeText_expr (h e (by simp)).2, rfl⟩
    have := Items.trailing (w := py!"\n        ") (w' := []) (w'' := py!"\n    ") (gap_of (by decide)) hp gap_nil (gap_of (by decide))
    simpa [join, RawEntry.functionalText, Entry.raw] using this
  | e :: e' :: r, _, h => by
    have hp : PyPair G (py!"\"" ++ e.key ++ py!"\": " ++ e.typeText) := ⟨_, _, (h e (by simp)).1, typeText_expr (h e (by simp)).2, rfl⟩
    have ih := pairs_items (es := e' :: r) (by simp) (fun x hx => h x (by simp [hx]))
    have := Items.more (w := py!"\n        ") (w' := []) (gap_of (by decide)) hp gap_nil ih
    simpa [join, RawEntry.functionalText, Entry.raw] using this

theorem record_functional {n : Str} {doc : Option Str} {es : List Entry} (hn : Identifier n) (hq : InQuotes n)
    (hd : ∀ d, doc = some d → DocLit [] d) (he : ∀ e ∈ es, InQuotes e.key ∧ PyExpr G e.type.print) :
    PyModule G (recordText n true doc (es.map Entry.raw)) := by
  have hdict : PyArg G (py!"{" ++ (py!"\n" ++ join py!"\n" ((es.map Entry.raw).map RawEntry.functionalText) ++ py!"\n    ") ++ py!"}") := by
    cases es with
    | nil => exact .emptyDict (gap_of (by decide))
    | cons e r => exact .dict (pairs_items (by simp) he)
  have hargs := Items.more (P := PyArg G) (w := py!"\n    ") (w' := []) (gap_of (by decide)) (.expr (.string hq)) gap_nil
    (Items.trailing (w := py!"\n    ") (w' := []) (w'' := py!"\n") (gap_of (by decide)) hdict gap_nil (gap_of (by decide)))
  have hs := PyStmt.call hn (f := py!"TypedDict") lib_name hargs
  unfold recordText
  simp only [if_true]
  cases doc with
  | none => refine pyModule_stmt ?_; simpa using hs
  | some d =>
    obtain ⟨l, b, hl, rfl⟩ := hd d rfl
    have := pyModule_append (pyModule_stmt hs) (pyModule_stmt (.docstring hl))
    simpa using this

/-! ### Functions and frames -/

theorem callable_expr (n : Nat) : PyExpr G (TExpr.callable n).print := by
  have hl : PyExpr G (py!"[" ++ join py!", " (List.replicate n py!"Any") ++ py!"]") := by
    cases n with
    | zero => exact .emptyList
    | succ n =>
      refine .list (items_join (by simp) ?_)
      intro a ha
      rw [List.eq_of_mem_replicate ha]
      exact lib_name
  have := sub2 (G := G) (c := py!"Callable") lib_name hl (lib_name (n := py!"Any"))
  simpa [TExpr.print] using this

theorem protocol_stmt {n sig : Str} (hn : Identifier n) (hs : PySignature G sig) :
    PyModule G (TDecl.mk n (.protocol (sig ++ py!": ..."))).print := by
  refine pyModule_stmt ?_
  have hm : PyMember G (py!"    def __call__" ++ sig ++ py!": ...") := by
    have := PyMember.method (ds := []) (n := py!"__call__") (b := py!" ...") (by simp) identifier_of hs (by decide)
    simpa using this
  have := class_stmt (G := G) (b := py!"Protocol") (ms := [_]) hn lib_name (by simpa using hm) ⟨_, List.mem_singleton.mpr rfl, by simp⟩ rfl
  simpa [TDecl.print, join] using this

theorem signature_with {sig r : Str} (hs : PySignature G sig) (hc : contains py!"->" sig = false) (hr : PyExpr G r) :
    PySignature G (sig ++ py!" -> " ++ r) := by
  cases hs with
  | plain h => exact .returning h hr
  | returning h1 h2 =>
    exfalso
    rename_i p e
    have : contains py!"->" (p ++ py!" -> " ++ e) = true := by
      rw [contains_iff_infix]
      exact ⟨p ++ py!" ", py!" " ++ e, by simp⟩
    rw [this] at hc
    cases hc

/-- Aliases follow the grammar as expressions, everything else as declarations. -/
def BodyOk (G : Copied) (n : Str) : Body → Prop
  | .alias t => PyExpr G t.print
  | b => PyModule G (TDecl.mk n b).print

theorem BodyOk.decl {n : Str} {b : Body} (hn : Identifier n) (h : BodyOk G n b) : PyModule G (TDecl.mk n b).print := by
  cases b with
  | alias t => exact alias_stmt hn h
  | _ => exact h

theorem func_body {n : Str} {f : FuncInfo} (hn : Identifier n) (hf : FuncOk f)
    (hs : f.isLambda = false → ∀ text k, f.sig = .ok text k → PySignature G text) : BodyOk G n (funcBody f) := by
  unfold funcBody
  split
  · rename_i h; exact absurd h hf.1
  · exact lib_name
  · rename_i args k h
    split
    · exact callable_expr k
    · rename_i hl
      have hsig := hs (by simpa using hl) _ _ h
      show PyModule G (TDecl.mk n (.protocol (args ++ _))).print
      split
      · exact protocol_stmt hn hsig
      · rename_i hc
        have hc : contains py!"->" args = false := by simpa using hc
        have any := protocol_stmt hn (signature_with hsig hc (lib_name (n := py!"Any")))
        have non := protocol_stmt hn (signature_with hsig hc (PyExpr.constant (c := py!"None") (by decide)))
        split
        · simpa using non
        · simpa using non
        · split
          · simpa using any
          · simpa using non

set_option maxRecDepth 8000 in
theorem getItem_member {ds : List Str} {allowed body : Str} {pd : Bool} (hds : ∀ d ∈ ds, PyDecorator d) (ha : PyExpr G allowed)
    (hb : py!"\n" ++ body ∈ methodBodies) : PyMember G (ds.flatten ++ frameGetItem allowed pd ++ body) := by
  have str : ∀ s, InQuotes s → PyExpr G (py!"\"" ++ s ++ py!"\"") := fun s h => .string h
  have nd : ∀ n, Identifier n → PyExpr G (py!"npt.NDArray[np." ++ n ++ py!"]") := by
    intro n hn
    have := sub1 (G := G) (.attribute (e := py!"npt") (n := py!"NDArray") lib_name identifier_of) (.attribute (e := py!"np") lib_name hn)
    simpa using this
  have hlist : PyExpr G py!"List[Union[Scalar, Tuple[Hashable, ...]]]" := by
    have h1 := sub2 (G := G) (c := py!"Tuple") lib_name (lib_name (n := py!"Hashable")) (PyExpr.constant (c := py!"...") (by decide))
    have h2 := sub2 (G := G) (c := py!"Union") lib_name (lib_name (n := py!"Scalar")) h1
    have h3 := sub1 (G := G) (c := py!"List") lib_name h2
    simpa using h3
  have g : Gap py!"\n            " := gap_of (by decide)
  have tail : Items (PyExpr G) (py!"\n            npt.NDArray[np.bool_],\n            npt.NDArray[np.str_],\n            List[Union[Scalar, Tuple[Hashable, ...]]],\n        ") := by
    have h1 := Items.trailing (w' := []) (w'' := py!"\n        ") g hlist gap_nil (gap_of (by decide))
    have h2 := Items.more (w' := []) g (nd py!"str_" identifier_of) gap_nil h1
    have h3 := Items.more (w' := []) g (nd py!"bool_" identifier_of) gap_nil h2
    simpa using h3
  have items : Items (PyExpr G) ((if pd then py!"\n            \"pd.Series[bool]\"," else []) ++ py!"\n            " ++ allowed ++ py!"," ++
      (if pd then py!"\n            pd.DataFrame,\n            pd.Index," else []) ++
      py!"\n            npt.NDArray[np.bool_],\n            npt.NDArray[np.str_],\n            List[Union[Scalar, Tuple[Hashable, ...]]],\n        ") := by
    cases pd with
    | false => simpa using Items.more (w' := []) g ha gap_nil tail
    | true =>
      have h1 := Items.more (w' := []) g (pd_attr (n := py!"Index") identifier_of) gap_nil tail
      have h2 := Items.more (w' := []) g (pd_attr (n := py!"DataFrame") identifier_of) gap_nil h1
      have h3 := Items.more (w' := []) g ha gap_nil h2
      have h4 := Items.more (w' := []) g (str py!"pd.Series[bool]" (by intro c hc; revert c; decide)) gap_nil h3
      simpa using h4
  have hkey : PyParam G _ := .typed (n := py!"key") identifier_of (.subscript (e := py!"Union") lib_name items)
  have g2 : Gap py!"\n        " := gap_of (by decide)
  have hps : PyParams G _ := .some (Items.more (w' := []) g2 (.plain (n := py!"self") identifier_of) gap_nil
    (Items.trailing (w' := []) (w'' := py!"\n    ") g2 hkey gap_nil (gap_of (by decide))))
  have hret := sub2 (G := G) (c := py!"Union") lib_name (pd_attr (n := py!"Series") identifier_of) (pd_attr (n := py!"DataFrame") identifier_of)
  have := PyMember.method hds (n := py!"__getitem__") identifier_of (.returning hps hret) hb
  have e : frameGetItem allowed pd = py!"    def __getitem__(\n        self,\n        key: Union[" ++
      ((if pd then py!"\n            \"pd.Series[bool]\"," else []) ++ py!"\n            " ++ allowed ++ py!"," ++
      (if pd then py!"\n            pd.DataFrame,\n            pd.Index," else []) ++
      py!"\n            npt.NDArray[np.bool_],\n            npt.NDArray[np.str_],\n            List[Union[Scalar, Tuple[Hashable, ...]]],\n        ") ++
      py!"],\n    ) -> Union[pd.Series, pd.DataFrame]:\n" := by
    cases pd <;> simp [frameGetItem]
  rw [e]
  simpa using this

theorem overload_member {label t : Str} (hl : PyExpr G label) (ht : PyExpr G t) :
    PyMember G (py!"    @overload  # type: ignore\n    def __getitem__(self, key: Literal[" ++ label ++ py!"]) -> " ++ t ++ py!":\n        ...") := by
  have hkey := sub1 (G := G) (c := py!"Literal") lib_name hl
  have hps : PyParams G _ := .some (Items.cons (P := PyParam G) (w := py!" ") (.plain (n := py!"self") identifier_of) (gap_of (by decide))
    (Items.single (.typed (n := py!"key") identifier_of hkey)))
  have := PyMember.method (ds := [py!"    @overload  # type: ignore\n"]) (n := py!"__getitem__") (b := py!"\n        ...") (by
    intro d hd
    simp only [List.mem_singleton] at hd
    subst hd
    exact ⟨py!"overload", py!" type: ignore", identifier_of, by decide, .inr rfl⟩) identifier_of (.returning hps ht) (by decide)
  simpa using this

theorem frame_stmt {n rest : Str} {ovs : List (Str × TExpr)} {ms : List Str} (hn : Identifier n) (hne : ovs ≠ [])
    (ho : ∀ o ∈ ovs, PyExpr G o.1 ∧ PyExpr G o.2.print) (hm : ∀ m ∈ ms, PyMember G m) (hms : ms ≠ []) (hr : rest = join py!"\n" ms) :
    PyModule G (TDecl.mk n (.frame ovs rest)).print := by
  have hov : ∀ ovs : List (Str × TExpr), ovs ≠ [] → (∀ o ∈ ovs, PyExpr G o.1 ∧ PyExpr G o.2.print) →
      ∃ l : List Str, l ≠ [] ∧ (∀ m ∈ l, PyMember G m) ∧ (∃ m ∈ l, m ≠ []) ∧
        join py!"\n" (ovs.map fun o => py!"    @overload  # type: ignore\n    def __getitem__(self, key: Literal[" ++ o.1 ++
          py!"]) -> " ++ o.2.print ++ py!":\n        ...\n") = join py!"\n" l := by
    intro ovs
    induction ovs with
    | nil => intro h; exact absurd rfl h
    | cons o r ih =>
      intro _ ho
      have h1 := overload_member (ho o (by simp)).1 (ho o (by simp)).2
      cases r with
      | nil =>
        refine ⟨[py!"    @overload  # type: ignore\n    def __getitem__(self, key: Literal[" ++ o.1 ++ py!"]) -> " ++ o.2.print ++ py!":\n        ...", []], by simp, ?_, ⟨_, List.mem_cons_self, ?_⟩, ?_⟩
        · intro m hm
          simp only [List.mem_cons, List.not_mem_nil, or_false] at hm
          rcases hm with rfl | rfl
          · exact h1
          · exact .empty
        · simp
        · simp [join]
      | cons o' r =>
        obtain ⟨l, a1, a2, a3, a4⟩ := ih (by simp) (fun x hx => ho x (by simp [hx]))
        refine ⟨[py!"    @overload  # type: ignore\n    def __getitem__(self, key: Literal[" ++ o.1 ++ py!"]) -> " ++ o.2.print ++ py!":\n        ...", []] ++ l,
          by simp, ?_, ?_, ?_⟩
        · intro m hm
          rcases List.mem_append.mp hm with h | h
          · simp only [List.mem_cons, List.not_mem_nil, or_false] at h
            rcases h with rfl | rfl
            · exact h1
            · exact .empty
          · exact a2 m h
        · obtain ⟨m, hm, h⟩ := a3
          exact ⟨m, by simp [hm], h⟩
        · rw [join_append (by simp) a1, ← a4]
          simp [join]
  obtain ⟨l, a1, a2, a3, a4⟩ := hov ovs hne ho
  refine pyModule_stmt ?_
  have := class_stmt (G := G) (b := py!"pd.DataFrame") (ms := [[]] ++ (l ++ ms)) hn (pd_attr (n := py!"DataFrame") identifier_of) (by
    intro m hm'
    rcases List.mem_append.mp hm' with h | h
    · simp only [List.mem_singleton] at h; subst h; exact .empty
    · rcases List.mem_append.mp h with h | h
      · exact a2 m h
      · exact hm m h) (by
    obtain ⟨m, hm', h⟩ := a3
    exact ⟨m, by simp [hm'], h⟩) rfl
  rw [join_append (by simp) (by simp [a1]), join_append a1 hms, ← a4, ← hr] at this
  simpa [TDecl.print, join] using this

theorem label_literal {E : Env} {k : Key} (h : LiteralLabel G E.reprStr k) : literalKey k = true ∧ PyExpr G (reprKey E k) := by
  cases k with
  | str s => exact ⟨rfl, .copied h⟩
  | none => exact h.elim
  | other t r =>
    refine ⟨?_, .copied h.2⟩
    rcases h.1 with h | h <;> simp [literalKey, h]

theorem frame_body {E : Env} {n : Str} {kids : List (Key × AOut)} (hn : Identifier n)
    (hl : ∀ kk ∈ kids, LiteralLabel G E.reprStr kk.1) (hk : ∀ kk ∈ kids, PyExpr G (aref kk.2).print) : BodyOk G n (frameBody E kids) := by
  unfold frameBody
  split
  · exact pd_attr (n := py!"DataFrame") identifier_of
  · rename_i hne
    have hf : kids.filter (fun kk => literalKey kk.1) = kids := List.filter_eq_self.mpr (fun kk hkk => (label_literal (hl kk hkk)).1)
    dsimp only
    rw [hf]
    have hne : kids ≠ [] := by simpa using hne
    have hlab : ∀ a ∈ kids.map (fun kk => reprKey E kk.1), PyExpr G a := by
      intro a ha
      obtain ⟨kk, hkk, rfl⟩ := List.mem_map.mp ha
      exact (label_literal (hl kk hkk)).2
    have fin : ∀ {rest : Str} {ms : List Str}, (∀ m ∈ ms, PyMember G m) → ms ≠ [] → rest = join py!"\n" ms →
        BodyOk G n (.frame (kids.map fun kk => (reprKey E kk.1, aref kk.2)) rest) := by
      intro rest ms h1 h2 h3
      refine frame_stmt hn (by simpa using hne) ?_ h1 h2 h3
      intro o ho
      obtain ⟨kk, hkk, rfl⟩ := List.mem_map.mp ho
      exact ⟨(label_literal (hl kk hkk)).2, hk kk hkk⟩
    split
    · rw [if_pos (List.all_eq_true.mpr (fun kk hkk => (label_literal (hl kk hkk)).1)), List.append_nil]
      have hlit := PyExpr.subscript (G := G) (e := py!"Literal") lib_name (items_join (by simpa using hne) hlab)
      have hm := getItem_member (ds := []) (pd := false) (body := py!"        return super().__getitem__(key)") (by simp) hlit (by decide)
      refine fin (ms := [_]) (by simpa using hm) (by simp) ?_
      simp [join]
    · have h1 := getItem_member (G := G) (ds := [py!"    @overload\n"]) (pd := true) (allowed := py!"str") (body := py!"        ...") (by
        intro d hd
        simp only [List.mem_singleton] at hd
        subst hd
        exact ⟨py!"overload", [], identifier_of, by decide, .inl rfl⟩) lib_name (by decide)
      have h2 := getItem_member (G := G) (ds := []) (pd := true) (allowed := py!"str") (body := py!"        return super().__getitem__(key)") (by simp) lib_name (by decide)
      refine fin (ms := [[py!"    @overload\n"].flatten ++ frameGetItem py!"str" true ++ py!"        ...", [],
        ([] : List Str).flatten ++ frameGetItem py!"str" true ++ py!"        return super().__getitem__(key)"]) (fun m hm => ?_) (by simp) ?_
      · simp only [List.mem_cons, List.not_mem_nil, or_false] at hm
        rcases hm with rfl | rfl | rfl
        · exact h1
        · exact .empty
        · exact h2
      · simp [join]

end Verif
