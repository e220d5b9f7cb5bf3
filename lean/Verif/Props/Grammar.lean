import Verif.Lemmas.Columns
import Verif.Lemmas.GrammarTree
import Verif.Props.Imports
import Verif.Props.Layout
import Verif.Props.Scalars
/-
C80: the generated text is a Python module.
-/
namespace Verif.Props
open Verif Verif.Spec

/-- The text printed for accepted names and data. -/
def PrintedFor (E : Env) (name : Str) (v : Val) (imports : Bool) (text : Str) : Prop :=
  ∃ n, fromData E name v = .ok n ∧ toString' E n imports = .ok text

/-! ### Assembling the text -/

theorem pyModule_lines {G : Copied} : ∀ {g text : Str}, (∀ c ∈ g, c = '\n') → PyModule G text → PyModule G (g ++ text)
  | [], _, _, h => h
  | c :: g, text, hg, h => by
    have hc : c = '\n' := hg c (by simp)
    subst hc
    have := pyModule_append (pyModule_stmt .empty) (pyModule_lines (g := g) (fun d hd => hg d (by simp [hd])) h)
    simpa using this

theorem weave_module {G : Copied} : ∀ {strs gaps : List Str}, (∀ s ∈ strs, PyModule G s) → (∀ g ∈ gaps, ∀ c ∈ g, c = '\n') →
    (∀ g ∈ gaps.dropLast, 2 ≤ g.length) → PyModule G (weave strs gaps)
  | [], _, _, _, _ => pyModule_stmt .empty
  | _ :: _, [], _, _, _ => pyModule_stmt .empty
  | s :: r, g :: gs, hs, hg, hl => by
    simp only [weave]
    have ih := weave_module (strs := r) (gaps := gs) (fun x hx => hs x (by simp [hx])) (fun x hx => hg x (by simp [hx])) (by
      intro x hx
      refine hl x ?_
      cases gs with
      | nil => simp at hx
      | cons a b => rw [List.dropLast_cons_of_ne_nil (by simp)]; exact List.mem_cons_of_mem _ hx)
    have hg0 := hg g (by simp)
    cases g with
    | nil =>
      cases gs with
      | nil => cases r <;> simpa [weave] using hs s (by simp)
      | cons a b =>
        have := hl [] (by rw [List.dropLast_cons_of_ne_nil (by simp)]; exact List.mem_cons_self)
        simp at this
    | cons c g =>
      have hc : c = '\n' := hg0 c (by simp)
      subst hc
      have := pyModule_append (hs s (by simp)) (pyModule_lines (g := g) (fun d hd => hg0 d (by simp [hd])) ih)
      simpa using this

theorem table_legal : ∀ e ∈ symbolTable, (∃ ps, ps ≠ [] ∧ e.2.1 = join py!"." ps ∧ ∀ p ∈ ps, Identifier p) ∧ Identifier e.2.2 := by
  have h : ∀ e ∈ symbolTable, (∃ ps ∈ [[py!"typing"], [py!"typing_extensions"], [py!"types"], [py!"pandas"], [py!"pandas", py!"_typing"],
      [py!"numpy", py!"typing"], [py!"numpy"], [py!"__future__"]], ps ≠ [] ∧ e.2.1 = join py!"." ps ∧ ∀ p ∈ ps, p ∉ keywords ∧ identLike p = true) ∧
      e.2.2 ∉ keywords ∧ identLike e.2.2 = true := by decide +kernel
  intro e he
  obtain ⟨⟨ps, _, h1, h2, h3⟩, h4, h5⟩ := h e he
  exact ⟨⟨ps, h1, h2, fun p hp => identifier_of (h3 p hp).1 (h3 p hp).2⟩, identifier_of h4 h5⟩

theorem binding_legal {kw : Str} (h : Known kw) :
    (∃ ps, ps ≠ [] ∧ (bindingOf kw).1 = join py!"." ps ∧ ∀ p ∈ ps, Identifier p) ∧ Identifier (bindingOf kw).2 := by
  obtain ⟨b, hb⟩ := h
  unfold bindingOf
  cases hf : symbolTable.find? (fun e => e.1 == kw) with
  | none =>
    have := List.find?_eq_none.mp hf _ hb
    simp at this
  | some e => exact table_legal e (List.mem_of_find?_eq_some hf)

theorem stmt_legal {st : ImportStmt} {t : Str} (hl : Layout st t) (h : ∀ b ∈ st.bindings, ∃ kw, Known kw ∧ b = bindingOf kw) : st.Legal := by
  have fromOk : ∀ {m : Str} {ns : List Str}, ns ≠ [] → (∀ b ∈ (ImportStmt.fromImport m ns).bindings, ∃ kw, Known kw ∧ b = bindingOf kw) →
      (ImportStmt.fromImport m ns).Legal := by
    intro m ns hne h
    have key : ∀ n ∈ ns, (∃ ps, ps ≠ [] ∧ m = join py!"." ps ∧ ∀ p ∈ ps, Identifier p) ∧ Identifier n := by
      intro n hn
      obtain ⟨kw, hk, e⟩ := h (m, n) (List.mem_map.mpr ⟨n, hn, rfl⟩)
      have := binding_legal hk
      rw [← e] at this
      exact this
    refine ⟨?_, fun n hn => (key n hn).2⟩
    cases ns with
    | nil => exact absurd rfl hne
    | cons n r => exact (key n (by simp)).1
  cases hl with
  | oneLine m ns hne => exact fromOk hne h
  | wrapped m ns hne => exact fromOk hne h
  | alias m a =>
    obtain ⟨kw, hk, e⟩ := h (m, a) (by simp [ImportStmt.bindings])
    have := binding_legal hk
    rw [← e] at this
    exact this

theorem block_module {G : Copied} {sts : List ImportStmt} {text : Str} (h : BlockText sts text)
    (hb : ∀ b ∈ sts.flatMap ImportStmt.bindings, ∃ kw, Known kw ∧ b = bindingOf kw) : PyModule G text := by
  have endLine : ∀ {t e : Str}, PyModule G t → e ∈ [[], py!"\n"] → PyModule G (t ++ e) := by
    intro t e ht he
    simp only [List.mem_cons, List.not_mem_nil, or_false] at he
    rcases he with rfl | rfl
    · simpa using ht
    · have := pyModule_append ht (pyModule_stmt (G := G) .empty)
      simpa using this
  induction h with
  | nil => exact pyModule_stmt .empty
  | one e hl he => exact endLine (pyModule_stmt (.imports (stmt_legal hl (fun b hm => hb b (by simpa using hm))) hl)) he
  | cons e hl he _ _ ih =>
    refine pyModule_append (endLine (pyModule_stmt (.imports (stmt_legal hl (fun b hm => hb b (by simp [hm]))) hl)) he) (ih ?_)
    intro b hm
    exact hb b (by rw [List.flatMap_cons]; exact List.mem_append_right _ hm)

theorem every_labels {G : Copied} {r : Str → Str} {dk : Str} : ∀ {v : Val}, Written G r dk v → LabelsOk (LiteralLabel G r) v
  | .map (.frame i) _ _ _, h => h.2 i rfl
  | .map .dict _ _ _, _ | .map .proxy _ _ _, _ => trivial
  | .inst _ _, _ | .cls _ _, _ | .module _, _ | .io _, _ | .ndarray _ _, _ | .func _, _ | .seq _ _ _, _ => trivial

theorem lawful_tree {E : Env} (hE : E.Fair) (hm : 0 < E.S.merge) {G : Copied} {name : Str} {v : Val} {n : Node} (hg : GoodName name)
    (hv : Regular E.U v) (hw : Writable G E.reprStr E.S.keyDoc v) (hb : fromData E name v = .ok n) : NodeAll (LawHdr G E) n := by
  obtain ⟨_, hbuild, hreg, _, _, _⟩ := regular_build hE hm hv hb
  have h1 : NodeAll (GramHdr G E) n := by
    have h := build_ens hE gram_inv (v.depth + 1) true name v hg.2.1 hw (Nat.lt_succ_self _)
    rw [hbuild] at h
    exact h.1.1
  have h2 : NodeAll (KeyedHdr (LiteralLabel G E.reprStr)) n :=
    keyed_build hE (v.depth + 1) (every_imp (fun _ => every_labels) v hw.2) (Nat.lt_succ_self _) hbuild
  exact nodeAll_imp (fun h hh => ⟨nodeName_of hg hh.1.1.1 hh.2.1.1, hh.2.1, hh.2.2, hh.1.2.2⟩)
    (nodeAll_and n hreg (nodeAll_and n h1 h2))

/-- C80. With and without imports, the text that is printed for regular data that can be written down, under a class name that
starts with a letter and does not begin a keyword, is a Python module. -/
theorem valid_python_partial {E : Env} (hE : E.Fair) (hm : 0 < E.S.merge) (hB : BuiltinNames E) {G : Copied} {name : Str} {v : Val} {n : Node}
    (hg : GoodName name) (hv : Regular E.U v) (hw : Writable G E.reprStr E.S.keyDoc v) (hb : fromData E name v = .ok n) (imports : Bool) :
    ∃ text, toString' E n imports = .ok text ∧ PyModule G text := by
  obtain ⟨_, _, hreg, hroot, _, _⟩ := regular_build hE hm hv hb
  have hlaw := lawful_abs hB n (lawful_tree hE hm hg hv hw hb)
  have hdecls : ∀ s ∈ (dedupDecls (n.abs E).emitted).map TDecl.print, PyModule G s := by
    intro s hs
    obtain ⟨d, hd, rfl⟩ := List.mem_map.mp hs
    exact hlaw.emitted d (dedupDecls_mem hd)
  have hstr : ∃ strs, nodeStrings E n imports = .ok strs ∧ ∀ s ∈ strs, PyModule G s := by
    have h0 := regular_strings hE hm hv hb
    cases imports with
    | false => exact ⟨_, h0, hdecls⟩
    | true =>
      have hf : firstFailure (n.render E).emitted = none := out_fails (nodeAll_imp (fun h hh f hf => by
        have := hh.2.2.2.2.2
        rw [hf] at this
        exact this) hreg)
      have hne : (declTexts (n.render E)).isEmpty = false := declTexts_root_ne_nil hroot
      have hk : ∀ kw ∈ allKws (n.render E), Known kw := fun kw hkw =>
        (known_iff kw).2 (out_known (fun s => sigImports_known s) n kw hkw)
      obtain ⟨block, hblock⟩ : ∃ s, formatImports 90 (allKws (n.render E)) = .ok s := by
        cases hfi : formatImports 90 (allKws (n.render E)) with
        | ok s => exact ⟨s, rfl⟩
        | error e =>
          obtain ⟨kw, hkw, hun⟩ := (imports_rejected_iff 90 _).1 ⟨e, hfi⟩
          exact absurd (hk kw hkw) hun
      obtain ⟨sts, hsts, hperm⟩ := imports_bind_requested 90 (by decide) _ (nodup_dedup _) _ hblock
      unfold nodeStrings at h0 ⊢
      simp only [hf, hne, Bool.false_eq_true, if_false, if_true, hblock] at h0 ⊢
      injection h0 with h0
      refine ⟨_, rfl, ?_⟩
      intro s hs
      rcases List.mem_cons.mp hs with rfl | hs
      · refine block_module hsts ?_
        intro b hb
        obtain ⟨kw, hkw, e⟩ := List.mem_map.mp (hperm.mem_iff.mp hb)
        exact ⟨kw, hk kw hkw, e.symm⟩
      · rw [h0] at hs
        exact hdecls s hs
  obtain ⟨strs, h1, h2⟩ := hstr
  have ht : toString' E n imports = .ok (formatNodeStrings strs) := by unfold toString'; rw [h1]; rfl
  refine ⟨_, ht, ?_⟩
  obtain ⟨strs', gaps, a1, a2, a3, a4, a5⟩ := text_keeps_declarations E n imports _ ht
  rw [h1] at a1
  injection a1 with a1
  subst a1
  rw [a5]
  exact weave_module h2 a3 a4

/-! ### A case that meets the hypotheses -/

theorem exEnv_builtins (S : Strategies) : BuiltinNames (exEnv S) := by
  intro x hx
  have hx : x ∈ [py!"int", py!"float", py!"str", py!"bool", py!"bytes", py!"complex", py!"range", py!"slice",
    py!"object", py!"list", py!"dict", py!"set", py!"tuple", py!"frozenset", py!"type"] := by
    simpa only [exEnv, List.contains_eq_mem, decide_eq_true_eq] using hx
  have : ∀ x ∈ [py!"int", py!"float", py!"str", py!"bool", py!"bytes", py!"complex", py!"range", py!"slice",
    py!"object", py!"list", py!"dict", py!"set", py!"tuple", py!"frozenset", py!"type"], x ∉ keywords ∧ identLike x = true := by decide +kernel
  exact .inl (identifier_of (this x hx).1 (this x hx).2)

/-- A function, a frame with two columns and a documented dictionary whose key needs the functional syntax. -/
def sampleWritten : Val :=
  .map .dict .dict [.str py!"run", .str py!"table", .str py!"conf", .other .int py!"3"] [
    .func { ty := ⟨py!"function", 1⟩, isLambda := false, sig := .ok py!"(a, b=None)" 2, source := .ret true },
    .map (.frame ⟨py!"Index(['x', 'y'])", true⟩) ⟨py!"DataFrame", 2⟩ [.str py!"x", .str py!"y"]
      [.seq .series ⟨py!"Series", 3⟩ [.inst .int none], .seq .series ⟨py!"Series", 3⟩ [.inst .str (some py!"u")]],
    .map .dict .dict [.str py!"a b", .str (hiddenPrefix ++ py!"a b")] [.seq .tuple ⟨py!"tuple", 4⟩ [.inst .float none, .inst ⟨py!"Foo", 5⟩ none],
      .inst .str (some py!"What it is.")],
    .inst .noneType none]

/-- The texts it copies. -/
def sampleCopied : Copied := ⟨fun s => s = py!"(a, b=None)", fun s => s ∈ [py!"'x'", py!"'y'"]⟩

theorem sampleWritten_ok : Regular (exEnv {}).U sampleWritten ∧ Writable sampleCopied (exEnv {}).reprStr (exEnv {}).S.keyDoc sampleWritten := by
  have int3 : Identifier Ty.int.name := identifier_of (s := py!"int")
  refine ⟨⟨?_, ?_⟩, ?_, ?_⟩
  · simp only [Ordinary, sampleWritten, ValAll, ValAllList, List.mem_cons, List.not_mem_nil, or_false, forall_eq_or_imp, forall_eq, and_true]
    refine ⟨tyOk_ascii (by decide), ⟨caseSafe_ascii (by decide), caseSafe_ascii (by decide), caseSafe_ascii (by decide), tyOk_ascii (by decide), caseSafe_ascii (by decide)⟩,
      ⟨tyOk_ascii (by decide), ?_⟩, ⟨tyOk_ascii (by decide), ⟨caseSafe_ascii (by decide), caseSafe_ascii (by decide)⟩, ⟨tyOk_ascii (by decide), tyOk_ascii (by decide)⟩,
      tyOk_ascii (by decide), tyOk_ascii (by decide)⟩, ⟨tyOk_ascii (by decide), ⟨caseSafe_ascii (by decide), caseSafe_ascii (by decide)⟩, ⟨tyOk_ascii (by decide), tyOk_ascii (by decide), tyOk_ascii (by decide)⟩,
      tyOk_ascii (by decide)⟩, tyOk_ascii (by decide)⟩
    exact ⟨by simp, by intro _ _ _ _ _; simp⟩
  · simp [sampleWritten, Every, EveryList, Printable]
  · simp only [sampleWritten, ValAll, ValAllList, List.mem_cons, List.not_mem_nil, or_false, forall_eq_or_imp, forall_eq, and_true, true_and, WordKey, WordTy, InQuotes, int3]
    repeat' apply And.intro
    all_goals decide +kernel
  · simp only [sampleWritten, Every, EveryList, Written, and_true, true_and, List.zip_cons_cons, List.zip_nil_right, List.mem_cons, List.not_mem_nil, or_false,
      forall_eq_or_imp, forall_eq, DocEntry, LiteralLabel]
    refine ⟨⟨?_, by intro i e; cases e⟩, ?_, ⟨?_, ?_⟩, ⟨?_, by intro i e; cases e⟩⟩
    · refine ⟨?_, ?_, ?_, ?_⟩ <;> intro _ t s e <;> cases e
    · intro _ text n e
      injection e with e _
      subst e
      exact .plain (.copied rfl)
    · refine ⟨?_, ?_⟩ <;> intro _ t s e <;> cases e
    · intro i e
      have : ∀ s, s ∈ [py!"'x'", py!"'y'"] → sampleCopied.expr s := fun _ h => h
      exact ⟨this _ (by decide), this _ (by decide)⟩
    · refine ⟨?_, ?_⟩
      · intro _ t s e; cases e
      · intro _ t s e
        injection e with _ e
        injection e with e
        subst e
        exact .inl (by decide)

example : ∃ n text, fromData (exEnv {}) py!"Data" sampleWritten = .ok n ∧ toString' (exEnv {}) n true = .ok text ∧ PyModule sampleCopied text ∧
    1000 < text.length := by
  have ht : (match fromData (exEnv {}) py!"Data" sampleWritten with
      | .ok n => (match toString' (exEnv {}) n true with
        | .ok text => decide (1000 < text.length)
        | .error _ => false)
      | .error _ => false) = true := by decide +kernel
  split at ht
  · rename_i n hn
    obtain ⟨text, h1, h2⟩ := valid_python_partial (exEnv_fair _) (by decide) (exEnv_builtins _) (G := sampleCopied) (name := py!"Data")
      ⟨⟨'D', py!"ata", rfl, by decide⟩, by decide, by decide +kernel⟩ sampleWritten_ok.1 sampleWritten_ok.2 hn true
    rw [h1] at ht
    exact ⟨n, text, hn, h1, h2, of_decide_eq_true ht⟩
  · cases ht

/-! ### Names and labels that make the text invalid -/

/-- The characters of identifiers. -/
def NameChar (c : Char) : Prop := c.isAlpha = true ∨ c.isDigit = true ∨ c = '_'

theorem cut_at {p : Char → Prop} : ∀ {a b : Str} {c d : Char} {x y : Str}, (∀ e ∈ a, p e) → (∀ e ∈ b, p e) → ¬ p c → ¬ p d →
    a ++ c :: x = b ++ d :: y → a = b ∧ c = d ∧ x = y
  | [], [], _, _, _, _, _, _, _, _, h => by injection h with h1 h2; exact ⟨rfl, h1, h2⟩
  | [], e :: b, _, _, _, _, _, hb, hc, _, h => by injection h with h1 _; exact absurd (h1 ▸ hb e (by simp)) hc
  | e :: a, [], _, _, _, _, ha, _, _, hd, h => by injection h with h1 _; exact absurd (h1 ▸ ha e (by simp)) hd
  | e :: a, f :: b, _, _, _, _, ha, hb, hc, hd, h => by
    injection h with h1 h2
    obtain ⟨e1, e2, e3⟩ := cut_at (fun x hx => ha x (by simp [hx])) (fun x hx => hb x (by simp [hx])) hc hd h2
    exact ⟨by rw [h1, e1], e2, e3⟩

theorem cut_word {a b : Str} {c d : Char} {x y : Str} : (∀ e ∈ a, NameChar e) → (∀ e ∈ b, NameChar e) → ¬ NameChar c → ¬ NameChar d →
    a ++ c :: x = b ++ d :: y → a = b ∧ c = d ∧ x = y := cut_at

theorem identifier_chars {s : Str} (h : Identifier s) : ∀ c ∈ s, NameChar c := by
  obtain ⟨a, r, rfl, ha, hr⟩ := h.1
  intro c hc
  rcases List.mem_cons.mp hc with rfl | hc
  · exact ha.elim .inl (fun h => .inr (.inr h))
  · exact hr c hc

theorem keyword_chars : ∀ w ∈ keywords, ∀ c ∈ w, NameChar c := by
  unfold NameChar
  decide +kernel

theorem not_nameChar {c : Char} (h : (c.isAlpha || c.isDigit || c == '_') = false := by decide) : ¬ NameChar c := by
  rintro (h' | h' | h') <;> simp [h'] at h

/-- No statement begins with a keyword and a colon. -/
theorem keyword_stmt {G : Copied} {w rest : Str} (hw : w ∈ keywords) : ¬ PyStmt G (w ++ ':' :: rest) := by
  have hc := keyword_chars w hw
  have col : ¬ NameChar ':' := not_nameChar
  generalize e : w ++ ':' :: rest = text
  intro h
  cases h with
  | empty => simp at e
  | docstring h =>
    obtain ⟨r, rfl, _⟩ := h
    obtain ⟨e, _, _⟩ := cut_word (a := w) (b := []) hc (by simp) col not_nameChar e
    subst e
    exact absurd hw (by decide)
  | @annotated n a b hn _ _ =>
    obtain ⟨e, _, _⟩ := cut_word (b := n) (d := ':') (y := py!" " ++ a ++ py!" = " ++ b) hc (identifier_chars hn) col not_nameChar (by simpa using e)
    exact hn.2 (e ▸ hw)
  | @call n f s hn _ _ =>
    obtain ⟨e, _, _⟩ := cut_word (b := n) (d := ' ') (y := py!"= " ++ f ++ py!"(" ++ s ++ py!")") hc (identifier_chars hn) col not_nameChar (by simpa using e)
    exact hn.2 (e ▸ hw)
  | @«class» n b ms _ _ _ _ =>
    obtain ⟨_, e, _⟩ := cut_word (b := py!"class") (d := ' ') (y := n ++ py!"(" ++ b ++ py!"):" ++ ms.flatMap (fun m => '\n' :: m)) hc
      (keyword_chars _ (by decide)) col not_nameChar (by simpa using e)
    exact absurd e (by decide)
  | imports _ hl =>
    cases hl with
    | oneLine m ns _ =>
      obtain ⟨_, e, _⟩ := cut_word (b := py!"from") (d := ' ') (y := m ++ py!" import " ++ join py!", " ns) hc (keyword_chars _ (by decide)) col not_nameChar
        (by simpa using e)
      exact absurd e (by decide)
    | wrapped m ns _ =>
      obtain ⟨_, e, _⟩ := cut_word (b := py!"from") (d := ' ') (y := m ++ py!" import (\n    " ++ join py!",\n    " ns ++ py!",\n)") hc
        (keyword_chars _ (by decide)) col not_nameChar (by simpa using e)
      exact absurd e (by decide)
    | alias m a =>
      obtain ⟨_, e, _⟩ := cut_word (b := py!"import") (d := ' ') (y := m ++ py!" as " ++ a) hc (keyword_chars _ (by decide)) col not_nameChar
        (by simpa using e)
      exact absurd e (by decide)

/-- A module of one line with its line break. -/
theorem one_line {G : Copied} {t : Str} (hn : '\n' ∉ t) (h : PyModule G (t ++ py!"\n")) : PyStmt G t ∨ PyStmt G (t ++ py!"\n") := by
  obtain ⟨sts, h1, e⟩ := h
  match sts with
  | [] => simp [join] at e
  | [s] => exact .inr (by rw [e]; exact h1 s (by simp))
  | s :: s' :: r =>
    have e : t ++ py!"\n" = s ++ py!"\n" ++ join py!"\n" (s' :: r) := e
    have hc := congrArg (List.count '\n') e
    have h0 : t.count '\n' = 0 := List.count_eq_zero.mpr hn
    simp only [List.count_append, h0] at hc
    have h1' : s.count '\n' = 0 := by
      have : (py!"\n").count '\n' = 1 := by decide
      omega
    obtain ⟨e1, _, _⟩ := cut_at (p := fun c => c ≠ '\n') (a := t) (b := s) (c := '\n') (d := '\n') (x := []) (y := join py!"\n" (s' :: r))
      (fun c hc h => hn (h ▸ hc)) (fun c hc h => List.count_eq_zero.mp h1' (h ▸ hc)) (by simp) (by simp) (by simpa using e)
    exact .inl (by rw [e1]; exact h1 s (by simp))

/-- C80 is false for class names that are keywords: all of them are accepted, and what is printed for a list of integers is
not a module, whatever may be copied. -/
theorem valid_python_fails (G : Copied) {w : Str} (hw : w ∈ keywords) :
    ∃ text, PrintedFor (exEnv {}) w (.seq .list .list [.inst .int none]) false text ∧ ¬ PyModule G text := by
  have key : ∀ w ∈ keywords, (match fromData (exEnv {}) w (.seq .list .list [.inst .int none]) with
      | .ok n => (match toString' (exEnv {}) n false with
        | .ok text => decide (text = w ++ py!": TypeAlias = List[int]\n") && !w.contains '\n'
        | .error _ => false)
      | .error _ => false) = true := by decide +kernel
  have key := key w hw
  split at key
  · rename_i n hn
    split at key
    · rename_i text ht
      simp only [Bool.and_eq_true, decide_eq_true_eq, Bool.not_eq_true', List.contains_eq_mem, decide_eq_false_iff_not] at key
      refine ⟨text, ⟨n, hn, ht⟩, ?_⟩
      intro hm
      have e : text = w ++ py!": TypeAlias = List[int]" ++ py!"\n" := by rw [key.1]; simp
      rw [e] at hm
      rcases one_line (by simp [key.2]) hm with h | h
      · exact keyword_stmt (G := G) (rest := py!" TypeAlias = List[int]") hw (by simpa using h)
      · exact keyword_stmt (G := G) (rest := py!" TypeAlias = List[int]\n") hw (by simpa using h)
    · cases key
  · cases key

/-- Its data meets the hypotheses of the partial theorem. -/
example (G : Copied) : Regular (exEnv {}).U (.seq .list .list [.inst .int none]) ∧
    Writable G (exEnv {}).reprStr (exEnv {}).S.keyDoc (.seq .list .list [.inst .int none]) := by
  refine ⟨plain_regular (by decide +kernel), ?_, ?_⟩
  · simp only [ValAll, ValAllList, WordTy, and_true]; decide
  · simp [Every, EveryList, Written]

/-- The first character of an expression in which nothing is copied. -/
theorem expr_head {s : Str} (h : PyExpr .nothing s) : ∃ c r, s = c :: r ∧ c.isDigit = false := by
  cases h with
  | name h =>
    obtain ⟨a, r, rfl, ha, _⟩ := h.1
    refine ⟨a, r, rfl, ?_⟩
    rcases ha with ha | rfl
    · cases hd : a.isDigit with
      | false => rfl
      | true =>
        have h1 := asciiAlnum_cases (P := fun c => c.isDigit = true → c.isAlpha = false) (by decide +kernel) (alnum_digit hd) hd
        rw [h1] at ha; cases ha
    · decide
  | «attribute» h _ => obtain ⟨c, r, rfl, hd⟩ := expr_head h; exact ⟨c, _, rfl, hd⟩
  | constant h =>
    simp only [List.mem_cons, List.not_mem_nil, or_false] at h
    rcases h with rfl | rfl | rfl | rfl <;> exact ⟨_, _, rfl, by decide⟩
  | string _ => exact ⟨_, _, rfl, by decide⟩
  | emptyList => exact ⟨_, _, rfl, by decide⟩
  | list _ => exact ⟨_, _, rfl, by decide⟩
  | subscript h _ => obtain ⟨c, r, rfl, hd⟩ := expr_head h; exact ⟨c, _, rfl, hd⟩
  | copied h => exact h.elim
termination_by s.length
decreasing_by all_goals simp <;> omega

/-- C80 is false for class names that begin with an underscore and a digit: the class of a nested dictionary is declared under
its name, but its parent refers to it by the name without the underscore, which is not an expression. -/
theorem valid_reference_fails : PrintedFor (exEnv {}) py!"_1a" (.map .dict .dict [.str py!"k"] [.map .dict .dict [.str py!"b"] [.inst .int none]]) false
    py!"class _1aK(TypedDict):\n    b: int\n\n\nclass _1a(TypedDict):\n    k: 1aK" ∧ ¬ PyExpr .nothing py!"1aK" := by
  refine ⟨?_, ?_⟩
  · have key : (match fromData (exEnv {}) py!"_1a" (.map .dict .dict [.str py!"k"] [.map .dict .dict [.str py!"b"] [.inst .int none]]) with
        | .ok n => decide (toString' (exEnv {}) n false = .ok py!"class _1aK(TypedDict):\n    b: int\n\n\nclass _1a(TypedDict):\n    k: 1aK")
        | .error _ => false) = true := by decide +kernel
    split at key
    · rename_i n hn
      exact ⟨n, hn, of_decide_eq_true key⟩
    · cases key
  · intro h
    obtain ⟨c, r, e, hc⟩ := expr_head h
    injection e with e _
    subst e
    exact absurd hc (by decide)

/-- What contains a round bracket between other brackets has an item with one. -/
theorem items_paren {P : Str → Prop} {s : Str} (h : Items P s) (hp : '(' ∈ s) : ∃ a l r, P a ∧ '(' ∈ a ∧ s = l ++ a ++ r := by
  have gap : ∀ {w : Str}, Gap w → '(' ∉ w := fun hw h => by rcases hw _ h with h | h <;> cases h
  induction h with
  | @last w a w' hw ha hw' =>
    simp only [List.mem_append, gap hw, gap hw', false_or, or_false] at hp
    exact ⟨a, w, w', ha, hp, rfl⟩
  | @trailing w a w' w'' hw ha hw' hw'' =>
    simp only [List.mem_append, gap hw, gap hw', gap hw'', false_or, or_false, List.mem_singleton, show ('(' = ',') = False by decide] at hp
    exact ⟨a, w, w' ++ py!"," ++ w'', ha, hp, by simp⟩
  | @more w a w' r hw ha hw' _ ih =>
    simp only [List.mem_append, gap hw, gap hw', false_or, or_false, List.mem_singleton, show ('(' = ',') = False by decide] at hp
    rcases hp with hp | hp
    · exact ⟨a, w, w' ++ py!"," ++ r, ha, hp, by simp⟩
    · obtain ⟨b, l, r', hb, hpb, rfl⟩ := ih hp
      exact ⟨b, w ++ a ++ w' ++ py!"," ++ l, r', hb, hpb, by simp⟩

/-- Round brackets occur in expressions only between quotes, if they do not occur in what is copied. -/
theorem expr_paren {G : Copied} (hG : ∀ s, G.expr s → '(' ∉ s) {s : Str} (h : PyExpr G s) (hp : '(' ∈ s) : '"' ∈ s := by
  have word : ∀ {n : Str}, Identifier n → '(' ∉ n := fun hn h => absurd (identifier_chars hn _ h) not_nameChar
  cases h with
  | name h => exact absurd hp (word h)
  | @«attribute» e n h hn =>
    simp only [List.mem_append, word hn, or_false, List.mem_singleton, show ('(' = '.') = False by decide] at hp
    have := expr_paren hG h hp
    simp [this]
  | constant h =>
    simp only [List.mem_cons, List.not_mem_nil, or_false] at h
    rcases h with rfl | rfl | rfl | rfl <;> revert hp <;> decide
  | string _ => simp
  | emptyList => revert hp; decide
  | @list t h =>
    simp only [List.mem_append, or_false, false_or, List.mem_singleton, show ('(' = '[') = False by decide, show ('(' = ']') = False by decide] at hp
    obtain ⟨a, l, r, ha, hpa, rfl⟩ := items_paren h hp
    have := expr_paren hG ha hpa
    simp [this]
  | @subscript e t he h =>
    simp only [List.mem_append, or_false, false_or, List.mem_singleton, show ('(' = '[') = False by decide, show ('(' = ']') = False by decide] at hp
    rcases hp with hp | hp
    · have := expr_paren hG he hp
      simp [this]
    · obtain ⟨a, l, r, ha, hpa, rfl⟩ := items_paren h hp
      have := expr_paren hG ha hpa
      simp [this]
  | copied h => exact absurd hp (hG _ h)
termination_by s.length
decreasing_by all_goals subst_vars; simp <;> omega

/-- The first line of a module belongs to one statement. -/
theorem first_stmt {G : Copied} {a b : Str} (hn : '\n' ∉ a) (hne : a ≠ []) (h : PyModule G (a ++ '\n' :: b)) :
    ∃ r t, PyStmt G (a ++ r) ∧ '\n' :: b = r ++ t := by
  obtain ⟨sts, h1, e⟩ := h
  match sts with
  | [] => simp [join] at e
  | [s] => exact ⟨'\n' :: b, [], by rw [e]; exact h1 s (by simp), by simp⟩
  | s :: s' :: r =>
    have e : a ++ '\n' :: b = s ++ '\n' :: join py!"\n" (s' :: r) := by rw [e, join]; simp
    rcases List.append_eq_append_iff.mp e with ⟨x, e1, e2⟩ | ⟨x, e1, e2⟩
    · exact ⟨x, '\n' :: join py!"\n" (s' :: r), e1 ▸ h1 s (by simp), e2⟩
    · cases x with
      | nil => exact ⟨[], '\n' :: b, by rw [e1]; simpa using h1 s (by simp), by simp⟩
      | cons c x =>
        injection e2 with e2 _
        exact absurd (by rw [e1, ← e2]; simp) hn

/-- A frame with a tuple and a string as labels, in a list. -/
def sampleNestedTable : Val := .seq .list .list [readFrame ⟨py!"DataFrame", 2⟩ py!"Index([('a', 'b'), 'c'])"
  [.tuple (.str py!"a") [.str py!"b"] py!"('a', 'b')", .single (.str py!"c")] (fun _ => .seq .series ⟨py!"Series", 3⟩ [.inst .int none])]

/-- C80 is false for frames in which some but not all labels are tuples, if they are not high enough to get an alias: the text
of their class is printed in the place of its name. -/
theorem valid_labels_fails {G : Copied} (hG : ∀ s, G.expr s → '(' ∉ s) :
    ∃ text, PrintedFor (exEnv { minHeight := 2 }) py!"Data" sampleNestedTable false text ∧ ¬ PyModule G text := by
  have key : (match fromData (exEnv { minHeight := 2 }) py!"Data" sampleNestedTable with
      | .ok n => (match toString' (exEnv { minHeight := 2 }) n false with
        | .ok text => decide (text = py!"Data: TypeAlias = List[class DataDataframe(pd.DataFrame):" ++ '\n' :: text.drop 58) &&
            !text.contains '"'
        | .error _ => false)
      | .error _ => false) = true := by decide +kernel
  split at key
  · rename_i n hn
    split at key
    · rename_i text ht
      refine ⟨text, ⟨n, hn, ht⟩, fun hm => ?_⟩
      simp only [Bool.and_eq_true, decide_eq_true_eq, Bool.not_eq_true', List.contains_eq_mem, decide_eq_false_iff_not] at key
      obtain ⟨k1, k2⟩ := key
      generalize text.drop 58 = rest at k1
      subst k1
      obtain ⟨r, t, hs, er⟩ := first_stmt (by decide) (by simp) hm
      rw [er] at k2
      have hq : '"' ∉ r := fun h => k2 (by simp [h])
      have hdat : ∀ c ∈ py!"Data", NameChar c := by unfold NameChar; decide
      have col : ¬ NameChar ':' := not_nameChar
      generalize e : py!"Data: TypeAlias = List[class DataDataframe(pd.DataFrame):" ++ r = u at hs
      have e : py!"Data" ++ ':' :: (py!" TypeAlias = List[class DataDataframe(pd.DataFrame):" ++ r) = u := e
      have hu : '"' ∉ u := by
        rw [← e]
        simp only [List.mem_append, List.mem_cons, hq]
        decide
      have hpu : '(' ∈ u := by rw [← e]; simp
      cases hs with
      | empty => simp at e
      | docstring h =>
        obtain ⟨r, rfl, _⟩ := h
        simp at hu
      | @annotated n a b hn ha hb =>
        simp only [List.mem_append, not_or] at hpu hu
        rcases hpu with (((h | h) | h) | h) | h
        · exact absurd (identifier_chars hn _ h) not_nameChar
        · exact absurd h (by decide)
        · exact hu.1.1.2 (expr_paren hG ha h)
        · exact absurd h (by decide)
        · exact hu.2 (expr_paren hG hb h)
      | @call n f s hn _ _ =>
        obtain ⟨_, e, _⟩ := cut_word (b := n) (d := ' ') (y := py!"= " ++ f ++ py!"(" ++ s ++ py!")") hdat (identifier_chars hn) col not_nameChar (by simpa using e)
        exact absurd e (by decide)
      | @«class» n b ms _ _ _ _ => simp at e
      | imports _ hl =>
        cases hl with
        | oneLine m ns _ => simp at e
        | wrapped m ns _ => simp at e
        | alias m a => simp at e
    · cases key
  · cases key

end Verif.Props
