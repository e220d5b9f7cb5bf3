import Verif.Lemmas.Dict
/-
Layout of the generated text and renaming of declarations (C38, C39).
-/
namespace Verif.Props
open Verif Verif.Spec

/-- The strings in order, each followed by its gap. -/
def weave : List Str → List Str → Str
  | s :: r, g :: gs => s ++ g ++ weave r gs
  | _, _ => []

theorem join_weave : ∀ {l : List Str}, ∃ gaps : List Str, gaps.length = l.length ∧
    (∀ g ∈ gaps.dropLast, g = py!"\n\n") ∧ (∀ g ∈ gaps, g = py!"\n\n" ∨ g = []) ∧ join py!"\n\n" l = weave l gaps
  | [] => ⟨[], rfl, by simp, by simp, rfl⟩
  | [x] => ⟨[[]], rfl, by simp, by simp, by simp [join, weave]⟩
  | x :: y :: r => by
    obtain ⟨gs, h1, h2, h3, h4⟩ := join_weave (l := y :: r)
    have hne : gs ≠ [] := by intro h; rw [h] at h1; simp at h1
    refine ⟨py!"\n\n" :: gs, by simp [h1], ?_, ?_, ?_⟩
    · intro g hg
      rw [List.dropLast_cons_of_ne_nil hne] at hg
      simp only [List.mem_cons] at hg
      rcases hg with rfl | hg
      · rfl
      · exact h2 g hg
    · intro g hg
      simp only [List.mem_cons] at hg
      rcases hg with rfl | hg
      · exact .inl rfl
      · exact h3 g hg
    · simp only [join, weave]
      rw [h4]

/-- Gaps for strings that may start with a line break of their own: the break is moved to the gap before. -/
theorem weave_shift {f : Str → Bool} : ∀ {l gaps : List Str} {g0 : Str}, gaps.length = l.length →
    (∀ g ∈ gaps, ∀ c ∈ g, c = '\n') → (∀ g ∈ gaps.dropLast, 2 ≤ g.length) → (∀ c ∈ g0, c = '\n') → 2 ≤ g0.length →
    ∃ gaps' g0', gaps'.length = l.length ∧ (∀ g ∈ gaps', ∀ c ∈ g, c = '\n') ∧ (∀ g ∈ gaps'.dropLast, 2 ≤ g.length) ∧
      (∀ c ∈ g0', c = '\n') ∧ 2 ≤ g0'.length ∧
      g0 ++ weave (l.map (fun s => if f s then '\n' :: s else s)) gaps = g0' ++ weave l gaps'
  | [], [], g0, _, _, _, hc, hl => ⟨[], g0, rfl, by simp, by simp, hc, hl, rfl⟩
  | [], _ :: _, _, h, _, _, _, _ => by simp at h
  | _ :: _, [], _, h, _, _, _, _ => by simp at h
  | s :: r, g :: gs, g0, hlen, hg, hd, hc, hl => by
    have hfirst : ∃ g0', (∀ c ∈ g0', c = '\n') ∧ 2 ≤ g0'.length ∧
        g0 ++ (if f s then '\n' :: s else s) = g0' ++ s := by
      by_cases hf : f s = true
      · refine ⟨g0 ++ py!"\n", ?_, by simp; omega, by simp [hf]⟩
        intro c hcm
        simp only [List.mem_append, List.mem_singleton] at hcm
        rcases hcm with h | h
        · exact hc c h
        · exact h
      · exact ⟨g0, hc, hl, by simp [hf]⟩
    obtain ⟨g0', a1, a2, a3⟩ := hfirst
    cases r with
    | nil =>
      cases gs with
      | nil =>
        refine ⟨[g], g0', rfl, hg, by simp, a1, a2, ?_⟩
        simp only [List.map_cons, List.map_nil, weave, List.append_nil]
        rw [← List.append_assoc, a3, List.append_assoc]
      | cons g' gs => simp at hlen
    | cons s' r =>
      have hne : gs ≠ [] := by intro h; rw [h] at hlen; simp at hlen
      have hgd : g ∈ (g :: gs).dropLast := by rw [List.dropLast_cons_of_ne_nil hne]; simp
      obtain ⟨gaps', g1, b1, b2, b3, b4, b5, b6⟩ := weave_shift (f := f) (l := s' :: r) (gaps := gs) (g0 := g)
        (by simpa using hlen) (fun x hx => hg x (by simp [hx]))
        (fun x hx => hd x (by rw [List.dropLast_cons_of_ne_nil hne]; simp [hx])) (hg g (by simp)) (hd g hgd)
      have hne' : gaps' ≠ [] := by intro h; rw [h] at b1; simp at b1
      refine ⟨g1 :: gaps', g0', by simp [b1], ?_, ?_, a1, a2, ?_⟩
      · intro x hx
        simp only [List.mem_cons] at hx
        rcases hx with rfl | hx
        · exact b4
        · exact b2 x hx
      · intro x hx
        rw [List.dropLast_cons_of_ne_nil hne'] at hx
        simp only [List.mem_cons] at hx
        rcases hx with rfl | hx
        · exact b5
        · exact b3 x hx
      · have e : weave ((s :: s' :: r).map (fun s => if f s then '\n' :: s else s)) (g :: gs) =
            (if f s then '\n' :: s else s) ++ (g ++ weave ((s' :: r).map (fun s => if f s then '\n' :: s else s)) gs) := by
          rw [List.map_cons]; simp only [weave, List.append_assoc]
        have e2 : weave (s :: s' :: r) (g1 :: gaps') = s ++ (g1 ++ weave (s' :: r) gaps') := by
          simp only [weave, List.append_assoc]
        rw [e, e2, b6, ← List.append_assoc, a3, List.append_assoc]

/-- **C38**: the text consists of the strings, verbatim and in order; between two of them there are at least two line
breaks and nothing else, and after the last one there are only line breaks. -/
theorem layout_keeps_strings (strs : List Str) :
    ∃ gaps : List Str, gaps.length = strs.length ∧ (∀ g ∈ gaps, ∀ c ∈ g, c = '\n') ∧
      (∀ g ∈ gaps.dropLast, 2 ≤ g.length) ∧ formatNodeStrings strs = weave strs gaps := by
  have hnl : ∀ {g : Str}, g = py!"\n\n" ∨ g = [] → ∀ c ∈ g, c = '\n' := by
    rintro g (rfl | rfl) <;> decide
  match strs with
  | [] => exact ⟨[], rfl, by simp, by simp, rfl⟩
  | [s] => exact ⟨[py!"\n"], rfl, by decide, by simp, by simp [formatNodeStrings, spaceClasses, join, weave]⟩
  | s :: s' :: r =>
    have e : formatNodeStrings (s :: s' :: r) =
        s ++ py!"\n" ++ py!"\n\n" ++ join py!"\n\n" (s' :: r.map (fun l => if startsWith l py!"class" then '\n' :: l else l)) := by
      simp only [formatNodeStrings, spaceClasses, join]
    cases r with
    | nil =>
      refine ⟨[py!"\n\n\n", []], rfl, ?_, ?_, ?_⟩
      · decide
      · decide
      · rw [e]; simp [join, weave]
    | cons s'' r =>
      obtain ⟨gs, h1, h2, h3, h4⟩ := join_weave (l := (s'' :: r).map (fun l => if startsWith l py!"class" then '\n' :: l else l))
      obtain ⟨gaps', g0', b1, b2, b3, b4, b5, b6⟩ := weave_shift (f := fun l => startsWith l py!"class") (l := s'' :: r)
        (gaps := gs) (g0 := py!"\n\n") (by simpa using h1) (fun g hg => hnl (h3 g hg))
        (fun g hg => by rw [h2 g hg]; simp) (by decide) (by simp)
      have hne : gaps' ≠ [] := by intro h; rw [h] at b1; simp at b1
      refine ⟨py!"\n\n\n" :: g0' :: gaps', by simp [b1], ?_, ?_, ?_⟩
      · intro g hg
        simp only [List.mem_cons] at hg
        rcases hg with rfl | rfl | hg
        · decide
        · exact b4
        · exact b2 g hg
      · intro g hg
        rw [List.dropLast_cons_of_ne_nil (by simp), List.dropLast_cons_of_ne_nil hne] at hg
        simp only [List.mem_cons] at hg
        rcases hg with rfl | rfl | hg
        · decide
        · exact b5
        · exact b3 g hg
      · rw [e]
        have : join py!"\n\n" (s' :: (s'' :: r).map (fun l => if startsWith l py!"class" then '\n' :: l else l)) =
            s' ++ (py!"\n\n" ++ join py!"\n\n" ((s'' :: r).map (fun l => if startsWith l py!"class" then '\n' :: l else l))) := by
          rw [List.map_cons]; simp only [join, List.append_assoc]
        rw [this, h4, b6]
        simp [weave]

/-- **C38** for the whole generator: the text is the layout of the strings it is made of. -/
theorem text_keeps_declarations (E : Env) (n : Node) (imports : Bool) (text : Str) (h : toString' E n imports = .ok text) :
    ∃ strs gaps : List Str, nodeStrings E n imports = .ok strs ∧ gaps.length = strs.length ∧
      (∀ g ∈ gaps, ∀ c ∈ g, c = '\n') ∧ (∀ g ∈ gaps.dropLast, 2 ≤ g.length) ∧ text = weave strs gaps := by
  unfold toString' at h
  cases hs : nodeStrings E n imports with
  | error e => rw [hs] at h; cases h
  | ok strs =>
    rw [hs] at h
    injection h with h
    obtain ⟨gaps, h1, h2, h3, h4⟩ := layout_keeps_strings strs
    exact ⟨strs, gaps, rfl, h1, h2, h3, by rw [← h, h4]⟩

example : formatNodeStrings [py!"import a", py!"A: TypeAlias = int", py!"class B: ..."] =
    py!"import a\n\n\nA: TypeAlias = int\n\n\nclass B: ..." := by decide

/-! ### Renaming declarations -/

/-- The full statement of C39: in every declaration exactly the declared name is exchanged, and it is returned. -/
def RenamesDeclarations (U : Uni) (ok : TDecl → Prop) : Prop :=
  ∀ (d : TDecl) (new : Str), nameOk U d.name = true → ok d →
    renameDeclaration U (fun _ => new) d.print = (TDecl.print ⟨new, d.body⟩, d.name)

/-- **C39** is false: for an alias the old name is reported with its annotation, and the annotation is lost. -/
theorem rename_declaration_fails : ¬ RenamesDeclarations asciiUni (fun _ => True) := by
  intro h
  have := h ⟨py!"X", .alias (.name py!"int")⟩ py!"Y" (by decide) trivial
  revert this
  decide

example : renameDeclaration asciiUni (fun _ => py!"Y") py!"X: TypeAlias = int" = (py!"Y = int", py!"X: TypeAlias") := by decide

/-- What renaming gives for an alias: the declared name is exchanged together with `: TypeAlias`. -/
theorem rename_alias (U : Uni) (n new : Str) (t : TExpr) (hn : '=' ∉ n) (h0 : ∀ c, n.head? = some c → isSpace c = false) (hne : n ≠ []) (ht : '=' ∉ t.print) :
    renameDeclaration U (fun _ => new) (TDecl.print ⟨n, .alias t⟩) = (new ++ py!" = " ++ t.print, n ++ py!": TypeAlias") := by
  have e : TDecl.print ⟨n, .alias t⟩ = (n ++ py!": TypeAlias ") ++ '=' :: (' ' :: t.print) := by simp [TDecl.print]
  have hs : strip (n ++ py!": TypeAlias ") = n ++ py!": TypeAlias" := by
    have h1 : lstrip (n ++ py!": TypeAlias ") = n ++ py!": TypeAlias " := by
      apply lstrip_eq_self
      intro c hc
      cases n with
      | nil => exact absurd rfl hne
      | cons a r => exact h0 c (by simpa using hc)
    unfold strip
    rw [h1]
    simp [rstrip, List.dropWhile, isSpace]
  unfold renameDeclaration
  rw [e, if_pos (by simp), splitChar_append_sep (by simp [hn]), splitChar_free (by simp [ht])]
  simp [hs]

theorem classMatch_none {U : Uni} {s : Str} (h : startsWith s py!"class" = false) : classMatch U s = none := by
  simp [classMatch, h]

/-- Nowhere is the text `class` followed by white space. -/
def NoClassWord (s : Str) : Prop := ∀ a b c, s = a ++ py!"class" ++ c :: b → isSpace c = false

theorem noClass_match {U : Uni} {s : Str} (h : NoClassWord s) : classMatch U s = none := by
  cases hs : startsWith s py!"class" with
  | false => exact classMatch_none hs
  | true =>
    obtain ⟨b, rfl⟩ : ∃ b, s = py!"class" ++ b := by
      obtain ⟨b, hb⟩ := List.isPrefixOf_iff_prefix.mp (show (py!"class").isPrefixOf s = true from hs)
      exact ⟨b, hb.symm⟩
    have hd : (py!"class" ++ b).drop 5 = b := by simp
    have hl : lstrip b = b := by
      apply lstrip_eq_self
      intro c hc
      cases b with
      | nil => cases hc
      | cons x r => simp at hc; subst hc; exact h [] r x rfl
    simp [classMatch, hd, hl]

theorem classSub_free {U : Uni} {new : Str} : ∀ {s : Str}, NoClassWord s → classSub U new 0 s = s
  | [], _ => by simp [classSub]
  | c :: r, h => by
    rw [classSub, noClass_match h]
    simp [classSub_free (s := r) (fun a b x e => h (c :: a) b x (by simp [e]))]

/-- A test for `NoClassWord`. -/
def noClassWord : Str → Bool
  | [] => true
  | c :: r => !(startsWith (c :: r) py!"class" && ((c :: r).drop 5).head?.any isSpace) && noClassWord r

theorem noClassWord_iff : ∀ {s : Str}, noClassWord s = true → NoClassWord s
  | [], _, a, b, c, e => by simp at e
  | x :: r, h, a, b, c, e => by
    simp only [noClassWord, Bool.and_eq_true, Bool.not_eq_true', Bool.and_eq_false_iff] at h
    cases a with
    | nil =>
      have e' : x :: r = py!"class" ++ c :: b := by simpa using e
      rw [e'] at h
      rcases h.1 with h | h
      · simp [startsWith] at h
      · simpa using h
    | cons y a => exact noClassWord_iff h.2 a b c (by simp at e; simpa using e.2)

theorem classSub_skip {U : Uni} {new : Str} : ∀ {a b : Str}, classSub U new a.length (a ++ b) = classSub U new 0 b
  | [], b => rfl
  | c :: a, b => by simp only [List.length_cons, List.cons_append, classSub]; exact classSub_skip

theorem takeWhile_prefix {α} {p : α → Bool} : ∀ {a b : List α}, (∀ x ∈ a, p x = true) → (∀ x, b.head? = some x → p x = false) →
    (a ++ b).takeWhile p = a
  | [], b, _, h => by
    cases b with
    | nil => rfl
    | cons x r => simp [h x rfl]
  | x :: a, b, h1, h2 => by
    simp [h1 x (by simp), takeWhile_prefix (a := a) (b := b) (fun y hy => h1 y (by simp [hy])) h2]

theorem classMatch_decl {U : Uni} {n rest : Str} (hn : ∀ c ∈ n, wordChar U c = true) (hne : n ≠ [])
    (hr : ∀ c, rest.head? = some c → wordChar U c = false) : classMatch U (py!"class " ++ n ++ rest) = some (n, 6 + n.length) := by
  have hns : ∀ c ∈ n, isSpace c = false := by
    intro c hc
    have := hn c hc
    simp only [wordChar, Bool.or_eq_true, beq_iff_eq] at this
    exact word_not_space (U := U) (s := [c]) (by intro d hd; simp at hd; subst hd; exact this) (by simp)
  have hsp : isSpace ' ' = true := by decide
  have hl : lstrip (' ' :: (n ++ rest)) = n ++ rest := by
    have : lstrip (' ' :: (n ++ rest)) = lstrip (n ++ rest) := by simp [lstrip, List.dropWhile, hsp]
    rw [this]
    apply lstrip_eq_self
    intro c hc
    cases n with
    | nil => exact absurd rfl hne
    | cons a r => simp at hc; subst hc; exact hns a (by simp)
  unfold classMatch
  have hd : (py!"class " ++ n ++ rest).drop 5 = ' ' :: (n ++ rest) := by simp
  rw [if_pos (by simp [startsWith])]
  simp only [hd, hl, takeWhile_prefix hn hr]
  rw [if_pos ⟨by simp, hne⟩]
  simp

theorem rename_class {U : Uni} {n rest new : Str} (hn : ∀ c ∈ n, wordChar U c = true) (hne : n ≠ [])
    (hr : ∀ c, rest.head? = some c → wordChar U c = false) (he : '=' ∉ n ++ rest) (hc : NoClassWord rest) :
    renameDeclaration U (fun _ => new) (py!"class " ++ n ++ rest) = (py!"class " ++ new ++ rest, n) := by
  have hm := classMatch_decl hn hne hr
  have hmem : '=' ∉ py!"class " ++ n ++ rest := by
    intro h
    simp only [List.append_assoc, List.mem_append] at h he
    rcases h with h | h
    · revert h; decide
    · exact he h
  unfold renameDeclaration
  rw [if_neg hmem, if_pos (by simp [startsWith])]
  have hcons : py!"class " ++ n ++ rest = 'c' :: (py!"lass " ++ n ++ rest) := rfl
  have hs : classSearch U (py!"class " ++ n ++ rest) = some n := by
    rw [hcons, classSearch, ← hcons, hm]
  rw [hs]
  dsimp only
  rw [if_neg (by simpa using hne), hcons, classSub, ← hcons, hm]
  dsimp only
  have hl : (py!"lass " ++ n).length = 6 + n.length - 1 := by simp; omega
  rw [← hl, classSub_skip, classSub_free hc]

/-- **C39** for declarations in class syntax (TypedDicts, protocols, frames) that contain no `=` and, after the name,
no word that ends in `class` followed by white space. Missing: aliases and functional TypedDicts, for which the claim is false (`rename_alias`,
`rename_functional`). -/
theorem rename_declaration_partial (U : Uni) :
    RenamesDeclarations U (fun d => '=' ∉ d.print ∧ ∃ rest, (∀ new, TDecl.print ⟨new, d.body⟩ = py!"class " ++ new ++ rest) ∧
      (∀ c, rest.head? = some c → c = '(') ∧ NoClassWord rest) := by
  rintro ⟨n, b⟩ new hn ⟨he, rest, hp, hr, hc⟩
  have hw := (nameOk_iff U n).mp hn
  dsimp only at hp ⊢
  rw [hp n, hp new]
  rw [hp n] at he
  apply rename_class
  · intro c hcm
    have := hw.2.1 c hcm
    simp only [wordChar, Bool.or_eq_true, beq_iff_eq]
    exact this.symm
  · rintro rfl
    obtain ⟨c, hcm, _⟩ := hw.1
    simp at hcm
  · intro c hcm
    rw [hr c hcm]
    simp only [wordChar, Uni.isAlnum, U.alpha_ascii '(' (by decide), U.numeric_ascii '(' (by decide)]
    decide
  · intro h
    apply he
    simp only [List.append_assoc, List.mem_append] at h ⊢
    exact .inr h
  · exact hc

/-- The hypotheses are met by a TypedDict in class syntax. -/
example : let d : TDecl := ⟨py!"X", .record false none [⟨py!"a", true, false, .name py!"int", none⟩]⟩
    '=' ∉ d.print ∧ ∃ rest, (∀ new, TDecl.print ⟨new, d.body⟩ = py!"class " ++ new ++ rest) ∧
      (∀ c, rest.head? = some c → c = '(') ∧ NoClassWord rest :=
  ⟨by decide, py!"(TypedDict):\n    a: int", by intro new; simp [TDecl.print, recordText, Entry.raw, Entry.typeText, RawEntry.classText, join, TExpr.print],
    by simp, noClassWord_iff (by decide)⟩

/-- **C39** is false in class syntax as well: if the class of a value is called `Subclass`, the key after it is taken for a
declared name and replaced. -/
theorem rename_declaration_fails_class :
    ¬ RenamesDeclarations asciiUni (fun d => ∃ doc es, d.body = .record false doc es ∧ '=' ∉ d.print) := by
  intro h
  have := h ⟨py!"X", .record false none [⟨py!"a", true, false, .name py!"Subclass", none⟩, ⟨py!"b", true, false, .name py!"int", none⟩]⟩
    py!"Y" (by decide) ⟨none, _, rfl, by decide⟩
  revert this
  decide

example : (renameDeclaration asciiUni (fun _ => py!"Y") py!"class X(TypedDict):\n    a: Subclass\n    b: int").1 =
    py!"class Y(TypedDict):\n    a: Subclass Y: int" := by decide

/-- In functional syntax only the first of the two occurrences of the name is exchanged. -/
theorem rename_functional (U : Uni) (n new body : Str) (hn : '=' ∉ n) (hne : n ≠ [])
    (h0 : ∀ c, n.head? = some c → isSpace c = false) (h1 : ∀ c, n.getLast? = some c → isSpace c = false)
    (hb : '=' ∉ body) :
    renameDeclaration U (fun _ => new) (n ++ py!" = TypedDict(\n    \"" ++ n ++ body) =
      (new ++ py!" = TypedDict(\n    \"" ++ n ++ body, n) := by
  have e : n ++ py!" = TypedDict(\n    \"" ++ n ++ body = (n ++ py!" ") ++ '=' :: (py!" TypedDict(\n    \"" ++ n ++ body) := by simp
  have hs : strip (n ++ py!" ") = n := by
    have h2 : lstrip (n ++ py!" ") = n ++ py!" " := by
      apply lstrip_eq_self
      intro c hc
      cases n with
      | nil => exact absurd rfl hne
      | cons a r => exact h0 c (by simpa using hc)
    have h3 := rstrip_eq_self h1
    unfold strip
    rw [h2]
    unfold rstrip at h3 ⊢
    have hsp : isSpace ' ' = true := by decide
    simp only [List.reverse_append, List.reverse_cons, List.reverse_nil, List.nil_append, List.singleton_append,
      List.dropWhile_cons, hsp, if_true]
    exact h3
  unfold renameDeclaration
  rw [e, if_pos (by simp), splitChar_append_sep (by simp [hn]), splitChar_free (by simp [hn, hb])]
  simp [hs]

end Verif.Props
