import Verif.Lemmas.Yaml
/-
Lemmas about the new document, line by line.
-/
namespace Verif
open Spec

theorem findOutsideFrom_shift {x : Char} : ∀ (l : Str) (b : Bool) (k : Nat), findOutsideFrom x b k l = (findOutsideFrom x b 0 l).map (· + k)
  | [], b, k => rfl
  | c :: r, b, k => by
    rw [findOutsideFrom, findOutsideFrom]
    have e : ∀ b', findOutsideFrom x b' (k + 1) r = (findOutsideFrom x b' (0 + 1) r).map (· + k) := by
      intro b'
      rw [findOutsideFrom_shift r b' (k + 1), findOutsideFrom_shift r b' (0 + 1), Option.map_map]
      congr 1
      funext n
      simp only [Function.comp]; omega
    split
    · exact e _
    · split
      · simp
      · exact e _

theorem findOutsideFrom_skip {x : Char} {ws : Str} (h : ∀ c ∈ ws, isQuote c = false ∧ c ≠ x) : ∀ (l : Str) (b : Bool) (k : Nat),
    findOutsideFrom x b k (ws ++ l) = findOutsideFrom x b (k + ws.length) l := by
  induction ws with
  | nil => intros; rfl
  | cons c r ih =>
    intro l b k
    rw [List.cons_append, findOutsideFrom, if_neg (by simp [(h c (by simp)).1]), if_neg (fun h' => (h c (by simp)).2 h'.1),
      ih (fun d hd => h d (by simp [hd]))]
    simp only [List.length_cons]
    congr 1; omega

theorem space_quiet {c x : Char} (h : isSpace c = true) (hx : isSpace x = false) : isQuote c = false ∧ c ≠ x := by
  constructor
  · unfold isQuote
    by_cases h1 : c = '\''
    · subst h1; revert h; decide
    · by_cases h2 : c = '"'
      · subst h2; revert h; decide
      · simp [h1, h2]
  · intro he; rw [he, hx] at h; cases h

theorem findOutside_blank {x : Char} (hx : isSpace x = false) {ws : Str} (h : ∀ c ∈ ws, isSpace c = true) (l : Str) :
    findOutside (ws ++ l) x = (findOutside l x).map (· + ws.length) := by
  unfold findOutside
  rw [findOutsideFrom_skip (fun c hc => space_quiet (h c hc) hx), findOutsideFrom_shift]
  simp

/-- Whether there is one at all does not depend on characters other than quotation marks. -/
theorem findOutside_filter {x : Char} (q : Char → Bool) (hq : ∀ c, isQuote c = true ∨ c = x → q c = true) : ∀ (l : Str) (b : Bool) (k k' : Nat),
    (findOutsideFrom x b k l).isSome = (findOutsideFrom x b k' (l.filter q)).isSome
  | [], b, k, k' => rfl
  | c :: r, b, k, k' => by
    rw [List.filter_cons]
    by_cases hc : q c = true
    · rw [if_pos hc, findOutsideFrom, findOutsideFrom]
      split
      · exact findOutside_filter q hq r _ _ _
      · split
        · rfl
        · exact findOutside_filter q hq r _ _ _
    · have h1 : isQuote c = false := by
        cases h : isQuote c with
        | false => rfl
        | true => exact absurd (hq c (.inl h)) hc
      have h2 : c ≠ x := fun h => hc (hq c (.inr h))
      rw [if_neg hc, findOutsideFrom, if_neg (by simp [h1]), if_neg (fun h => h2 h.1)]
      exact findOutside_filter q hq r _ _ _

theorem filter_lstrip {q : Char → Bool} (hq : ∀ c, isSpace c = true → q c = false) : ∀ s : Str, (lstrip s).filter q = s.filter q := by
  intro s
  obtain ⟨t, ht, hs⟩ := lstrip_append (s := s)
  have : s.filter q = (t ++ lstrip s).filter q := by rw [← ht]
  rw [this, List.filter_append]
  have : t.filter q = [] := by
    rw [List.filter_eq_nil_iff]; intro c hc; rw [hq c (hs c hc)]; simp
  rw [this]; rfl

theorem filter_splitChar {q : Char → Bool} {c : Char} (hc : q c = false) : ∀ s : Str, ((splitChar c s).map (·.filter q)).flatten = s.filter q
  | [] => rfl
  | d :: r => by
    have ih := filter_splitChar (q := q) hc r
    rw [splitChar]
    split
    · rename_i h
      have : d = c := by simpa using h
      subst this
      simp [hc, ih]
    · cases hs : splitChar c r with
      | nil => exact absurd hs (splitChar_ne_nil _ _)
      | cons w ws =>
        rw [hs] at ih
        simp only [List.map_cons, List.flatten_cons] at ih ⊢
        rw [List.filter_cons, List.filter_cons]
        split
        · rw [List.cons_append, ih]
        · exact ih

theorem visibleText_eq (line : Str) : visibleText line = removeSpacing line := by
  have h : ∀ s : Str, visibleFrom false s = (splitChar '\t' s).headD [] ++ ((splitChar '\t' s).tail.map lstrip).flatten ∧
      visibleFrom true s = ((splitChar '\t' s).map lstrip).flatten := by
    intro s
    induction s with
    | nil => exact ⟨rfl, rfl⟩
    | cons c r ih =>
      obtain ⟨h1, h2⟩ := ih
      by_cases hc : c = '\t'
      · subst hc
        simp [visibleFrom, splitChar, h2, lstrip]
      · obtain ⟨w, ws, hw⟩ : ∃ w ws, splitChar '\t' r = w :: ws := by
          cases h : splitChar '\t' r with
          | nil => exact absurd h (splitChar_ne_nil _ _)
          | cons w ws => exact ⟨w, ws, rfl⟩
        rw [hw] at h1 h2
        have hsp : splitChar '\t' (c :: r) = (c :: w) :: ws := by rw [splitChar, if_neg (by simpa using hc), hw]
        rw [hsp]
        simp only [visibleFrom, if_neg hc]
        constructor
        · rw [if_neg (by simp), h1]; simp
        · by_cases hs : isSpace c = true
          · rw [if_pos ⟨trivial, hs⟩, h2]
            simp [lstrip, List.dropWhile_cons, hs]
          · rw [if_neg (by simp [hs]), h1]
            simp [lstrip, List.dropWhile_cons, hs]
  exact (h line).2

theorem filter_removeSpacing {q : Char → Bool} (hq : ∀ c, isSpace c = true → q c = false) (s : Str) : (removeSpacing s).filter q = s.filter q := by
  unfold removeSpacing
  rw [List.filter_flatten, List.map_map]
  have : ((fun l => List.filter q l) ∘ lstrip) = (fun l : Str => l.filter q) := by
    funext l; exact filter_lstrip hq l
  rw [this]
  exact filter_splitChar (hq _ (by decide)) s

theorem isPrefix_char {c : Char} {s : Str} : startsWith s [c] = true ↔ s.head? = some c := by
  unfold startsWith
  cases s with
  | nil => simp
  | cons d r => simp [List.isPrefixOf, @eq_comm _ d c]

theorem strip_nil_iff {s : Str} : strip s = [] ↔ ∀ c ∈ s, isSpace c = true := by
  constructor
  · intro h c hc
    cases hs : isSpace c with
    | true => rfl
    | false =>
      obtain ⟨a, b, rfl⟩ := List.append_of_mem hc
      unfold strip at h
      obtain ⟨a', e, _⟩ := lstrip_visible (a := a) (b := b) hs
      rw [e, rstrip_visible hs] at h
      simp at h
  · intro h
    unfold strip
    have := lstrip_allspace (a := s) (b := []) h
    rw [List.append_nil] at this
    rw [this]; rfl

theorem unquote_eq (key : Str) : (if startsWith key py!"\"" && endsWith key py!"\"" then Except.ok (ε := PyErr) (stripChar '"' key)
      else if startsWith key py!"'" && endsWith key py!"'" then .ok (stripChar '\'' key) else .ok key) = .ok (unquote key) := by
  unfold unquote
  cases startsWith key py!"\"" <;> cases endsWith key py!"\"" <;> cases startsWith key py!"'" <;> cases endsWith key py!"'" <;> rfl

theorem strip_cons_visible {ws b : Str} {d : Char} (hws : ∀ c ∈ ws, isSpace c = true) (hd : isSpace d = false) : strip (ws ++ d :: b) = d :: rstrip b := by
  unfold strip
  rw [lstrip_allspace hws]
  have : lstrip (d :: b) = d :: b := by unfold lstrip; simp [hd]
  rw [this]
  exact rstrip_visible (x := []) hd

/-- The key of a text that begins with blanks. -/
theorem key_of_body {ws body : Str} (hws : ∀ c ∈ ws, isSpace c = true) {d : Char} {b : Str} (hb : body = d :: b) (hd : isSpace d = false)
    (hne : ws = [] → d ≠ ':') :
    keyIn (ws ++ body) =
      .ok (match findOutside body ':' with
        | none => []
        | some i => unquote (body.take i)) := by
  subst hb
  unfold keyIn
  rw [strip_cons_visible hws hd]
  dsimp only
  have hdw : d ∉ ws := fun h => by rw [hws d h] at hd; cases hd
  rw [findOutside_blank (by decide) hws, find_char hdw]
  cases hf : findOutside (d :: b) ':' with
  | none => rfl
  | some i =>
    simp only [Option.map_some]
    have hpos : ∃ m, i + ws.length = m + 1 := by
      cases hw : ws with
      | cons c r => exact ⟨i + r.length, by simp only [List.length_cons]; omega⟩
      | nil =>
        cases i with
        | succ i => exact ⟨i, by simp⟩
        | zero =>
          have := ((findOutside_some (x := ':') (by decide) (d :: b) 0).mp hf).1
          simp at this
          exact absurd this (hne hw)
    obtain ⟨m, hm⟩ := hpos
    rw [hm]
    dsimp only
    rw [unquote_eq]
    congr 2
    rw [← hm, Option.getD_some, List.take_append, List.drop_append]
    have e1 : List.drop ws.length (List.take (i + ws.length) ws) = [] := by
      apply List.drop_eq_nil_of_le
      simp only [List.length_take]; omega
    rw [e1]
    have e2 : (List.take (i + ws.length) ws).length = ws.length := by simp only [List.length_take]; omega
    rw [e2]
    have e3 : i + ws.length - ws.length = i := by omega
    rw [e3, Nat.sub_self]; simp

theorem alpha_visible {U : Uni} {c : Char} (h : U.isAlpha c = true) : isSpace c = false ∧ c ≠ '-' ∧ c ≠ ':' := by
  refine ⟨?_, ?_, ?_⟩
  · cases hs : isSpace c with
    | false => rfl
    | true => rw [(U.space_alnum c hs).1] at h; cases h
  · rintro rfl; rw [U.alpha_ascii _ (by decide)] at h; revert h; decide
  · rintro rfl; rw [U.alpha_ascii _ (by decide)] at h; revert h; decide

/-- The key of a line, in terms of its text from the key on. -/
theorem keyOfLine_eq {U : Uni} {line : Str} {c : Char} {r : Str} (h : removeSpacing line = c :: r) (hc : U.isAlpha c = true ∨ c = '-') :
    keyOfLine line = if lineBody line = [] then .error .index else .ok (match findOutside (lineBody line) ':' with
      | none => []
      | some i => unquote ((lineBody line).take i)) := by
  by_cases hd : c = '-'
  · subst hd
    have hb : lineBody line = lstrip r := by rw [lineBody, visibleText_eq]; rw [h]; rfl
    unfold keyOfLine
    rw [h, hb]
    simp only [if_true]
    obtain ⟨t, ht, hts⟩ := lstrip_append (s := r)
    have hws : ∀ x ∈ (' ' :: t), isSpace x = true := by
      intro x hx
      rcases List.mem_cons.mp hx with rfl | hx
      · decide
      · exact hts x hx
    have e : ' ' :: r = (' ' :: t) ++ lstrip r := by rw [List.cons_append, ← ht]
    cases hl : lstrip r with
    | nil =>
      rw [hl] at e
      have : strip (' ' :: r) = [] := strip_nil_iff.mpr (by rw [e]; simpa using hws)
      unfold keyIn
      rw [this]; rfl
    | cons d b =>
      rw [if_neg (by simp)]
      rw [hl] at e
      have hdv : isSpace d = false := head_lstrip (s := r) (by rw [hl]; rfl)
      have := key_of_body hws (body := d :: b) rfl hdv (by intro h; cases h)
      rw [← e] at this
      exact this
  · have ha : U.isAlpha c = true := by
      rcases hc with h | h
      · exact h
      · exact absurd h hd
    have hb : lineBody line = c :: r := by rw [lineBody, visibleText_eq]; rw [h]; split <;> simp_all
    unfold keyOfLine
    rw [h, hb]
    simp only [if_neg hd]
    rw [if_neg (by simp)]
    have := key_of_body (ws := []) (by simp) (body := c :: r) rfl (alpha_visible ha).1 (fun _ => (alpha_visible ha).2.2)
    exact this

theorem body_nil_iff {line : Str} {r : Str} (h : removeSpacing line = '-' :: r) : lineBody line = [] ↔ ∀ c ∈ r, isSpace c = true := by
  have hb : lineBody line = lstrip r := by rw [lineBody, visibleText_eq]; rw [h]; rfl
  rw [hb]
  constructor
  · intro he c hc
    obtain ⟨t, ht, hts⟩ := lstrip_append (s := r)
    rw [he, List.append_nil] at ht
    exact hts c (ht ▸ hc)
  · intro h'
    have := lstrip_allspace (a := r) (b := []) h'
    rw [List.append_nil] at this
    rw [this]; rfl

/-- The lines that have a key. -/
theorem keyLine_iff {U : Uni} {tabs : Bool} {line key : Str} : KeyLine U tabs line key ↔
    key ≠ [] ∧ (∃ c r, removeSpacing line = c :: r ∧ (U.isAlpha c = true ∨ c = '-')) ∧ (tabs = true → '-' ∉ line) ∧ keyOfLine line = .ok key := by
  unfold KeyLine
  rw [visibleText_eq]
  constructor
  · rintro ⟨h1, ⟨c, r, h2, h3⟩, h4, i, h5, h6, h7, h8⟩
    refine ⟨h1, ⟨c, r, h2, h3⟩, h4, ?_⟩
    rw [keyOfLine_eq h2 h3]
    have hf := (findOutside_some (x := ':') (by decide) (lineBody line) i).mpr ⟨h5, h6, h7⟩
    rw [hf, if_neg, h8]
    intro he; rw [he] at h5; simp at h5
  · rintro ⟨h1, ⟨c, r, h2, h3⟩, h4, h5⟩
    refine ⟨h1, ⟨c, r, h2, h3⟩, h4, ?_⟩
    rw [keyOfLine_eq h2 h3] at h5
    split at h5
    · cases h5
    · injection h5 with h5
      cases hf : findOutside (lineBody line) ':' with
      | none => rw [hf] at h5; exact absurd h5.symm h1
      | some i =>
        rw [hf] at h5
        obtain ⟨a, b, d⟩ := (findOutside_some (x := ':') (by decide) (lineBody line) i).mp hf
        exact ⟨i, a, b, d, h5.symm⟩

theorem countIndent_eq {tabs : Bool} {line : Str} (h : tabs = true → '-' ∉ line) : countIndent tabs line = some (indentOf line).length := by
  unfold countIndent
  have : (line.contains '-' && tabs) = false := by
    cases tabs with
    | false => simp
    | true => simp [h rfl]
  rw [this, if_neg (by simp), replace_dash_space]
  congr 1
  unfold indentOf
  clear this h
  induction line with
  | nil => rfl
  | cons c r ih =>
    rw [List.map_cons, List.takeWhile_cons, List.takeWhile_cons]
    by_cases hc : c = '-'
    · subst hc; simp [ih]
    · simp only [if_neg hc]
      have e : (c == ' ' || c == '\t' || c == '-') = (c == ' ' || c == '\t') := by simp [hc]
      rw [e]
      split
      · simp [ih]
      · rfl

theorem countIndent_none {line : Str} (h : '-' ∈ line) : countIndent true line = none := by
  unfold countIndent; simp [h]

/-- One line: the comments found for it, as the specification of its key wants them. -/
theorem extractLine_eq {U : Uni} {cs : List CommentsAre} {all : List Str} {tabs : Bool} {i : Nat} {line : Str} {l : List Comment}
    (h : extractLine U cs all tabs i line = .ok l) :
    (l = [] ∧ ∀ key, ¬ KeyLine U tabs line key) ∨
      ∃ key, KeyLine U tabs line key ∧
        l = (textsFor U all i line cs).map (fun t => Comment.mk t key i tabs (indentOf line).length ((removeSpacing line).head? == some '-')) := by
  unfold extractLine at h
  split at h
  · rename_i hr
    injection h with h
    refine .inl ⟨h.symm, fun key hk => ?_⟩
    obtain ⟨_, ⟨c, r, hcr, _⟩, _⟩ := keyLine_iff.mp hk
    rw [hr] at hcr; cases hcr
  · rename_i c r hr
    split at h
    · rename_i hc
      have hc' : U.isAlpha c = true ∨ c = '-' := by simpa using hc
      by_cases ht : tabs = true ∧ '-' ∈ line
      · rw [ht.1, countIndent_none ht.2] at h
        injection h with h
        refine .inl ⟨h.symm, fun key hk => ?_⟩
        exact (keyLine_iff.mp hk).2.2.1 ht.1 ht.2
      · have ht' : tabs = true → '-' ∉ line := fun a b => ht ⟨a, b⟩
        rw [countIndent_eq ht'] at h
        dsimp only at h
        cases hk : keyOfLine line with
        | error e => rw [hk] at h; cases h
        | ok key =>
          rw [hk] at h
          dsimp only at h
          split at h
          · rename_i hke
            injection h with h
            refine .inl ⟨h.symm, fun key' hk' => ?_⟩
            have h2 := keyLine_iff.mp hk'
            rw [hk] at h2
            have h3 := h2.2.2.2
            injection h3 with h3
            exact h2.1 (by rw [← h3]; simpa using hke)
          · rename_i hke
            rw [commentsForLine_eq] at h
            injection h with h
            refine .inr ⟨key, keyLine_iff.mpr ⟨by simpa using hke, ⟨c, r, hr, hc'⟩, ht', hk⟩, ?_⟩
            rw [← h, hr]
            simp [Option.some_beq_some] 
    · rename_i hc
      injection h with h
      refine .inl ⟨h.symm, fun key hk => ?_⟩
      obtain ⟨_, ⟨d, r', hcr, hd⟩, _⟩ := keyLine_iff.mp hk
      rw [hr] at hcr
      injection hcr with h1 h2
      subst h1
      exact hc (by simpa using hd)

theorem mergeGroup_map {key : Str} {i w : Nat} {tabs dash : Bool} {ts : List Str} (hts : ts ≠ []) :
    mergeGroup (ts.map (fun t => { text := t, key, line := i, tabs, width := w, dash })) =
      some { text := join py!"\n\n" ts, key, line := i, tabs, width := w, dash } := by
  cases ts with
  | nil => exact absurd rfl hts
  | cons t ts =>
    simp only [List.map_cons, mergeGroup, List.map_map]
    have e1 : ts.map ((fun c : Comment => c.text) ∘ fun t => { text := t, key, line := i, tabs, width := w, dash }) = ts := by
      simp [Function.comp_def]
    have e2 : (({ text := t, key, line := i, tabs, width := w, dash : Comment } ::
        ts.map (fun t => ({ text := t, key, line := i, tabs, width := w, dash } : Comment))).any (·.dash)) = dash := by
      rw [List.any_cons]
      cases dash
      · simp
      · rfl
    rw [e1, e2]

theorem join_nil_cons (sep : Str) : ∀ xs : List Str, join sep ([] :: xs) = xs.flatMap (fun x => sep ++ x)
  | [] => rfl
  | x :: xs => by
    have : ∀ (y : Str) (ys : List Str), join sep (y :: ys) = y ++ ys.flatMap (fun x => sep ++ x) := by
      intro y ys
      induction ys generalizing y with
      | nil => simp [join]
      | cons z zs ih => rw [join, ih z]; simp
    rw [this]; simp

theorem commentBlock_eq (c : Comment) : commentBlock c = literalBlock (List.replicate (c.width + 1) (indentChar c.tabs)) (splitlines c.text) := by
  unfold commentBlock literalBlock
  rw [join_nil_cons]
  rfl

theorem indentation_some {lines : List Str} {tabs : Bool} : indentation lines = some tabs ↔ Indented tabs lines := by
  unfold indentation
  have ht : (lines.any (·.contains '\t')) = true ↔ ∃ l ∈ lines, '\t' ∈ l := by simp
  have hs : (lines.any (·.contains ' ')) = true ↔ ∃ l ∈ lines, ' ' ∈ l := by simp
  have ht' : (lines.any (·.contains '\t')) = false ↔ ∀ l ∈ lines, '\t' ∉ l := by simp
  have hs' : (lines.any (·.contains ' ')) = false ↔ ∀ l ∈ lines, ' ' ∉ l := by simp
  cases tabs
  · simp only [Indented, ← ht', ← hs]
    cases lines.any (·.contains '\t') <;> cases lines.any (·.contains ' ') <;> simp
  · simp only [Indented, ← ht, ← hs']
    cases lines.any (·.contains '\t') <;> cases lines.any (·.contains ' ') <;> simp

theorem removeSpacing_notab {line : Str} (h : '\t' ∉ line) : removeSpacing line = lstrip line := by
  unfold removeSpacing
  rw [splitChar_free h]; simp

theorem replaceFirst_at {a b : Str} {c d : Char} (h : c ∉ a) : replaceFirstChar c d (a ++ c :: b) = a ++ d :: b := by
  induction a with
  | nil => simp [replaceFirstChar]
  | cons x a ih =>
    rw [List.cons_append, replaceFirstChar, if_neg, ih (fun h' => h (by simp [h']))]
    · rfl
    · simp; intro he; exact h (by simp [he])

theorem set_dash (n : Nat) : (List.replicate (n + 2) ' ').set n '-' = List.replicate n ' ' ++ py!"- " := by
  induction n with
  | zero => rfl
  | succ n ih => rw [List.replicate_succ, List.set_cons_succ, ih, List.replicate_succ]; rfl

theorem mem_indentOf {line : Str} {d : Char} (h : d ∈ indentOf line) : d = ' ' ∨ d = '\t' ∨ d = '-' := by
  have := mem_takeWhile_imp' h
  simp at this
  rcases this with (h | h) | h
  · exact .inl h
  · exact .inr (.inl h)
  · exact .inr (.inr h)

theorem indentOf_sub {line : Str} {d : Char} (h : d ∈ indentOf line) : d ∈ line := (List.takeWhile_sublist _).mem h

/-- In a line whose first visibleText character is not a dash, the indentation has no dash. -/
theorem indentOf_nodash {line : Str} {c : Char} {r : Str} (h : lstrip line = c :: r) (hc : c ≠ '-') : '-' ∉ indentOf line := by
  obtain ⟨t, ht, hts⟩ := lstrip_append (s := line)
  have hcv : isSpace c = false := head_lstrip (s := line) (by rw [h]; rfl)
  rw [h] at ht
  intro hd
  rw [ht] at hd
  have hstop : (c == ' ' || c == '\t' || c == '-') = false := by
    have h1 : c ≠ ' ' := by rintro rfl; revert hcv; decide
    have h2 : c ≠ '\t' := by rintro rfl; revert hcv; decide
    simp [h1, h2, hc]
  clear ht h
  induction t with
  | nil => simp [indentOf, hstop] at hd
  | cons x t ih =>
    unfold indentOf at hd ih
    rw [List.cons_append, List.takeWhile_cons] at hd
    split at hd
    · rcases List.mem_cons.mp hd with h' | h'
      · have := hts x (by simp)
        rw [← h'] at this
        revert this; decide
      · exact ih (fun y hy => hts y (by simp [hy])) h'
    · cases hd

/-- What becomes of one line. -/
theorem outLine_becomes {U : Uni} {cs : List CommentsAre} {all : List Str} {tabs : Bool} (hi : Indented tabs all) {i : Nat} {line : Str}
    (hl : line ∈ all) {new : List Str} (h : outLine U cs all tabs i line = .ok new) :
    LineBecomes U tabs (textsFor U all i line cs) line new := by
  unfold outLine at h
  cases hx : extractLine U cs all tabs i line with
  | error e => rw [hx] at h; cases h
  | ok l =>
    rw [hx] at h
    dsimp only at h
    rcases extractLine_eq hx with ⟨rfl, hno⟩ | ⟨key, hk, hle⟩
    · simp only [mergeGroup] at h
      injection h with h
      rw [← h]
      exact .same (.inr hno)
    · by_cases hts : textsFor U all i line cs = []
      · rw [hts] at hle
        subst hle
        simp only [List.map_nil, mergeGroup] at h
        injection h with h
        rw [← h, hts]
        exact .same (.inl rfl)
      · rw [hle, mergeGroup_map hts] at h
        dsimp only at h
        by_cases hdash : ∃ r, removeSpacing line = '-' :: r
        · obtain ⟨r, hr⟩ := hdash
          have htab : tabs = false := by
            cases tabs with
            | false => rfl
            | true =>
              have h1 := (keyLine_iff.mp hk).2.2.1 rfl
              have : '-' ∈ (removeSpacing line).filter (· == '-') := by rw [hr]; simp
              rw [filter_removeSpacing (q := (· == '-')) (by intro c hc; simp; rintro rfl; revert hc; decide)] at this
              exact absurd ((List.mem_filter.mp this).1) h1
          subst htab
          rw [removeSpacing_notab (hi.1 line hl)] at hr
          obtain ⟨a, ha, has⟩ := lstrip_append (s := line)
          rw [hr] at ha
          unfold Comment.spacing at h
          dsimp only at h
          rw [removeSpacing_notab (hi.1 line hl), hr] at h
          simp only [List.head?_cons, BEq.rfl, if_true] at h
          by_cases hw : (indentOf line).length < 2
          · rw [if_pos hw] at h; cases h
          · rw [if_neg hw] at h
            dsimp only at h
            injection h with h
            obtain ⟨n, hn⟩ : ∃ n, (indentOf line).length = n + 2 := ⟨(indentOf line).length - 2, by omega⟩
            have hna : '-' ∉ a := fun hm => by have := has _ hm; revert this; decide
            have hkept : replaceFirstChar '-' ' ' line = a ++ ' ' :: r := by rw [ha]; exact replaceFirst_at hna
            rw [← h]
            have hb := LineBecomes.item (U := U) (tabs := false) (texts := textsFor U all i line cs) (a := a) (b := r) (key := key) (n := n)
              (by rw [← ha]; exact hk) hts rfl has (by rw [← ha]; exact hn)
            have e1 : keptLine (Comment.mk (join py!"\n\n" (textsFor U all i line cs)) key i false (indentOf line).length true) line = a ++ ' ' :: r := by
              unfold keptLine; rw [if_pos rfl, hkept]
            rw [e1]
            unfold entryText
            rw [commentBlock_eq]
            dsimp only
            have e2 : (List.replicate (indentOf line).length (indentChar false)).set ((indentOf line).length - 2) '-' = List.replicate n ' ' ++ py!"- " := by
              rw [hn]; exact set_dash n
            rw [e2, hn]
            rw [← ha] at hb
            exact hb
        · have hd : ((removeSpacing line).head? == some '-') = false := by
            cases hrs : removeSpacing line with
            | nil => rfl
            | cons c r =>
              have : c ≠ '-' := by rintro rfl; exact hdash ⟨r, hrs⟩
              simpa using this
          rw [hd] at h
          unfold Comment.spacing at h
          simp only [Bool.false_eq_true, if_false] at h
          injection h with h
          have hall : ∀ d ∈ indentOf line, d = indentChar tabs := by
            intro d hd
            cases tabs with
            | false =>
              obtain ⟨_, ⟨c, r, hcr, hc⟩, _⟩ := keyLine_iff.mp hk
              have hcr' := hcr
              rw [removeSpacing_notab (hi.1 line hl)] at hcr'
              rcases mem_indentOf hd with h | h | h
              · exact h
              · exact absurd (h ▸ indentOf_sub hd) (hi.1 line hl)
              · exact absurd (h ▸ hd) (indentOf_nodash hcr' (by rintro rfl; exact hdash ⟨r, hcr⟩))
            | true =>
              rcases mem_indentOf hd with h | h | h
              · exact absurd (h ▸ indentOf_sub hd) (hi.1 line hl)
              · exact h
              · exact absurd (h ▸ indentOf_sub hd) ((keyLine_iff.mp hk).2.2.1 rfl)
          have hrep : List.replicate (indentOf line).length (indentChar tabs) = indentOf line :=
            (List.eq_replicate_of_mem hall).symm
          have hb := LineBecomes.key (U := U) (tabs := tabs) (texts := textsFor U all i line cs) (line := line) (c := indentChar tabs)
            hk hts rfl hall (fun r hr => hdash ⟨r, by rw [← visibleText_eq]; exact hr⟩)
          rw [← h]
          unfold keptLine entryText
          rw [commentBlock_eq]
          dsimp only
          rw [List.replicate_succ', hrep]
          exact hb

theorem outFrom_becomes {U : Uni} {cs : List CommentsAre} {all : List Str} {tabs : Bool} (hi : Indented tabs all) : ∀ {i : Nat} {r out : List Str},
    (∀ l ∈ r, l ∈ all) → outFrom U cs all tabs i r = .ok out →
    Becomes U tabs (fun i line ts => ts = textsFor U all i line cs) i r out
  | i, [], out, _, h => by
    simp only [outFrom] at h
    injection h with h
    rw [← h]; exact .nil i
  | i, line :: r, out, hr, h => by
    rw [outFrom] at h
    cases ho : outLine U cs all tabs i line with
    | error e => rw [ho] at h; cases h
    | ok a =>
      rw [ho] at h
      dsimp only at h
      cases hb : outFrom U cs all tabs (i + 1) r with
      | error e => rw [hb] at h; cases h
      | ok b =>
        rw [hb] at h
        injection h with h
        rw [← h]
        exact .cons rfl (outLine_becomes hi (hr line (by simp)) ho) (outFrom_becomes hi (fun l hl => hr l (by simp [hl])) hb)

end Verif
