import Verif.Lemmas.YamlDoc
/-
Lemmas about the comments of one line, and about failures.
-/
namespace Verif
open Spec

theorem commentRun_eq (col : Nat) : ∀ ls : List Str, commentRun col ls = (ls.takeWhile (hashAt col)).map (textAt col)
  | [] => rfl
  | l :: r => by
    rw [commentRun, List.takeWhile_cons, commentRun_eq col r]
    unfold commentAt
    by_cases h : l[col]? = some '#'
    · rw [if_pos h, if_pos (by simp [hashAt, h]), List.map_cons]
      rfl
    · rw [if_neg h, if_neg (by simpa [hashAt] using h)]; rfl

theorem takeWhile_append_all {α} {p : α → Bool} : ∀ {a b : List α}, (∀ x ∈ a, p x = true) → (a ++ b).takeWhile p = a ++ b.takeWhile p
  | [], b, _ => rfl
  | x :: a, b, h => by
    rw [List.cons_append, List.takeWhile_cons, if_pos (h x (by simp)), takeWhile_append_all (fun y hy => h y (by simp [hy]))]; rfl

theorem takeWhile_append_some {α} {p : α → Bool} : ∀ {a b : List α} {x : α}, x ∈ a → p x = false → (a ++ b).takeWhile p = a.takeWhile p
  | y :: a, b, x, hx, hp => by
    rw [List.cons_append, List.takeWhile_cons, List.takeWhile_cons]
    split
    · rename_i hy
      rcases List.mem_cons.mp hx with rfl | hx
      · rw [hp] at hy; cases hy
      · rw [takeWhile_append_some hx hp]
    · rfl

theorem takeWhile_lead {a b : Str} {c : Char} (ha : ∀ d ∈ a, lead d = true) (hc : lead c = false) : keyCol (a ++ c :: b) = a.length := by
  unfold keyCol
  show ((a ++ c :: b).takeWhile lead).length = a.length
  rw [takeWhile_append_all ha, List.takeWhile_cons, if_neg (by simp [hc])]
  simp

theorem keyColumn_keyCol {line : Str} {x : Char} (hx : x ∈ line) (h : lead x = false) : keyColumn line = .ok (keyCol line) := by
  obtain ⟨a, c, b, e, h1, h2⟩ := lead_split hx h
  rw [e, keyColumn_eq h1 h2, takeWhile_lead h1 h2]

theorem quiet_filter {q : Char → Bool} (hq : ∀ c, isSpace c = true → q c = false) (hd : q '-' = false) (line : Str) :
    (lineBody line).filter q = line.filter q := by
  rw [← filter_removeSpacing hq line]
  rw [lineBody, visibleText_eq]
  split
  · rename_i r hr
    rw [hr, filter_lstrip hq, List.filter_cons, if_neg (by simp [hd])]
  · rfl

/-- The line of a key has a colon outside quotation marks, and not in front. -/
theorem keyLine_colon {U : Uni} {tabs : Bool} {line key : Str} (h : KeyLine U tabs line key) : ∃ k, findOutside line ':' = some (k + 1) := by
  obtain ⟨_, ⟨c, r, hcr, hc⟩, _, i, h1, h2, h3, _⟩ := h
  have hf := (findOutside_some (x := ':') (by decide) (lineBody line) i).mpr ⟨h1, h2, h3⟩
  let q : Char → Bool := fun c => isQuote c || c == ':'
  have hq : ∀ c, isQuote c = true ∨ c = ':' → q c = true := by intro c hc; simpa [q] using hc
  have hqs : ∀ c, isSpace c = true → q c = false := by
    intro c hc
    have := space_quiet (x := ':') hc (by decide)
    simp [q, this.1, this.2]
  have e1 := findOutside_filter (x := ':') q hq (lineBody line) false 0 0
  have e2 := findOutside_filter (x := ':') q hq line false 0 0
  rw [quiet_filter hqs (by decide), ← e2] at e1
  unfold findOutside at hf ⊢
  rw [hf] at e1
  cases hl : findOutsideFrom ':' false 0 line with
  | none => rw [hl] at e1; cases e1
  | some k =>
    cases k with
    | succ k => exact ⟨k, rfl⟩
    | zero =>
      exfalso
      have h0 := ((findOutside_some (x := ':') (by decide) line 0).mp hl).1
      cases line with
      | nil => simp at h0
      | cons d s =>
        simp at h0
        subst h0
        have : removeSpacing (':' :: s) = ':' :: ((splitChar '\t' s).headD [] ++ (((splitChar '\t' s).tail).map lstrip).flatten) := by
          unfold removeSpacing
          rw [splitChar, if_neg (by decide)]
          cases hs : splitChar '\t' s with
          | nil => exact absurd hs (splitChar_ne_nil _ _)
          | cons w ws =>
            have : lstrip (':' :: w) = ':' :: w := by
              unfold lstrip
              rw [List.dropWhile_cons, if_neg (by decide)]
            simp [this]
        rw [visibleText_eq, this] at hcr
        injection hcr with hcr _
        subst hcr
        rcases hc with hc | hc
        · exact (alpha_visible hc).2.2 rfl
        · revert hc; decide

theorem blockText_nil (U : Uni) (col : Nat) : blockText U col [] = [] := rfl

theorem block_spec {U : Uni} {tabs : Bool} {lines : List Str} {i : Nat} {line key : Str} (hk : KeyLine U tabs line key) (hl : lines[i]? = some line) (up : Bool) :
    (blockComment U lines i up).map (capFirst U) = .ok (blockText U (keyCol line)
      (if up then ((linesAbove lines i).takeWhile (hashAt (keyCol line))).reverse else (linesBelow lines i).takeWhile (hashAt (keyCol line)))) := by
  obtain ⟨k, hf⟩ := keyLine_colon hk
  unfold blockComment
  simp only [hl, hf]
  rw [keyColumn_keyCol (findOutside_mem (by decide) hf) (by decide)]
  dsimp only
  have e : (if up = true then (commentRun (keyCol line) (linesAbove lines i)).reverse else commentRun (keyCol line) (linesBelow lines i)) =
      (if up then ((linesAbove lines i).takeWhile (hashAt (keyCol line))).reverse else (linesBelow lines i).takeWhile (hashAt (keyCol line))).map
        (textAt (keyCol line)) := by
    rw [commentRun_eq, commentRun_eq]
    cases up
    · rfl
    · simp
  rw [e]
  generalize (if up = true then _ else _ : List Str) = run
  cases run with
  | nil => rfl
  | cons x xs =>
    rw [if_neg (by simp)]
    simp only [Except.map, capFirst_eq]
    rfl

theorem sideComment_spec (line : Str) : SideText line (sideComment line) := by
  unfold sideComment
  split
  · rename_i h
    right
    refine ⟨?_, rfl⟩
    intro i _ h2 h3
    exfalso
    have hm : ∀ n i, i < n → line[i]? = some '#' → ¬ Unquoted line i := by
      intro n
      induction n with
      | zero => intro i hi; omega
      | succ n ih =>
        intro i hi h1 h2
        by_cases hin : i < n
        · exact ih i hin h1 h2
        · have : i = n := by omega
          subst this
          rw [(findOutside_some (x := '#') (by decide) line i).mpr ⟨h1, h2, ih⟩] at h
          cases h
    exact hm (i + 2) (i + 1) (by omega) h2 h3
  · rename_i h
    have h0 := (findOutside_some (x := '#') (by decide) line 0).mp h
    right
    exact ⟨fun i _ _ _ => ⟨0, by omega, h0.1, h0.2.1⟩, rfl⟩
  · rename_i i h
    have h0 := (findOutside_some (x := '#') (by decide) line (i + 1)).mp h
    split
    · rename_i hsp
      left
      refine ⟨i, hsp, h0.1, h0.2.1, h0.2.2, ?_⟩
      dsimp only
      unfold ended
      by_cases h1 : strip (List.drop (i + 2) line) = []
      · simp [h1]
      · cases h2 : endsWith (strip (List.drop (i + 2) line)) py!"." <;> simp [h1]
    · rename_i hsp
      right
      refine ⟨?_, rfl⟩
      intro j h1 h2 h3
      rcases Nat.lt_trichotomy j i with hj | hj | hj
      · exact absurd h3 (h0.2.2 (j + 1) (by omega) h2)
      · subst hj; exact absurd h1 hsp
      · exact ⟨i + 1, by omega, h0.1, h0.2.1⟩

theorem commentFor_spec {U : Uni} {tabs : Bool} {lines : List Str} {i : Nat} {line key : Str} (hk : KeyLine U tabs line key)
    (hl : lines[i]? = some line) {p : CommentsAre} (hw : p = .above → NoWrap lines) {t : Str} (ht : commentFor U lines i line p = .ok t) :
    TextOf U lines i line p t := by
  cases p with
  | side => unfold commentFor at ht; injection ht with ht; rw [← ht]; exact sideComment_spec line
  | below =>
    unfold commentFor at ht
    rw [block_spec hk hl false] at ht
    injection ht with ht
    exact ht.symm
  | above =>
    unfold commentFor at ht
    rw [block_spec hk hl true] at ht
    injection ht with ht
    show t = _
    rw [← ht, if_pos rfl]
    unfold runAbove linesAbove
    congr 2
    by_cases hall : ∀ l ∈ lines.take i, hashAt (keyCol line) l = true
    · rw [takeWhile_append_all (by simpa using hall)]
      cases hlast : lines.getLast? with
      | none =>
        simp at hlast; rw [hlast] at hl; simp at hl
      | some last =>
        have hno := hw rfl i line last hl hlast hall
        obtain ⟨a, ha⟩ := List.getLast?_eq_some_iff.mp hlast
        have h1 : lines.reverse.takeWhile (hashAt (keyCol line)) = [] := by
          rw [ha, List.reverse_append]
          simp [hno]
        rw [h1]
        have h2 := takeWhile_append_all (a := (lines.take i).reverse) (b := []) (p := hashAt (keyCol line)) (by simpa using hall)
        rw [List.append_nil] at h2
        rw [h2]
        simp
    · have : ∃ l ∈ lines.take i, hashAt (keyCol line) l = false := by
        apply Classical.byContradiction
        intro hn
        apply hall
        intro l hl'
        cases h : hashAt (keyCol line) l with
        | true => rfl
        | false => exact absurd ⟨l, hl', h⟩ hn
      obtain ⟨l, hl1, hl2⟩ := this
      exact takeWhile_append_some (List.mem_reverse.mpr hl1) hl2

theorem textsFor_spec {U : Uni} {tabs : Bool} {lines : List Str} {i : Nat} {line key : Str} (hk : KeyLine U tabs line key)
    (hl : lines[i]? = some line) : ∀ (cs : List CommentsAre), (.above ∈ cs → NoWrap lines) → TextsOf U lines i line cs (textsFor U lines i line cs)
  | [], _ => .nil
  | p :: ps, hw => by
    obtain ⟨t, ht⟩ := commentFor_ok U lines i line p
    have h1 := commentFor_spec hk hl (p := p) (fun he => hw (by simp [he])) ht
    have h2 := textsFor_spec hk hl ps (fun he => hw (by simp [he]))
    unfold textsFor at h2 ⊢
    rw [List.filterMap_cons, ht]
    dsimp only
    by_cases he : t = []
    · subst he
      exact .skip h1 h2
    · rw [if_neg (by simpa using he)]
      exact .take h1 he h2

/-- Every line has comments, perhaps none. -/
theorem textsOf_total (U : Uni) (lines : List Str) (i : Nat) (line : Str) : ∀ cs, ∃ ts, TextsOf U lines i line cs ts
  | [] => ⟨[], .nil⟩
  | p :: ps => by
    obtain ⟨ts, h⟩ := textsOf_total U lines i line ps
    have : ∃ t, TextOf U lines i line p t := by
      cases p with
      | above => exact ⟨_, rfl⟩
      | below => exact ⟨_, rfl⟩
      | side => exact ⟨_, sideComment_spec line⟩
    obtain ⟨t, ht⟩ := this
    by_cases he : t = []
    · subst he; exact ⟨ts, .skip ht h⟩
    · exact ⟨t :: ts, .take ht he h⟩

theorem becomes_texts {U : Uni} {tabs : Bool} {lines : List Str} {cs : List CommentsAre} (hw : .above ∈ cs → NoWrap lines) :
    ∀ {i : Nat} {r out : List Str}, (∃ pre, lines = pre ++ r ∧ pre.length = i) →
      Becomes U tabs (fun i line ts => ts = textsFor U lines i line cs) i r out →
      Becomes U tabs (fun i line ts => TextsOf U lines i line cs ts) i r out
  | i, _, _, _, .nil _ => .nil i
  | i, line :: r, _, ⟨pre, hpre, hlen⟩, .cons (new := new) (ts := ts) hts hb hrest => by
    have hl : lines[i]? = some line := by rw [hpre, ← hlen]; simp
    have ih := becomes_texts hw ⟨pre ++ [line], by rw [hpre]; simp, by simp [hlen]⟩ hrest
    have hts : ts = textsFor U lines i line cs := hts
    by_cases hk : ∃ key, KeyLine U tabs line key
    · obtain ⟨key, hk⟩ := hk
      exact .cons (ts := ts) (by rw [hts]; exact textsFor_spec hk hl cs hw) hb ih
    · obtain ⟨ts', h'⟩ := textsOf_total U lines i line cs
      refine .cons h' ?_ ih
      have hno : ∀ key, ¬ KeyLine U tabs line key := fun key h => hk ⟨key, h⟩
      cases hb with
      | same _ => exact .same (.inr hno)
      | key h => exact absurd h (hno _)
      | item h => exact absurd h (hno _)

/-! ### Failures -/

theorem outLine_ok {U : Uni} {cs : List CommentsAre} {all : List Str} {tabs : Bool} (hi : Indented tabs all) (hd : DashesBegin all)
    {i : Nat} {line : Str} (hl : line ∈ all) : ∃ new, outLine U cs all tabs i line = .ok new := by
  have hx : ∃ l, extractLine U cs all tabs i line = .ok l := by
    unfold extractLine
    split
    · exact ⟨_, rfl⟩
    · rename_i c r hr
      split
      · rename_i hc
        have hc' : U.isAlpha c = true ∨ c = '-' := by simpa using hc
        split
        · exact ⟨_, rfl⟩
        · rename_i w hw
          rw [keyOfLine_eq hr hc']
          have hb : lineBody line ≠ [] := by
            by_cases hcd : c = '-'
            · subst hcd
              cases tabs with
              | true =>
                have : '-' ∈ (removeSpacing line).filter (· == '-') := by rw [hr]; simp
                rw [filter_removeSpacing (q := (· == '-')) (by intro c hc; simp; rintro rfl; revert hc; decide)] at this
                rw [countIndent_none (List.mem_filter.mp this).1] at hw
                cases hw
              | false =>
                intro hbn
                have hsp := (body_nil_iff hr).mp hbn
                rw [removeSpacing_notab (hi.1 line hl)] at hr
                apply (hd line hl r hr).1
                unfold strip
                rw [hr]
                have h1 := rstrip_visible (x := []) (b := r) (c := '-') (by decide)
                have h2 : rstrip r = [] := by
                  have := strip_nil_iff.mpr hsp
                  obtain ⟨t, ht, hts⟩ := rstrip_append (s := r)
                  cases hrr : rstrip r with
                  | nil => rfl
                  | cons x xs =>
                    have hlast := last_rstrip (s := r) (c := (x :: xs).getLast (by simp)) (by rw [hrr]; exact List.getLast?_eq_some_getLast (by simp))
                    have hmem : (x :: xs).getLast (by simp) ∈ r := by
                      rw [ht, hrr]; exact List.mem_append_left _ (List.getLast_mem _)
                    rw [hsp _ hmem] at hlast; cases hlast
                rw [h2] at h1
                exact h1
            · have : lineBody line = c :: r := by rw [lineBody, visibleText_eq]; rw [hr]; split <;> simp_all
              rw [this]; simp
          rw [if_neg hb]
          dsimp only
          split
          · exact ⟨_, rfl⟩
          · rw [commentsForLine_eq]; split <;> exact ⟨_, rfl⟩
      · exact ⟨_, rfl⟩
  obtain ⟨l, hx⟩ := hx
  unfold outLine
  rw [hx]
  dsimp only
  rcases extractLine_eq hx with ⟨rfl, hno⟩ | ⟨key, hk, hle⟩
  · exact ⟨_, rfl⟩
  · by_cases hts : textsFor U all i line cs = []
    · rw [hts] at hle
      subst hle
      exact ⟨_, rfl⟩
    · rw [hle, mergeGroup_map hts]
      dsimp only
      unfold Comment.spacing
      dsimp only
      by_cases hdash : ((removeSpacing line).head? == some '-') = true
      · rw [if_pos hdash]
        have hr : ∃ r, removeSpacing line = '-' :: r := by
          cases hrs : removeSpacing line with
          | nil => rw [hrs] at hdash; cases hdash
          | cons c r => rw [hrs] at hdash; simp at hdash; exact ⟨r, by rw [hdash]⟩
        obtain ⟨r, hr⟩ := hr
        have htab : tabs = false := by
          cases tabs with
          | false => rfl
          | true =>
            have h1 := (keyLine_iff.mp hk).2.2.1 rfl
            have : '-' ∈ (removeSpacing line).filter (· == '-') := by rw [hr]; simp
            rw [filter_removeSpacing (q := (· == '-')) (by intro c hc; simp; rintro rfl; revert hc; decide)] at this
            exact absurd (List.mem_filter.mp this).1 h1
        subst htab
        rw [removeSpacing_notab (hi.1 line hl)] at hr
        have := (hd line hl r hr).2
        rw [if_neg (by omega)]
        exact ⟨_, rfl⟩
      · rw [if_neg hdash]
        exact ⟨_, rfl⟩

theorem outFrom_ok {U : Uni} {cs : List CommentsAre} {all : List Str} {tabs : Bool} (hi : Indented tabs all) (hd : DashesBegin all) :
    ∀ (i : Nat) (r : List Str), (∀ l ∈ r, l ∈ all) → ∃ out, outFrom U cs all tabs i r = .ok out
  | i, [], _ => ⟨[], rfl⟩
  | i, line :: r, h => by
    obtain ⟨a, ha⟩ := outLine_ok (U := U) (cs := cs) hi hd (i := i) (h line (by simp))
    obtain ⟨b, hb⟩ := outFrom_ok (U := U) (cs := cs) hi hd (i + 1) r (fun l hl => h l (by simp [hl]))
    exact ⟨a ++ b, by rw [outFrom, ha]; dsimp only; rw [hb]⟩

theorem outLine_lone {U : Uni} {cs : List CommentsAre} {all : List Str} {i : Nat} {line : Str} (ht : '\t' ∉ line) (hs : strip line = py!"-") :
    outLine U cs all false i line = .error .index := by
  obtain ⟨r, hr, hsp⟩ : ∃ r, lstrip line = '-' :: r ∧ ∀ c ∈ r, isSpace c = true := by
    unfold strip at hs
    obtain ⟨t, h1, h2⟩ := rstrip_append (s := lstrip line)
    rw [hs] at h1
    exact ⟨t, h1, h2⟩
  have hr' : removeSpacing line = '-' :: r := by rw [removeSpacing_notab ht, hr]
  unfold outLine extractLine
  rw [hr']
  dsimp only
  rw [if_pos (by simp), countIndent_eq (by intro h; cases h), keyOfLine_eq (U := U) hr' (.inr rfl), if_pos ((body_nil_iff hr').mpr hsp)]

theorem outFrom_lone {U : Uni} {cs : List CommentsAre} {all : List Str} : ∀ (i : Nat) (r : List Str), (∀ l ∈ r, '\t' ∉ l) →
    (∃ l ∈ r, strip l = py!"-") → ∃ e, outFrom U cs all false i r = .error e
  | i, [], _, h => by obtain ⟨l, hl, _⟩ := h; cases hl
  | i, line :: r, ht, ⟨l, hl, hs⟩ => by
    rw [outFrom]
    rcases List.mem_cons.mp hl with rfl | hl
    · rw [outLine_lone (ht _ (by simp)) hs]; exact ⟨_, rfl⟩
    · cases outLine U cs all false i line with
      | error e => exact ⟨_, rfl⟩
      | ok a =>
        dsimp only
        obtain ⟨e, he⟩ := outFrom_lone (U := U) (cs := cs) (all := all) (i + 1) r (fun x hx => ht x (by simp [hx])) ⟨l, hl, hs⟩
        rw [he]; exact ⟨_, rfl⟩

end Verif
