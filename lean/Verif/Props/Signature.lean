import Verif.Spec.Signature
import Verif.Lemmas.ListStr
/-
C40: imports for the annotations in signatures.
-/
namespace Verif.Props
open Verif Verif.Spec

/-- C40, the full statement: every library symbol mentioned in an annotation is requested. -/
def SignatureImports (U : Uni) : Prop := ∀ (s : Signature) (a x : Str), a ∈ s.annotations → Mentions U a x → x ∈ librarySymbols →
  ∃ kw ∈ sigImports U s.print, (bindingOf kw).2 = x

/-- It is false: only the text before the first comma of an annotation is searched. -/
theorem signature_imports_fails : ¬ SignatureImports asciiUni := by
  intro h
  obtain ⟨kw, hk, he⟩ := h ⟨[⟨py!"a", some py!"Dict[str, Any]", none⟩], none⟩ py!"Dict[str, Any]" py!"Any" (by decide)
    ⟨py!"Dict[str, ", py!"]", by decide, by decide, by decide, by decide, by decide⟩ (by decide)
  revert kw; decide +kernel

/-- It is false without commas too: `Type` is not translated to the keyword under which it is registered. -/
theorem signature_imports_fails_type : ¬ SignatureImports asciiUni := by
  intro h
  obtain ⟨kw, hk, he⟩ := h ⟨[⟨py!"a", some py!"Type[int]", none⟩], none⟩ py!"Type[int]" py!"Type" (by decide)
    ⟨[], py!"[int]", by decide, by decide, by decide, by decide, by decide⟩ (by decide)
  revert kw; decide +kernel

section
variable {U : Uni}

theorem symbolsAux_mem {x r : Str} (hx : ∀ c ∈ x, wordChar U c = true) (hr : ∀ c, r.head? = some c → wordChar U c = false) :
    ∀ cur, cur ++ x ≠ [] → (cur.reverse ++ x) ∈ symbolsAux U cur (x ++ r) := by
  induction x with
  | nil =>
    intro cur hc
    have hc : cur.isEmpty = false := by cases cur <;> simp_all
    cases r with
    | nil => simp [symbolsAux, hc]
    | cons c r => simp [symbolsAux, hr c rfl, hc]
  | cons c x ih =>
    intro cur hc
    have h := ih (fun d hd => hx d (by simp [hd])) (c :: cur) (by simp)
    simpa [symbolsAux, hx c (by simp)] using h

theorem symbolsAux_skip {x : Str} {s : Str} (hx : x ∈ symbolsAux U [] s) : ∀ (l cur : Str), (∀ c, l.getLast? = some c → wordChar U c = false) →
    (l = [] → cur = []) → x ∈ symbolsAux U cur (l ++ s)
  | [], cur, _, hc => by rw [hc rfl]; exact hx
  | c :: l, cur, hl, _ => by
    by_cases hw : wordChar U c = true
    · have hne : l ≠ [] := by rintro rfl; rw [hl c rfl] at hw; cases hw
      have := symbolsAux_skip hx l (c :: cur) (fun d hd => hl d (by cases l <;> simp_all [List.getLast?_cons])) (fun h => absurd h hne)
      simpa [symbolsAux, hw] using this
    · have := symbolsAux_skip hx l [] (fun d hd => hl d (by cases l <;> simp_all [List.getLast?_cons])) (fun _ => rfl)
      simp only [List.cons_append, symbolsAux, hw, if_false, Bool.false_eq_true]
      split
      · exact this
      · exact List.mem_cons_of_mem _ this

/-- The words of a text are found. -/
theorem mentions_symbols {a x : Str} (h : Mentions U a x) : x ∈ symbols U a := by
  obtain ⟨l, r, rfl, hne, hx, hl, hr⟩ := h
  have h1 := symbolsAux_mem hx hr [] (by simpa using hne)
  rw [List.append_assoc]
  exact symbolsAux_skip h1 l [] hl (fun _ => rfl)

theorem mentions_append {a x t : Str} (h : Mentions U a x) (ht : ∀ c, t.head? = some c → wordChar U c = false) : Mentions U (a ++ t) x := by
  obtain ⟨l, r, rfl, hne, hx, hl, hr⟩ := h
  refine ⟨l, r ++ t, by simp, hne, hx, hl, ?_⟩
  intro c hc
  cases r with
  | nil => exact ht c (by simpa using hc)
  | cons d r => exact hr c (by simpa using hc)

/-! ### Annotations of parameters -/

theorem colonHints_skip {s : Str} : ∀ (l : Str), colonHints l.length (l ++ s) = colonHints 0 s
  | [] => rfl
  | _ :: l => by simpa [colonHints] using colonHints_skip l

theorem colonHints_plain {w s : Str} (h : ':' ∉ w) : colonHints 0 (w ++ s) = colonHints 0 s := by
  induction w with
  | nil => rfl
  | cons c w ih =>
    simp only [List.mem_cons, not_or] at h
    simp only [List.cons_append, colonHints, if_neg (Ne.symm h.1)]
    exact ih h.2

theorem dropWhile_stop {p : Char → Bool} {c : Char} (hc : p c = false) : ∀ (q t : Str), (q ++ c :: t).dropWhile p = q.dropWhile p ++ c :: t
  | [], t => by simp [List.dropWhile, hc]
  | d :: q, t => by
    by_cases hd : p d = true
    · simpa [List.dropWhile, hd] using dropWhile_stop hc q t
    · simp [List.dropWhile, hd]

theorem takeWhile_stop' {p : Char → Bool} {c : Char} (hc : p c = false) : ∀ (q t : Str), (q ++ c :: t).takeWhile p = q.takeWhile p
  | [], t => by simp [List.takeWhile, hc]
  | d :: q, t => by
    by_cases hd : p d = true
    · simpa [List.takeWhile, hd] using takeWhile_stop' hc q t
    · simp [List.takeWhile, hd]

theorem length_dropWhile_le {p : Char → Bool} (q : Str) : (q.dropWhile p).length ≤ q.length := (List.dropWhile_sublist p).length_le
theorem length_takeWhile_le {p : Char → Bool} (q : Str) : (q.takeWhile p).length ≤ q.length := (List.takeWhile_sublist p).length_le

/-- A match never extends over a comma. -/
theorem colonHints_comma {h t : Str} (ht : h ∈ colonHints 0 t) : ∀ (q : Str) (k : Nat), k ≤ q.length → h ∈ colonHints k (q ++ ',' :: t)
  | [], 0, _ => by simpa [colonHints] using ht
  | _ :: q, k + 1, hk => by simpa [colonHints] using colonHints_comma ht q k (by simpa using hk)
  | c :: q, 0, _ => by
    by_cases hc : c = ':'
    · subst hc
      have e1 : lstrip (q ++ ',' :: t) = lstrip q ++ ',' :: t := dropWhile_stop (by decide) q t
      have e2 : (lstrip q ++ ',' :: t).takeWhile hintChar = (lstrip q).takeWhile hintChar := takeWhile_stop' (by decide) _ t
      have l1 : (lstrip q).length ≤ q.length := length_dropWhile_le q
      have l2 := length_takeWhile_le (p := hintChar) (lstrip q)
      simp only [List.cons_append, colonHints, if_true, e1, e2]
      split
      · exact colonHints_comma ht q 0 (Nat.zero_le _)
      · refine List.mem_cons_of_mem _ (colonHints_comma ht q _ ?_)
        simp only [List.length_append, List.length_cons]
        omega
    · simp only [List.cons_append, colonHints, if_neg hc]
      exact colonHints_comma ht q 0 (Nat.zero_le _)

theorem hintChar_iff {c : Char} : hintChar c = true ↔ isSpace c = false ∧ c ≠ ',' := by
  simp [hintChar]

theorem takeWhile_append_all {p : Char → Bool} {a : Str} (h : ∀ c ∈ a, p c = true) (t : Str) : (a ++ t).takeWhile p = a ++ t.takeWhile p := by
  induction a with
  | nil => rfl
  | cons c a ih => simp [List.takeWhile, h c (by simp), ih (fun d hd => h d (by simp [hd]))]

/-- The annotation after `: ` is part of a hint. -/
theorem colonHints_head {a t : Str} (ha : SimpleAnn a) : (a ++ t.takeWhile hintChar) ∈ colonHints 0 (py!": " ++ (a ++ t)) := by
  obtain ⟨hne, hc⟩ := ha
  have e1 : lstrip (' ' :: (a ++ t)) = a ++ t := by
    show (' ' :: (a ++ t)).dropWhile isSpace = _
    rw [List.dropWhile_cons_of_pos (by decide)]
    apply dropWhile_eq_self
    cases a with
    | nil => exact absurd rfl hne
    | cons c a => intro d hd; simp at hd; subst hd; exact (hc c (by simp)).1
  have e2 : (a ++ t).takeWhile hintChar = a ++ t.takeWhile hintChar :=
    takeWhile_append_all (fun c h => hintChar_iff.mpr ⟨(hc c h).1, (hc c h).2.1⟩) t
  have e3 : (a ++ t.takeWhile hintChar).isEmpty = false := by cases a <;> simp_all
  show _ ∈ colonHints 0 (':' :: (' ' :: (a ++ t)))
  simp only [colonHints, if_true, e1, e2, e3, Bool.false_eq_true, if_false]
  exact List.mem_cons_self ..

theorem join_split {x : Str} : ∀ {l : List Str}, x ∈ l → ∃ pre post, join py!", " l = pre ++ x ++ post ∧
    (pre = [] ∨ ∃ q, pre = q ++ py!", ") ∧ (post = [] ∨ ∃ r, post = py!", " ++ r)
  | [y], h => by
    obtain rfl : x = y := by simpa using h
    exact ⟨[], [], by simp [join], .inl rfl, .inl rfl⟩
  | y :: z :: r, h => by
    rcases List.mem_cons.mp h with rfl | h
    · exact ⟨[], py!", " ++ join py!", " (z :: r), by simp [join], .inl rfl, .inr ⟨_, rfl⟩⟩
    · obtain ⟨pre, post, e, h1, h2⟩ := join_split h
      refine ⟨y ++ py!", " ++ pre, post, by simp only [join, e, List.append_assoc], .inr ?_, h2⟩
      rcases h1 with rfl | ⟨q, rfl⟩
      · exact ⟨y, by simp⟩
      · exact ⟨y ++ py!", " ++ q, by simp⟩

theorem replace_id {c d : Char} {s : Str} (h : d ∉ s) : replace [c, d] [] s = s := by
  unfold replace
  induction s with
  | nil => rfl
  | cons x s ih =>
    simp only [List.mem_cons, not_or] at h
    have : ([c, d] : Str).isPrefixOf (x :: s) = false := by
      cases s with
      | nil => simp [List.isPrefixOf]
      | cons y s =>
        simp only [List.mem_cons, not_or] at h
        simp [List.isPrefixOf, h.2.1]
    simp only [replaceAux, this, Bool.false_eq_true, if_false, ih h.2]

theorem importSymbols_mem {a x : Str} (hx : Mentions U a x) (hl : x ∈ librarySymbols) (hne : x ∉ [py!"Type", py!"np", py!"pd", py!"Scalar"]) :
    ∃ kw ∈ importSymbols U a, (bindingOf kw).2 = x := by
  have h1 : ∀ x ∈ librarySymbols, x ∉ [py!"Type", py!"np", py!"pd", py!"Scalar"] →
      (packageOf (castSymbol x)).isSome = true ∧ (bindingOf (castSymbol x)).2 = x := by decide +kernel
  exact ⟨castSymbol x, List.mem_filter.mpr ⟨List.mem_map.mpr ⟨x, mentions_symbols hx, rfl⟩, (h1 x hl hne).1⟩, (h1 x hl hne).2⟩

/-- C40 for one parameter, whatever the others are: the annotation has neither white space nor commas nor colons, and the
name no colon. -/
theorem param_imports_partial (s : Signature) (p : Param) (hp : p ∈ s.params) {a x : Str} (ha : p.ann = some a) (hs : SimpleAnn a)
    (hn : ':' ∉ p.name) (hx : Mentions U a x) (hl : x ∈ librarySymbols) (hne : x ∉ [py!"Type", py!"np", py!"pd", py!"Scalar"]) :
    ∃ kw ∈ sigImports U s.print, (bindingOf kw).2 = x := by
  -- the text behind the annotation
  obtain ⟨pre, post, hj, hpre, hpost⟩ := join_split (List.mem_map.mpr ⟨p, hp, rfl⟩ : p.print ∈ s.params.map Param.print)
  obtain ⟨t, hprint, ht⟩ : ∃ t, p.print = p.name ++ py!": " ++ a ++ t ∧ (t = [] ∨ ∃ r, t = ' ' :: r) := by
    unfold Param.print
    rw [ha]
    cases p.dflt with
    | none => exact ⟨[], by simp, .inl rfl⟩
    | some d => exact ⟨py!" = " ++ d, by simp, .inr ⟨_, rfl⟩⟩
  obtain ⟨u, hu, hu'⟩ : ∃ u, s.print = py!"(" ++ pre ++ p.name ++ py!": " ++ (a ++ u) ∧
      (u.takeWhile hintChar = [] ∨ u.takeWhile hintChar = py!")") := by
    unfold Signature.print
    rw [hj, hprint]
    refine ⟨t ++ (post ++ (py!")" ++ (match s.ret with | some r => py!" -> " ++ r | none => []))), by cases s.ret <;> simp, ?_⟩
    rcases ht with rfl | ⟨r, rfl⟩
    · rcases hpost with rfl | ⟨r, rfl⟩
      · right
        cases s.ret with
        | none => decide
        | some r =>
          show (')' :: ' ' :: _).takeWhile hintChar = _
          rw [List.takeWhile_cons_of_pos (by decide), List.takeWhile_cons_of_neg (by decide)]
      · left
        show (',' :: _).takeWhile hintChar = _
        rw [List.takeWhile_cons_of_neg (by decide)]
    · left
      show (' ' :: _).takeWhile hintChar = _
      rw [List.takeWhile_cons_of_neg (by decide)]
  have hmem : (a ++ u.takeWhile hintChar) ∈ colonHints 0 s.print := by
    rw [hu]
    have h0 := colonHints_head (t := u) hs
    rcases hpre with rfl | ⟨q, rfl⟩
    · rw [show py!"(" ++ [] ++ p.name ++ py!": " ++ (a ++ u) = (py!"(" ++ p.name) ++ (py!": " ++ (a ++ u)) by simp,
        colonHints_plain (by simp [hn])]
      exact h0
    · rw [show py!"(" ++ (q ++ py!", ") ++ p.name ++ py!": " ++ (a ++ u) = (py!"(" ++ q) ++ ',' :: ((' ' :: p.name) ++ (py!": " ++ (a ++ u))) by simp]
      refine colonHints_comma ?_ _ 0 (Nat.zero_le _)
      rw [colonHints_plain (by simp [hn])]
      exact h0
  have hsp : ∀ c ∈ a ++ u.takeWhile hintChar, isSpace c = false ∧ c ≠ ':' := by
    intro c hc
    rcases List.mem_append.mp hc with hc | hc
    · exact ⟨(hs.2 c hc).1, (hs.2 c hc).2.2⟩
    · rcases hu' with h | h
      · rw [h] at hc; cases hc
      · rw [h] at hc
        obtain rfl : c = ')' := by simpa using hc
        decide
  have hm : Mentions U (a ++ u.takeWhile hintChar) x := by
    refine mentions_append hx ?_
    rcases hu' with h | h
    · rw [h]; intro c hc; cases hc
    · rw [h]
      intro c hc
      obtain rfl : c = ')' := by simpa using hc.symm
      simp only [wordChar, Uni.isAlnum, U.alpha_ascii ')' (by decide), U.numeric_ascii ')' (by decide)]
      decide
  obtain ⟨kw, hk, he⟩ := importSymbols_mem hm hl hne
  refine ⟨kw, List.mem_append_left _ (List.mem_flatMap.mpr ⟨_, hmem, ?_⟩), he⟩
  rw [strip_eq_self (fun c hc => (hsp c (List.mem_of_mem_head? hc)).1) (fun c hc => (hsp c (List.mem_of_getLast? hc)).1),
    rstrip_eq_self (fun c hc => (hsp c (List.mem_of_getLast? hc)).1), replace_id (fun hc => (hsp _ hc).2 rfl)]
  exact hk

/-! ### The return annotation -/

theorem arrowHint_skip {w s : Str} (h : '>' ∉ w) (hs : s.head? ≠ some '>') : arrowHint (w ++ s) = arrowHint s := by
  induction w with
  | nil => rfl
  | cons c w ih =>
    simp only [List.mem_cons, not_or] at h
    have : startsWith (c :: (w ++ s)) py!"->" = false := by
      cases w with
      | nil =>
        cases s with
        | nil => simp [startsWith, List.isPrefixOf]
        | cons d s =>
          have : '>' ≠ d := fun e => hs (by rw [← e]; rfl)
          simp [startsWith, List.isPrefixOf, this]
      | cons d w =>
        simp only [List.mem_cons, not_or] at h
        simp [startsWith, List.isPrefixOf, h.2.1]
    rw [List.cons_append, arrowHint, this]
    exact ih h.2

/-- C40 for the return annotation: it has neither white space nor commas nor colons, and no `>` occurs in the parameters. -/
theorem return_imports_partial (s : Signature) {a x : Str} (ha : s.ret = some a) (hs : SimpleAnn a) (hp : ∀ p ∈ s.params, '>' ∉ p.print)
    (hx : Mentions U a x) (hl : x ∈ librarySymbols) (hne : x ∉ [py!"Type", py!"np", py!"pd", py!"Scalar"]) :
    ∃ kw ∈ sigImports U s.print, (bindingOf kw).2 = x := by
  obtain ⟨kw, hk, he⟩ := importSymbols_mem hx hl hne
  refine ⟨kw, List.mem_append_right _ ?_, he⟩
  have hj : '>' ∉ join py!", " (s.params.map Param.print) := by
    intro h
    rcases mem_join h with h | ⟨y, hy, h⟩
    · revert h; decide
    · obtain ⟨p, hp', rfl⟩ := List.mem_map.mp hy
      exact hp p hp' h
  have e : arrowHint s.print = some a := by
    unfold Signature.print
    rw [ha, show ∀ j : Str, py!"(" ++ j ++ py!")" ++ (py!" -> " ++ a) = (py!"(" ++ (j ++ py!") ")) ++ '-' :: '>' :: ' ' :: a by intro j; simp]
    rw [arrowHint_skip (by simp [hj]) (by simp)]
    have e1 : lstrip (' ' :: a) = a := by
      show (' ' :: a).dropWhile isSpace = _
      rw [List.dropWhile_cons_of_pos (by decide)]
      exact dropWhile_eq_self (fun c hc => (hs.2 c (List.mem_of_mem_head? hc)).1)
    have e2 : a.takeWhile hintChar = a := by
      have := takeWhile_append_all (a := a) (p := hintChar) (fun c h => hintChar_iff.mpr ⟨(hs.2 c h).1, (hs.2 c h).2.1⟩) []
      simpa using this
    have e3 : a.isEmpty = false := by
      cases a with
      | nil => exact absurd rfl hs.1
      | cons _ _ => rfl
    have e4 : startsWith ('-' :: '>' :: ' ' :: a) py!"->" = true := by simp [startsWith, List.isPrefixOf]
    simp only [arrowHint, e4, if_true, List.drop_succ_cons, List.drop_zero, e1, e2, e3, Bool.false_and, Bool.false_eq_true, if_false]
  rw [e]
  show kw ∈ importSymbols U (rstripChar ':' a)
  rw [show rstripChar ':' a = a from ?_]
  · exact hk
  · unfold rstripChar
    rw [dropWhile_eq_self, List.reverse_reverse]
    intro c hc
    rw [List.head?_reverse] at hc
    simpa using (hs.2 c (List.mem_of_getLast? hc)).2.2

end

/-- The hypotheses hold for both annotations of `(a, *b: List[int], c: 'Set' = {1: 2}) -> Iterator[int]`. -/
def sampleSignature : Signature :=
  ⟨[⟨py!"a", none, none⟩, ⟨py!"*b", some py!"List[int]", none⟩, ⟨py!"c", some py!"'Set'", some py!"{1: 2}"⟩], some py!"Iterator[int]"⟩

example : sampleSignature.print = py!"(a, *b: List[int], c: 'Set' = {1: 2}) -> Iterator[int]" := by decide

example : (∃ kw ∈ sigImports asciiUni sampleSignature.print, (bindingOf kw).2 = py!"Set") ∧
    (∃ kw ∈ sigImports asciiUni sampleSignature.print, (bindingOf kw).2 = py!"Iterator") :=
  ⟨param_imports_partial sampleSignature ⟨py!"c", some py!"'Set'", some py!"{1: 2}"⟩ (by simp [sampleSignature]) rfl (by unfold SimpleAnn; decide) (by decide)
    ⟨py!"'", py!"'", by decide, by decide, by decide, by decide, by decide⟩ (by decide) (by decide),
   return_imports_partial sampleSignature rfl (by unfold SimpleAnn; decide) (by simp [sampleSignature, Param.print])
    ⟨[], py!"[int]", by decide, by decide, by decide, by decide, by decide⟩ (by decide) (by decide)⟩

end Verif.Props
