import Verif.Lemmas.Words
import Verif.Spec.Basic
import Verif.Model.OrderedSet
import Verif.Model.Names
import Verif.Model.Strategies
import Verif.Model.Cache
import Verif.Model.Docstring
/- Properties C01–C04, C10–C13: the utility modules. -/
namespace Verif.Props
open Verif Verif.Spec

/-! ## C01 Ordered set -/

private theorem ofAdds_seen {α} [DecidableEq α] (xs : List α) (s : OSet α) (h : ∀ x, x ∈ s.seen ↔ x ∈ s.lst) :
    ∀ x, x ∈ (xs.foldl OSet.add s).seen ↔ x ∈ (xs.foldl OSet.add s).lst := by
  induction xs generalizing s with
  | nil => exact h
  | cons a r ih =>
    apply ih
    intro x
    unfold OSet.add
    split
    · exact h x
    · simp [h x, or_comm]

private theorem ofAdds_inv {α} [DecidableEq α] (pre xs : List α) (s : OSet α) (h : ∀ x, x ∈ s.seen ↔ x ∈ s.lst)
    (hs : FirstOccurrences pre s.lst) : FirstOccurrences (pre ++ xs) (xs.foldl OSet.add s).lst := by
  induction xs generalizing pre s with
  | nil => simpa using hs
  | cons a r ih =>
    have : pre ++ a :: r = (pre ++ [a]) ++ r := by simp
    rw [this]
    apply ih
    · exact ofAdds_seen [a] s h
    · show FirstOccurrences (pre ++ [a]) (OSet.add s a).lst
      unfold OSet.add
      split
      · rename_i hmem
        have hm : a ∈ pre := (hs.mem a).mp ((h a).mp hmem)
        refine ⟨hs.nodup, fun x => ?_, ?_⟩
        · rw [hs.mem x]; simp only [List.mem_append, List.mem_singleton]
          exact ⟨.inl, fun h => h.elim id (fun e => e ▸ hm)⟩
        · refine hs.order.imp_of_mem ?_
          intro x y hx hy hlt
          rw [List.idxOf_append, List.idxOf_append, if_pos ((hs.mem x).mp hx), if_pos ((hs.mem y).mp hy)]
          exact hlt
      · rename_i hmem
        have hl : a ∉ s.lst := fun h' => hmem ((h a).mpr h')
        have hm : a ∉ pre := fun h' => hl ((hs.mem a).mpr h')
        refine ⟨?_, fun x => ?_, ?_⟩
        · rw [List.nodup_append]
          refine ⟨hs.nodup, by simp, ?_⟩
          intro x hx y hy
          simp at hy; subst hy
          rintro rfl; exact hl hx
        · simp [hs.mem x]
        · rw [List.pairwise_append]
          refine ⟨?_, by simp, ?_⟩
          · refine hs.order.imp_of_mem ?_
            intro x y hx hy hlt
            rw [List.idxOf_append, List.idxOf_append, if_pos ((hs.mem x).mp hx), if_pos ((hs.mem y).mp hy)]
            exact hlt
          · intro x hx y hy
            simp at hy; subst hy
            rw [List.idxOf_append, List.idxOf_append, if_pos ((hs.mem x).mp hx), if_neg hm]
            have := List.idxOf_lt_length_iff.mpr ((hs.mem x).mp hx)
            omega

/-- C01. After adding any sequence `xs` of elements one by one, the list view holds each of them exactly once, in
order of first addition. -/
theorem orderedSet_first_occurrences {α : Type} [DecidableEq α] (xs : List α) :
    FirstOccurrences xs (OSet.ofAdds xs).asList := by
  have := ofAdds_inv (α := α) [] xs {} (by simp) ⟨by simp, by simp, by simp⟩
  simpa [OSet.ofAdds, OSet.asList] using this

/-- C01. Adding an element again changes nothing. -/
theorem orderedSet_readd {α : Type} [DecidableEq α] (xs : List α) (x : α) (h : x ∈ xs) :
    (OSet.ofAdds (xs ++ [x])).asList = (OSet.ofAdds xs).asList := by
  have hmem := ((orderedSet_first_occurrences xs).mem x).mpr h
  have hseen := (ofAdds_seen xs ({} : OSet α) (by simp) x).mpr hmem
  have hseen' : x ∈ (List.foldl OSet.add {} xs).seen := hseen
  simp only [OSet.ofAdds, OSet.asList, List.foldl_append, List.foldl_cons, List.foldl_nil]
  rw [show OSet.add (List.foldl OSet.add {} xs) x = List.foldl OSet.add {} xs from by
    rw [OSet.add, if_pos hseen']]

example : (OSet.ofAdds [3, 1, 3, 2, 1]).asList = [3, 1, 2] := by decide

/-! ## C02, C03 Class names -/

/-- C02. The name check accepts exactly the strings with at least one letter or digit, only letters, digits and
underscores, and no numeric first character. -/
theorem nameOk_iff (U : Uni) (s : Str) :
    nameOk U s = true ↔
      (∃ c ∈ s, c ≠ '_' ∧ U.isAlnum c = true) ∧ (∀ c ∈ s, c = '_' ∨ U.isAlnum c = true) ∧
      (∀ c, s.head? = some c → U.isNumeric c = false) := by
  cases s with
  | nil => simp [nameOk]
  | cons a r =>
    simp only [nameOk, Bool.and_eq_true, Bool.not_eq_true', List.isEmpty_eq_false_iff, List.all_eq_true,
      List.mem_filter, List.head?_cons, Option.some.injEq, forall_eq', bne_iff_ne, ne_eq]
    constructor
    · rintro ⟨⟨hne, hall⟩, hnum⟩
      refine ⟨?_, ?_, hnum⟩
      · obtain ⟨c, hc⟩ := List.exists_mem_of_ne_nil _ hne
        rw [List.mem_filter] at hc
        exact ⟨c, hc.1, by simpa using hc.2, hall c ⟨hc.1, by simpa using hc.2⟩⟩
      · intro c hc
        by_cases h : c = '_'
        · exact .inl h
        · exact .inr (hall c ⟨hc, by simpa using h⟩)
    · rintro ⟨⟨c, hc, hne, _⟩, hall, hnum⟩
      refine ⟨⟨?_, ?_⟩, hnum⟩
      · intro hnil
        have : c ∈ List.filter (fun x => x != '_') (a :: r) := List.mem_filter.mpr ⟨hc, by simpa using hne⟩
        rw [hnil] at this; simp at this
      · rintro d ⟨hd, hdne⟩
        exact (hall d hd).resolve_left (by simpa using hdne)

/-- C02. Over ASCII every accepted name matches the Python identifier grammar. -/
theorem nameOk_ascii_ident (U : Uni) (s : Str) (hs : ∀ c ∈ s, isAscii c = true) (h : nameOk U s = true) :
    AsciiIdent s := by
  obtain ⟨⟨c, hc, _⟩, hall, hnum⟩ := (nameOk_iff U s).mp h
  cases s with
  | nil => simp at hc
  | cons a r =>
    have key : ∀ d ∈ a :: r, d.isAlpha = true ∨ d.isDigit = true ∨ d = '_' := by
      intro d hd
      rcases hall d hd with h | h
      · exact .inr (.inr h)
      · simp only [Uni.isAlnum, Bool.or_eq_true, U.alpha_ascii d (hs d hd), U.numeric_ascii d (hs d hd)] at h
        exact h.elim .inl (fun h => .inr (.inl h))
    refine ⟨a, r, rfl, ?_, fun d hd => key d (by simp [hd])⟩
    have h0 := hnum a rfl
    rw [U.numeric_ascii a (hs a (by simp))] at h0
    rcases key a (by simp) with h | h | h
    · exact .inl h
    · simp [h0] at h
    · exact .inr h

/-- C02, converse over ASCII: an identifier is accepted unless it consists of underscores only. -/
theorem ascii_ident_nameOk (U : Uni) (s : Str) (hs : ∀ c ∈ s, isAscii c = true) (h : AsciiIdent s) :
    nameOk U s = true ↔ ∃ c ∈ s, c ≠ '_' := by
  rw [nameOk_iff]
  obtain ⟨a, r, rfl, ha, hr⟩ := h
  have key : ∀ d ∈ a :: r, d = '_' ∨ U.isAlnum d = true := by
    intro d hd
    have had := hs d hd
    simp only [Uni.isAlnum, Bool.or_eq_true, U.alpha_ascii d had, U.numeric_ascii d had]
    rcases List.mem_cons.mp hd with rfl | hd
    · rcases ha with h | h
      · exact .inr (.inl h)
      · exact .inl h
    · rcases hr d hd with h | h | h
      · exact .inr (.inl h)
      · exact .inr (.inr h)
      · exact .inl h
  constructor
  · rintro ⟨⟨c, hc, hne, _⟩, _⟩; exact ⟨c, hc, hne⟩
  · rintro ⟨c, hc, hne⟩
    refine ⟨⟨c, hc, hne, (key c hc).resolve_left hne⟩, key, ?_⟩
    intro d hd
    simp at hd; subst hd
    rw [U.numeric_ascii _ (hs _ (by simp))]
    rcases ha with h | h
    · simp only [Char.isAlpha, Char.isUpper, Char.isLower, Bool.or_eq_true, Bool.and_eq_true, decide_eq_true_eq] at h
      simp only [Char.isDigit, Bool.and_eq_false_iff, decide_eq_false_iff_not]
      rcases h with h | h
      · right; intro h2; have := h.1; simp_all [UInt32.le_iff_toNat_le]; omega
      · right; intro h2; have := h.1; simp_all [UInt32.le_iff_toNat_le]; omega
    · subst h; decide

example : nameOk asciiUni py!"MyClass_1" = true ∧ nameOk asciiUni py!"1a" = false ∧
    nameOk asciiUni py!"a b" = false ∧ nameOk asciiUni py!"_" = false ∧ nameOk asciiUni [] = false := by decide
example : AsciiIdent py!"My_Class1" := ⟨'M', py!"y_Class1", rfl, by decide, by decide⟩

/-- C03 (full statement): an accepted name is never a reserved word. -/
def AcceptedNamesAreDeclarable (U : Uni) : Prop := ∀ s, nameOk U s = true → s ∉ kwlist

/-- C03 is false: the reserved word `class` is accepted, whatever the Unicode tables are. -/
theorem accepted_names_declarable_fails (U : Uni) : ¬ AcceptedNamesAreDeclarable U := by
  intro h
  refine h py!"class" ?_ (by decide)
  have hid : AsciiIdent py!"class" := ⟨'c', py!"lass", rfl, by decide, by decide⟩
  exact (ascii_ident_nameOk U _ (by decide) hid).mpr ⟨'c', by decide, by decide⟩

/-- C03, what remains: over ASCII, an accepted name that is not a reserved word is a legal class name. Missing: the
check does not exclude reserved words itself. -/
theorem accepted_names_declarable_partial (U : Uni) (s : Str) (hs : ∀ c ∈ s, isAscii c = true)
    (h : nameOk U s = true) (hk : s ∉ kwlist) : AsciiIdent s ∧ s ∉ kwlist :=
  ⟨nameOk_ascii_ident U s hs h, hk⟩

/-- C03: in fact every one of the 35 reserved words is accepted. -/
theorem all_keywords_accepted (U : Uni) : ∀ k ∈ kwlist, nameOk U k = true := by
  intro k hk
  have h1 : ∀ k ∈ kwlist, (∀ c ∈ k, isAscii c = true) := by decide
  have h2 : ∀ k ∈ kwlist, (∀ c ∈ k, c.isAlpha = true) ∧ k ≠ [] := by decide
  have ⟨ha, hne⟩ := h2 k hk
  obtain ⟨c, r, rfl⟩ := List.exists_cons_of_ne_nil hne
  have hc := ha c (by simp)
  refine (ascii_ident_nameOk U _ (h1 _ hk) ⟨c, r, rfl, .inl hc, fun d hd => .inl (ha d (by simp [hd]))⟩).mpr ⟨c, by simp, ?_⟩
  rintro rfl
  simp at hc

/-! ## C04 Caching -/

/-- C04, characterisation for every method and every history: once a call has succeeded, every later call returns
that first result, whatever its arguments. -/
theorem cached_history {α ε β : Type} (m : α → Except ε β) (a : α) (as : List α) (r : β) (h : m a = .ok r) :
    cachedRun m none (a :: as) = List.replicate (as.length + 1) (.ok r) := by
  have key : ∀ as : List α, cachedRun m (some r) as = List.replicate as.length (.ok r) := by
    intro as
    induction as with
    | nil => rfl
    | cons b bs ih => simp [cachedRun, cachedCall, ih, List.replicate_succ]
  simp [cachedRun, cachedCall, h, key, List.replicate_succ]

/-- C04: a failed call is not remembered. -/
theorem cached_failure_not_remembered {α ε β : Type} (m : α → Except ε β) (a : α) (as : List α) (e : ε)
    (h : m a = .error e) : cachedRun m none (a :: as) = .error e :: cachedRun m none as := by
  simp [cachedRun, cachedCall, h]

/-- C04 (full statement) for a method `m`: every call returns what the method computes for its own arguments. -/
def CallsHonourArguments {α ε β : Type} (m : α → Except ε β) : Prop :=
  ∀ history : List α, cachedRun m none history = history.map m

/-- C04: caching without arguments is right exactly for methods whose successful results do not depend on the
arguments (after a first success). -/
theorem calls_honour_arguments_iff {α ε β : Type} (m : α → Except ε β) :
    CallsHonourArguments m ↔ ∀ a b r, m a = .ok r → m b = .ok r := by
  constructor
  · intro h a b r hr
    have h1 := h [a, b]
    rw [cached_history m a [b] r hr] at h1
    simp [List.replicate] at h1
    exact h1.2.symm
  · intro h history
    induction history with
    | nil => rfl
    | cons a as ih =>
      cases hm : m a with
      | ok r =>
        rw [cached_history m a as r hm]
        have : (a :: as).map m = List.replicate (a :: as).length (.ok r) := by
          rw [List.eq_replicate_iff]
          refine ⟨by simp, ?_⟩
          intro x hx
          obtain ⟨b, _, rfl⟩ := List.mem_map.mp hx
          exact h a b r hm
        simpa using this.symm
      | error e => rw [cached_failure_not_remembered m a as e hm, ih]; simp [hm]

example : cachedRun (fun b : Bool => (.ok (if b then 1 else 2) : Except Unit Nat)) none [true, false]
    = [.ok 1, .ok 1] := rfl

/-! ## C10, C11, C12 Docstrings -/

private theorem rstripChar_append (c : Char) (s : Str) : ∃ n, s = rstripChar c s ++ List.replicate n c := by
  have key : ∀ l : Str, ∃ n, l = List.replicate n c ++ l.dropWhile (· == c) := by
    intro l
    induction l with
    | nil => exact ⟨0, rfl⟩
    | cons a r ih =>
      by_cases h : a = c
      · subst h
        obtain ⟨n, hn⟩ := ih
        exact ⟨n + 1, by simp only [List.replicate_succ, List.dropWhile, beq_self_eq_true, List.cons_append]; rw [← hn]⟩
      · have h' : (a == c) = false := by simpa using h
        exact ⟨0, by simp [List.dropWhile, h']⟩
  obtain ⟨n, hn⟩ := key s.reverse
  refine ⟨n, ?_⟩
  have := congrArg List.reverse hn
  simp [rstripChar] at this ⊢
  exact this

/-- C10. The text inside the quotes is the input without its trailing newlines, plus a full stop if it does not
already end with one. -/
theorem docText_spec (s : Str) :
    ∃ t n, s = t ++ List.replicate n '\n' ∧ (docText s = t ∧ endsWith t py!"." = true ∨ docText s = t ++ py!".") := by
  obtain ⟨n, hn⟩ := rstripChar_append '\n' s
  refine ⟨rstripChar '\n' s, n, hn, ?_⟩
  unfold docText
  by_cases h : endsWith (rstripChar '\n' s) py!"." = true
  · exact .inl ⟨by simp [h], h⟩
  · exact .inr (by simp [h])

/-- C10. The formatted docstring is the indentation, three quotes, a body and three quotes, where the body has
exactly the words of the text, in order. -/
theorem formatDoc_words (s : Str) (n : Nat) (indent : Str) (hi : Blank indent) :
    ∃ body, formatDoc s n indent = indent ++ quotes3 ++ body ++ quotes3 ∧ words body = words (docText s) := by
  unfold formatDoc
  simp only
  split
  · exact ⟨docText s, by simp, rfl⟩
  · split
    · exact ⟨docText s, by simp, rfl⟩
    · refine ⟨py!"\n" ++ join py!"\n" ((splitString (docText s) n).map (indent ++ ·)) ++ py!"\n" ++ indent,
        by simp [List.append_assoc], ?_⟩
      rw [List.append_assoc (_ ++ _), words_append_allspace]
      · rw [List.singleton_append, words_cons_space (by decide), words_join_nl]
        rw [← splitString_words (docText s) n, List.map_map]
        congr 1
        apply List.map_congr_left
        intro x _
        exact words_allspace_append x hi
      · intro c hc
        rcases List.mem_append.mp hc with hc | hc
        · simp at hc; subst hc; decide
        · exact hi c hc
      · simp

/-- C10. Splitting at a given width keeps the words, in order. -/
theorem splitString_keeps_words (s : Str) (n : Nat) : ((splitString s n).map words).flatten = words s :=
  splitString_words s n

/-- C11. A split line is at most the width, or is one single word of the text. -/
theorem splitString_width (s : Str) (n : Nat) : ∀ x ∈ splitString s n, x.length ≤ n ∨ x ∈ words s := by
  intro x hx
  unfold splitString at hx
  obtain ⟨l, hl, hxl⟩ := List.mem_flatten.mp hx
  obtain ⟨line, hline, rfl⟩ := List.mem_map.mp hl
  rcases splitLine_width hxl with h | ⟨w, hw, rfl⟩
  · exact .inl h
  · right
    have : words s = ((splitChar '\n' s).map words).flatten := by
      rw [← words_join_nl, show py!"\n" = ['\n'] from rfl, join_splitChar]
    rw [this]
    exact List.mem_flatten.mpr ⟨_, List.mem_map.mpr ⟨line, hline, rfl⟩, hw⟩

/-- C11 for the whole docstring (full statement): no line of the formatted docstring exceeds the width unless it
contains a word that does not fit. -/
def DocstringFits : Prop := ∀ (s : Str) (n : Nat) (indent : Str), Blank indent →
  (∀ w ∈ words (docText s), w.length ≤ n) → ∀ l ∈ splitChar '\n' (formatDoc s n indent), l.length ≤ n

/-- C11 is false for the whole docstring: quotes and indentation are not counted when a text fits on one line. -/
theorem docstring_fits_fails : ¬ DocstringFits := by
  intro h
  have := h py!"aa bb." 8 [] (by intro c hc; simp at hc) (by decide) py!"\"\"\"aa bb.\"\"\"" (by decide)
  exact absurd this (by decide)

example : splitString py!"one two three\n\nfour" 8 = [py!"one two", py!"three", [], py!"four"] := by decide
example : formatDoc py!"Doc" 90 py!"    " = py!"    \"\"\"Doc.\"\"\"" := by decide
example : formatDoc py!"a\nb" 90 py!"  " = py!"  \"\"\"\n  a\n  b.\n  \"\"\"" := by decide

/-! ## C13 Strategies -/

/-- C13. A strategy record is accepted exactly when every option has an allowed value. -/
theorem strategies_accept_iff (r : RawStrategies) :
    (∃ S, postInit r = .ok S) ↔
      r.list ∈ [py!"Sequence", py!"list"] ∧ r.tuple ∈ [py!"fixed", py!"any size"] ∧
      r.dict ∈ [py!"TypedDict", py!"Mapping", py!"dict"] ∧
      r.pandas ∈ [py!"Full type hint", py!"Type hint only for autocomplete", py!"Do not type hint columns"] ∧
      0 ≤ r.minHeight ∧ 0 < r.merge ∧ r.merge ≤ 100 ∧ (r.checkMax = none ∨ ∃ n, r.checkMax = some n ∧ 0 ≤ n) := by
  have hl : r.list ∈ [py!"Sequence", py!"list"] ↔ ∃ x, parseList r.list = some x := by
    simp only [parseList, List.mem_cons, List.not_mem_nil, or_false]
    split <;> (try split) <;> simp_all
  have ht : r.tuple ∈ [py!"fixed", py!"any size"] ↔ ∃ x, parseTuple r.tuple = some x := by
    simp only [parseTuple, List.mem_cons, List.not_mem_nil, or_false]
    split <;> (try split) <;> simp_all
  have hd : r.dict ∈ [py!"TypedDict", py!"Mapping", py!"dict"] ↔ ∃ x, parseDict r.dict = some x := by
    simp only [parseDict, List.mem_cons, List.not_mem_nil, or_false]
    split <;> (try split) <;> (try split) <;> simp_all
  have hp : r.pandas ∈ [py!"Full type hint", py!"Type hint only for autocomplete", py!"Do not type hint columns"] ↔
      ∃ x, parsePandas r.pandas = some x := by
    simp only [parsePandas, List.mem_cons, List.not_mem_nil, or_false]
    split <;> (try split) <;> (try split) <;> simp_all
  have hc : (r.checkMax = none ∨ ∃ n, r.checkMax = some n ∧ 0 ≤ n) ↔ 0 ≤ r.checkMax.getD 0 := by
    cases r.checkMax <;> simp
  rw [hl, ht, hd, hp, hc]
  unfold postInit
  constructor
  · rintro ⟨S, hS⟩
    split at hS
    · rename_i l t d p h1 h2 h3 h4
      refine ⟨⟨l, h1⟩, ⟨t, h2⟩, ⟨d, h3⟩, ⟨p, h4⟩, ?_⟩
      split at hS
      · simp at hS
      · split at hS
        · simp at hS
        · split at hS
          · simp at hS
          · simp only at hS
            split at hS
            · simp at hS
            · omega
    · simp at hS
  · rintro ⟨⟨l, h1⟩, ⟨t, h2⟩, ⟨d, h3⟩, ⟨p, h4⟩, h5, h6, h7, h8⟩
    rw [h1, h2, h3, h4]
    simp only
    rw [if_neg (by omega), if_neg (by omega), if_neg (by omega), if_neg (by omega)]
    exact ⟨_, rfl⟩

/-- C13. The options of an accepted record are the ones that were named. -/
theorem strategies_words (r : RawStrategies) (S : Strategies) (h : postInit r = .ok S) :
    (r.list = py!"list" ∧ S.list = .list ∨ r.list = py!"Sequence" ∧ S.list = .sequence) ∧
    (r.tuple = py!"fixed" ∧ S.tuple = .fixed ∨ r.tuple = py!"any size" ∧ S.tuple = .anySize) ∧
    (r.dict = py!"TypedDict" ∧ S.dict = .typedDict ∨ r.dict = py!"Mapping" ∧ S.dict = .mapping ∨ r.dict = py!"dict" ∧ S.dict = .dict) ∧
    (r.pandas = py!"Full type hint" ∧ S.pandas = .full ∨ r.pandas = py!"Type hint only for autocomplete" ∧ S.pandas = .autocomplete ∨
      r.pandas = py!"Do not type hint columns" ∧ S.pandas = .none) := by
  unfold postInit at h
  split at h
  · rename_i l t d p h1 h2 h3 h4
    have hS : S.list = l ∧ S.tuple = t ∧ S.dict = d ∧ S.pandas = p := by
      simp only at h
      repeat (split at h; (first | cases h | skip))
      all_goals (first | (cases h; exact ⟨rfl, rfl, rfl, rfl⟩) | (simp at h))
    obtain ⟨rfl, rfl, rfl, rfl⟩ := hS
    clear h
    refine ⟨?_, ?_, ?_, ?_⟩
    · unfold parseList at h1
      split at h1 <;> (try split at h1) <;> (try split at h1) <;> simp_all
    · unfold parseTuple at h2
      split at h2 <;> (try split at h2) <;> (try split at h2) <;> simp_all
    · unfold parseDict at h3
      split at h3 <;> (try split at h3) <;> (try split at h3) <;> simp_all
    · unfold parsePandas at h4
      split at h4 <;> (try split at h4) <;> (try split at h4) <;> simp_all
  · cases h

/-- C13. An accepted record keeps its values; `None` and `0` both mean "no element limit". -/
theorem strategies_values (r : RawStrategies) (S : Strategies) (h : postInit r = .ok S) :
    (S.minHeight : Int) = r.minHeight ∧ (S.merge : Int) = r.merge ∧ 0 < S.merge ∧ S.merge ≤ 100 ∧
    S.keyDoc = r.keyDoc ∧ S.readOnly = r.readOnly ∧ (S.checkMax : Int) = r.checkMax.getD 0 := by
  unfold postInit at h
  split at h
  · split at h
    · simp at h
    · split at h
      · simp at h
      · split at h
        · simp at h
        · simp only at h
          split at h
          · simp at h
          · simp only [Except.ok.injEq] at h
            subst h
            exact ⟨by simp only; omega, by simp only; omega, by simp only; omega, by simp only; omega, rfl, rfl,
              by simp only; omega⟩
  · simp at h

example : ∃ S, postInit {} = .ok S := ⟨_, rfl⟩
example : ∃ S, postInit { tuple := py!"any size", dict := py!"Mapping", list := py!"Sequence", pandas := py!"Do not type hint columns" } = .ok S :=
  ⟨_, rfl⟩
example : postInit { merge := 0 } = .error .mergeTooLow := rfl
example : postInit { checkMax := some (-1) } = .error .checkMaxTooLow := rfl
example : postInit { tuple := py!"any" } = .error .badValue := rfl

end Verif.Props
