import Verif.Py.Str
/- General lemmas about lists and the string functions of `Py/Str`. -/
namespace Verif

/-! ### Order on strings, sorting -/

theorem char_eq_of_toNat {a b : Char} (h : a.toNat = b.toNat) : a = b := Char.toNat_inj.mp h

theorem strLe_refl : ∀ s : Str, strLe s s = true
  | [] => rfl
  | a :: as => by simp [strLe, strLe_refl as]

theorem strLe_total : ∀ a b : Str, strLe a b = true ∨ strLe b a = true
  | [], _ => by simp [strLe]
  | _ :: _, [] => by simp [strLe]
  | a :: as, b :: bs => by
    simp only [strLe]
    have ih := strLe_total as bs
    split
    · simp
    · split
      · simp
      · simpa using ih

theorem strLe_antisymm : ∀ a b : Str, strLe a b = true → strLe b a = true → a = b
  | [], [] => by simp
  | [], _ :: _ => by simp [strLe]
  | _ :: _, [] => by simp [strLe]
  | a :: as, b :: bs => by
    simp only [strLe]
    intro h1 h2
    split at h1
    · split at h2 <;> first | omega | simp at h2 | (split at h2 <;> first | omega | simp at h2)
    · split at h1
      · simp at h1
      · have hab : a = b := char_eq_of_toNat (by omega)
        subst hab
        simp at h2
        rw [strLe_antisymm as bs h1 h2]

theorem strLe_trans : ∀ a b c : Str, strLe a b = true → strLe b c = true → strLe a c = true
  | [], _, _ => by simp [strLe]
  | _ :: _, [], _ => by simp [strLe]
  | _ :: _, _ :: _, [] => by simp [strLe]
  | a :: as, b :: bs, c :: cs => by
    simp only [strLe]
    intro h1 h2
    have ih := strLe_trans as bs cs
    split at h1
    · split at h2
      · rw [if_pos (by omega)]
      · split at h2
        · simp at h2
        · rw [if_pos (by omega)]
    · split at h1
      · simp at h1
      · split at h2
        · rw [if_pos (by omega)]
        · split at h2
          · simp at h2
          · rw [if_neg (by omega), if_neg (by omega)]
            exact ih h1 h2

theorem perm_insertBy {α} (le : α → α → Bool) (x : α) : ∀ l, (insertBy le x l).Perm (x :: l)
  | [] => .refl _
  | y :: r => by
    simp only [insertBy]
    split
    · exact .refl _
    · exact ((perm_insertBy le x r).cons y).trans (.swap x y r)

theorem perm_sortBy {α} (le : α → α → Bool) : ∀ l, (sortBy le l).Perm l
  | [] => .refl _
  | x :: r => (perm_insertBy le x _).trans ((perm_sortBy le r).cons x)

theorem mem_insertBy {α} {le : α → α → Bool} {x y : α} {l} : y ∈ insertBy le x l ↔ y = x ∨ y ∈ l := by
  rw [(perm_insertBy le x l).mem_iff]; simp

theorem mem_sortBy {α} {le : α → α → Bool} {y : α} {l} : y ∈ sortBy le l ↔ y ∈ l :=
  (perm_sortBy le l).mem_iff

theorem length_sortBy {α} {le : α → α → Bool} {l : List α} : (sortBy le l).length = l.length :=
  (perm_sortBy le l).length_eq

theorem pairwise_insertBy {α} {le : α → α → Bool} (tot : ∀ a b, le a b = true ∨ le b a = true)
    (tr : ∀ a b c, le a b = true → le b c = true → le a c = true) (x : α) :
    ∀ l, List.Pairwise (fun a b => le a b = true) l → List.Pairwise (fun a b => le a b = true) (insertBy le x l)
  | [], _ => by simp [insertBy]
  | y :: r, h => by
    simp only [insertBy]
    rw [List.pairwise_cons] at h
    split
    · rename_i hxy
      rw [List.pairwise_cons]
      refine ⟨?_, by rw [List.pairwise_cons]; exact h⟩
      intro z hz
      rcases List.mem_cons.mp hz with rfl | hz
      · exact hxy
      · exact tr _ _ _ hxy (h.1 z hz)
    · rename_i hxy
      rw [List.pairwise_cons]
      refine ⟨?_, pairwise_insertBy tot tr x r h.2⟩
      intro z hz
      rcases mem_insertBy.mp hz with rfl | hz
      · rcases tot z y with h' | h'
        · exact absurd h' hxy
        · exact h'
      · exact h.1 z hz

theorem pairwise_sortBy {α} {le : α → α → Bool} (tot : ∀ a b, le a b = true ∨ le b a = true)
    (tr : ∀ a b c, le a b = true → le b c = true → le a c = true) :
    ∀ l, List.Pairwise (fun a b => le a b = true) (sortBy le l)
  | [] => List.Pairwise.nil
  | x :: r => pairwise_insertBy tot tr x _ (pairwise_sortBy tot tr r)

/-- Sorting by a linear order forgets the input order. -/
theorem sortBy_eq_of_perm {α} {le : α → α → Bool} (tot : ∀ a b, le a b = true ∨ le b a = true)
    (tr : ∀ a b c, le a b = true → le b c = true → le a c = true)
    (anti : ∀ a b, le a b = true → le b a = true → a = b) {l₁ l₂ : List α} (h : l₁.Perm l₂) :
    sortBy le l₁ = sortBy le l₂ := by
  apply List.Perm.eq_of_pairwise (le := fun a b => le a b = true)
  · intro a b _ _ h1 h2; exact anti a b h1 h2
  · exact pairwise_sortBy tot tr l₁
  · exact pairwise_sortBy tot tr l₂
  · exact ((perm_sortBy le l₁).trans h).trans (perm_sortBy le l₂).symm

theorem sortStr_eq_of_perm {l₁ l₂ : List Str} (h : l₁.Perm l₂) : sortStr l₁ = sortStr l₂ :=
  sortBy_eq_of_perm strLe_total strLe_trans strLe_antisymm h

theorem sortStr_perm (l : List Str) : (sortStr l).Perm l := perm_sortBy _ l

/-! ### dedup -/

theorem mem_dedup {α} [DecidableEq α] {y : α} : ∀ {l : List α}, y ∈ dedup l ↔ y ∈ l
  | [] => by simp [dedup]
  | x :: r => by
    simp only [dedup, List.mem_cons, List.mem_filter, mem_dedup (l := r)]
    by_cases h : y = x <;> simp [h]

theorem nodup_dedup {α} [DecidableEq α] : ∀ l : List α, (dedup l).Nodup
  | [] => List.nodup_nil
  | x :: r => by
    simp only [dedup, List.nodup_cons]
    exact ⟨by simp, (nodup_dedup r).filter _⟩

theorem dedup_of_nodup {α} [DecidableEq α] : ∀ {l : List α}, l.Nodup → dedup l = l
  | [], _ => rfl
  | x :: r, h => by
    rw [List.nodup_cons] at h
    simp only [dedup, dedup_of_nodup h.2]
    congr 1
    rw [List.filter_eq_self]
    intro a ha
    simp
    rintro rfl
    exact h.1 ha

theorem perm_of_nodup_mem {α} [DecidableEq α] {l₁ l₂ : List α} (h1 : l₁.Nodup) (h2 : l₂.Nodup)
    (h : ∀ x, x ∈ l₁ ↔ x ∈ l₂) : l₁.Perm l₂ := by
  rw [List.perm_iff_count]
  intro a
  by_cases ha : a ∈ l₁
  · rw [h1.count, h2.count]; simp [ha, (h a).mp ha]
  · rw [List.count_eq_zero.mpr ha, List.count_eq_zero.mpr (fun h' => ha ((h a).mpr h'))]

theorem length_le_of_nodup_subset {α} [DecidableEq α] : ∀ {l m : List α}, l.Nodup → (∀ x ∈ l, x ∈ m) → l.length ≤ m.length
  | [], _, _, _ => by simp
  | a :: l, m, hn, hs => by
    rw [List.nodup_cons] at hn
    have ha : a ∈ m := hs a (by simp)
    have h := length_le_of_nodup_subset (l := l) (m := m.erase a) hn.2 (by
      intro x hx
      have hne : x ≠ a := by rintro rfl; exact hn.1 hx
      exact (List.mem_erase_of_ne hne).mpr (hs x (by simp [hx])))
    rw [List.length_erase_of_mem ha] at h
    have := List.length_pos_of_mem ha
    simp only [List.length_cons]; omega

theorem dedup_perm_of_mem {α} [DecidableEq α] {l₁ l₂ : List α} (h : ∀ x, x ∈ l₁ ↔ x ∈ l₂) :
    (dedup l₁).Perm (dedup l₂) :=
  perm_of_nodup_mem (nodup_dedup _) (nodup_dedup _) (fun x => by rw [mem_dedup, mem_dedup]; exact h x)

/-! ### join / split -/

@[simp] theorem join_nil (sep : Str) : join sep [] = [] := rfl
@[simp] theorem join_singleton (sep x : Str) : join sep [x] = x := rfl
theorem join_cons_cons (sep x y : Str) (r : List Str) :
    join sep (x :: y :: r) = x ++ sep ++ join sep (y :: r) := rfl

theorem join_cons (sep x : Str) {r : List Str} (h : r ≠ []) : join sep (x :: r) = x ++ sep ++ join sep r := by
  cases r with
  | nil => exact absurd rfl h
  | cons y r => rfl

theorem mem_join {c : Char} {sep : Str} : ∀ {l : List Str}, c ∈ join sep l → c ∈ sep ∨ ∃ x ∈ l, c ∈ x
  | [] => by simp
  | [x] => by simp; exact .inr
  | x :: y :: r => by
    rw [join_cons_cons]
    simp only [List.mem_append]
    rintro ((h | h) | h)
    · exact .inr ⟨x, by simp, h⟩
    · exact .inl h
    · rcases mem_join h with h | ⟨z, hz, hc⟩
      · exact .inl h
      · exact .inr ⟨z, List.mem_cons_of_mem _ hz, hc⟩

theorem splitChar_ne_nil (c : Char) : ∀ s, splitChar c s ≠ []
  | [] => by simp [splitChar]
  | d :: r => by
    simp only [splitChar]
    split
    · simp
    · split <;> simp

theorem splitChar_free {c : Char} : ∀ {s : Str}, c ∉ s → splitChar c s = [s]
  | [], _ => rfl
  | d :: r, h => by
    simp at h
    have : (d == c) = false := by simpa using fun e => h.1 e.symm
    simp [splitChar, this, splitChar_free h.2]

theorem splitChar_append_sep {c : Char} : ∀ {a b : Str}, c ∉ a → splitChar c (a ++ c :: b) = a :: splitChar c b
  | [], b, _ => by simp [splitChar]
  | d :: a, b, h => by
    simp at h
    have : (d == c) = false := by simpa using fun e => h.1 e.symm
    simp [splitChar, this, splitChar_append_sep h.2]

/-- `c.join(s.split(c)) == s`. -/
theorem join_splitChar (c : Char) : ∀ s : Str, join [c] (splitChar c s) = s
  | [] => rfl
  | d :: r => by
    have ih := join_splitChar c r
    simp only [splitChar]
    split
    · rename_i h
      rw [join_cons _ _ (splitChar_ne_nil c r), ih]; simp at h; simp [h]
    · split
      · rename_i h; exact absurd h (splitChar_ne_nil c r)
      · rename_i w ws h
        rw [h] at ih
        cases ws with
        | nil => simp at ih; simp [ih]
        | cons y t => rw [join_cons_cons] at ih ⊢; simp at ih ⊢; exact ih

theorem not_mem_of_mem_splitChar {c : Char} : ∀ {s w : Str}, w ∈ splitChar c s → c ∉ w
  | [], w => by simp [splitChar]; rintro rfl; simp
  | d :: r, w => by
    simp only [splitChar]
    split
    · simp
      rintro (rfl | h)
      · simp
      · exact not_mem_of_mem_splitChar h
    · rename_i hd
      split
      · rename_i h; exact absurd h (splitChar_ne_nil c r)
      · rename_i w' ws h
        simp
        rintro (rfl | h')
        · simp at hd
          simp only [List.mem_cons, not_or]
          exact ⟨fun e => hd e.symm, not_mem_of_mem_splitChar (s := r) (by rw [h]; simp)⟩
        · exact not_mem_of_mem_splitChar (s := r) (by rw [h]; simp [h'])

/-- Splitting a joined list of separator-free pieces gives the pieces back. -/
theorem splitChar_join {c : Char} : ∀ {l : List Str}, l ≠ [] → (∀ x ∈ l, c ∉ x) → splitChar c (join [c] l) = l
  | [], h, _ => absurd rfl h
  | [x], _, h => by simpa using splitChar_free (h x (by simp))
  | x :: y :: r, _, h => by
    rw [join_cons_cons, List.append_assoc, List.singleton_append,
      splitChar_append_sep (h x (by simp)), splitChar_join (by simp) (fun z hz => h z (by simp [hz]))]

/-! ### decimal numbers -/

theorem natStr_inj {a b : Nat} (h : natStr a = natStr b) : a = b := by
  have := congrArg (fun s => Nat.ofDigitChars 10 s 0) h
  simpa [natStr, Nat.ofDigitChars_toDigits] using this

theorem natStr_ne_nil (n : Nat) : natStr n ≠ [] := Nat.toDigits_ne_nil

theorem isDigit_of_mem_natStr {c : Char} {n : Nat} (h : c ∈ natStr n) : c.isDigit = true :=
  Nat.isDigit_of_mem_toDigits (by decide) (by decide) h

/-! ### strip -/

theorem dropWhile_eq_self {α} {p : α → Bool} {l : List α} (h : ∀ x, l.head? = some x → p x = false) :
    l.dropWhile p = l := by
  cases l with
  | nil => rfl
  | cons a r => simp [List.dropWhile, h a rfl]

theorem lstrip_eq_self {s : Str} (h : ∀ c, s.head? = some c → isSpace c = false) : lstrip s = s :=
  dropWhile_eq_self h

theorem rstrip_eq_self {s : Str} (h : ∀ c, s.getLast? = some c → isSpace c = false) : rstrip s = s := by
  unfold rstrip
  rw [dropWhile_eq_self, List.reverse_reverse]
  intro c hc
  rw [List.head?_reverse] at hc
  exact h c hc

theorem strip_eq_self {s : Str} (h1 : ∀ c, s.head? = some c → isSpace c = false)
    (h2 : ∀ c, s.getLast? = some c → isSpace c = false) : strip s = s := by
  unfold strip; rw [lstrip_eq_self h1, rstrip_eq_self h2]

theorem strip_space_cons (s : Str) : strip (' ' :: s) = strip s := by
  have : isSpace ' ' = true := by decide
  simp [strip, lstrip, List.dropWhile, this]

end Verif
