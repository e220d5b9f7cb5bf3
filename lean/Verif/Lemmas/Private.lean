import Verif.Model.PyFile
import Verif.Spec.PyFiles
import Verif.Lemmas.YamlDoc
import Verif.Lemmas.Order
import Verif.Lemmas.Quotes
/-
Removal of private methods: which lines are found, and what remains.
-/
namespace Verif
open Verif.Spec

/-- The test for private methods. -/
def privateTest (l : Str) : Bool := startsWith (strip l) py!"def _" && !startsWith (strip l) py!"def __"

theorem strip_head {ind rest : Str} (h : ∀ c ∈ ind, isSpace c = true) :
    strip (ind ++ py!"def _" ++ rest) = py!"def _" ++ rstrip rest := by
  have e : ind ++ py!"def _" ++ rest = ind ++ 'd' :: (py!"ef " ++ '_' :: rest) := by simp
  rw [e, strip_cons_visible h (by decide), rstrip_visible (by decide)]
  rfl

theorem rstrip_head {s : Str} {c : Char} (hc : isSpace c = false) : (rstrip s).head? = some c ↔ s.head? = some c := by
  constructor
  · intro h
    cases s with
    | nil => simp [rstrip] at h
    | cons a r =>
      by_cases ha : isSpace a = true
      · obtain ⟨t, ht⟩ : ∃ t, rstrip (a :: r) = t ∧ (∃ x, a :: r = t ++ x) := ⟨_, rfl, by
          unfold rstrip
          obtain ⟨x, hx⟩ := List.dropWhile_suffix (p := isSpace) (l := (a :: r).reverse)
          exact ⟨x.reverse, by
            have := congrArg List.reverse hx
            simpa using this.symm⟩⟩
        obtain ⟨e, x, hx⟩ := ht
        rw [e] at h
        cases t with
        | nil => simp at h
        | cons b t => simp only [List.cons_append, List.cons.injEq] at hx; rw [hx.1]; simpa using h
      · have : rstrip (a :: r) = a :: rstrip r := by
          have := rstrip_visible (x := []) (b := r) (c := a) (by simpa using ha)
          simpa using this
        rw [this] at h
        simpa using h
  · intro h
    cases s with
    | nil => simp at h
    | cons a r =>
      simp only [List.head?_cons, Option.some.injEq] at h
      subst h
      have := rstrip_visible (x := []) (b := r) (c := a) hc
      simp only [List.nil_append] at this
      rw [this]; rfl

theorem privateTest_iff (l : Str) : privateTest l = true ↔ PrivateHead l := by
  constructor
  · intro h
    simp only [privateTest, Bool.and_eq_true, Bool.not_eq_true'] at h
    obtain ⟨ind, he, hi⟩ : ∃ t, l = t ++ lstrip l ∧ ∀ c ∈ t, isSpace c = true := lstrip_append
    obtain ⟨r, hr⟩ := startsWith_iff.mp h.1
    have hp : ∃ x, lstrip l = strip l ++ x := by
      unfold strip rstrip
      obtain ⟨x, hx⟩ := List.dropWhile_suffix (p := isSpace) (l := (lstrip l).reverse)
      exact ⟨x.reverse, by have := congrArg List.reverse hx; simpa using this.symm⟩
    obtain ⟨x, hx⟩ := hp
    have e : l = ind ++ py!"def _" ++ (r ++ x) := by rw [he, hx, hr]; simp
    refine ⟨ind, r ++ x, hi, e, ?_⟩
    intro hu
    rw [e, strip_head hi] at h
    have := (rstrip_head (c := '_') (by decide)).mpr hu
    cases hs : rstrip (r ++ x) with
    | nil => rw [hs] at this; simp at this
    | cons a q =>
      rw [hs] at this h
      simp only [List.head?_cons, Option.some.injEq] at this
      subst this
      simp [startsWith] at h
  · rintro ⟨ind, rest, hi, e, hu⟩
    rw [privateTest, e, strip_head hi, Bool.and_eq_true]
    refine ⟨startsWith_iff.mpr ⟨_, rfl⟩, ?_⟩
    rw [Bool.not_eq_true', ← Bool.not_eq_true]
    intro h
    obtain ⟨r, hr⟩ := startsWith_iff.mp h
    apply hu
    apply (rstrip_head (c := '_') (by decide)).mp
    have : rstrip rest = '_' :: r := by simpa using hr
    rw [this]; rfl

/-! ### Popping lines -/

/-- The lines, counted from `i`, whose numbers are not in `s`. -/
def keepFrom (s : List Int) : Nat → List Str → List Str
  | _, [] => []
  | i, l :: r => if (i : Int) ∈ s then keepFrom s (i + 1) r else l :: keepFrom s (i + 1) r

theorem keepFrom_append (s : List Int) : ∀ (i : Nat) (a b : List Str),
    keepFrom s i (a ++ b) = keepFrom s i a ++ keepFrom s (i + a.length) b
  | i, [], b => by simp [keepFrom]
  | i, l :: a, b => by
    simp only [List.cons_append, keepFrom]
    rw [keepFrom_append s (i + 1) a b]
    have : i + 1 + a.length = i + (l :: a).length := by simp; omega
    rw [this]
    split <;> rfl

theorem keepFrom_congr {s t : List Int} : ∀ (i : Nat) (a : List Str), (∀ j, i ≤ j → j < i + a.length → ((j : Int) ∈ s ↔ (j : Int) ∈ t)) →
    keepFrom s i a = keepFrom t i a
  | _, [], _ => rfl
  | i, l :: a, h => by
    simp only [keepFrom]
    rw [keepFrom_congr (i + 1) a (fun j h1 h2 => h j (by omega) (by simp; omega))]
    have := h i (by omega) (by simp)
    by_cases hi : (i : Int) ∈ s
    · rw [if_pos hi, if_pos (this.mp hi)]
    · rw [if_neg hi, if_neg (fun hh => hi (this.mpr hh))]

theorem keepFrom_none {s : List Int} : ∀ (i : Nat) (a : List Str), (∀ j, i ≤ j → j < i + a.length → (j : Int) ∉ s) → keepFrom s i a = a
  | _, [], _ => rfl
  | i, l :: a, h => by
    simp only [keepFrom]
    rw [keepFrom_none (i + 1) a (fun j h1 h2 => h j (by omega) (by simp; omega)), if_neg (h i (by omega) (by simp))]

theorem keepFrom_all {s : List Int} : ∀ (i : Nat) (a : List Str), (∀ j, i ≤ j → j < i + a.length → (j : Int) ∈ s) → keepFrom s i a = []
  | _, [], _ => rfl
  | i, l :: a, h => by
    simp only [keepFrom]
    rw [keepFrom_all (i + 1) a (fun j h1 h2 => h j (by omega) (by simp; omega)), if_pos (h i (by omega) (by simp))]

theorem popAll_keep : ∀ (s : List Int) (L : List Str), s.Pairwise (· > ·) → (∀ i ∈ s, 0 ≤ i ∧ i < L.length) →
    popAll L s = .ok (keepFrom s 0 L)
  | [], L, _, _ => by rw [keepFrom_none 0 L (by simp)]; rfl
  | i :: s, L, hs, hb => by
    have hi := hb i (by simp)
    have hs' := List.pairwise_cons.mp hs
    obtain ⟨n, rfl⟩ : ∃ n : Nat, i = n := ⟨i.toNat, by omega⟩
    have hn : n < L.length := by omega
    unfold popAll
    dsimp only
    rw [if_pos (by omega : (0 : Int) ≤ n), if_pos (by omega)]
    rw [popAll_keep s _ hs'.2]
    · congr 1
      have e : L = L.take n ++ L[n] :: L.drop (n + 1) := by rw [List.getElem_cons_drop, List.take_append_drop]
      have hl : (L.take n).length = n := by rw [List.length_take]; omega
      have e2 : L.eraseIdx n = L.take n ++ L.drop (n + 1) := List.eraseIdx_eq_take_drop_succ ..
      have : ((n : Int).toNat) = n := by omega
      rw [this, e2]
      conv => rhs; rw [e]
      rw [keepFrom_append, keepFrom_append, hl]
      congr 1
      · apply keepFrom_congr
        intro j _ hj
        rw [hl] at hj
        simp only [List.mem_cons]
        constructor
        · exact .inr
        · rintro (h | h)
          · omega
          · exact h
      · simp only [keepFrom, Nat.zero_add, List.mem_cons, true_or, if_true]
        rw [keepFrom_none, keepFrom_none]
        · intro j hj _ hm
          simp only [List.mem_cons] at hm
          rcases hm with hm | hm
          · omega
          · have := hs'.1 _ hm; omega
        · intro j hj _ hm
          have := hs'.1 _ hm; omega
    · intro j hj
      have h1 := hs'.1 j hj
      have h2 := hb j (by simp [hj])
      rw [List.length_eraseIdx]
      have : ((n : Int).toNat) = n := by omega
      rw [this, if_pos hn]
      omega

theorem insertDesc_perm (i : Int) : ∀ l : List Int, (insertDesc i l).Perm (i :: l)
  | [] => .refl _
  | j :: r => by
    unfold insertDesc
    split
    · exact .refl _
    · exact ((insertDesc_perm i r).cons j).trans (.swap ..)

theorem insertDesc_sorted (i : Int) : ∀ {l : List Int}, l.Pairwise (· ≥ ·) → (insertDesc i l).Pairwise (· ≥ ·)
  | [], _ => by simp [insertDesc]
  | j :: r, h => by
    have h' := List.pairwise_cons.mp h
    unfold insertDesc
    split
    · next hij =>
      refine List.pairwise_cons.mpr ⟨?_, h⟩
      intro k hk
      rcases List.mem_cons.mp hk with rfl | hk
      · exact hij
      · have := h'.1 k hk; omega
    · next hij =>
      refine List.pairwise_cons.mpr ⟨?_, insertDesc_sorted i h'.2⟩
      intro k hk
      rcases List.mem_cons.mp ((insertDesc_perm i r).mem_iff.mp hk) with rfl | hk
      · omega
      · exact h'.1 k hk

theorem sortDesc : ∀ l : List Int, (l.foldr insertDesc []).Perm l ∧ (l.foldr insertDesc []).Pairwise (· ≥ ·)
  | [] => ⟨.refl _, .nil⟩
  | i :: l => by
    obtain ⟨h1, h2⟩ := sortDesc l
    exact ⟨(insertDesc_perm i _).trans (h1.cons i), insertDesc_sorted i h2⟩

theorem popAll_sorted (s : List Int) (L : List Str) (hn : s.Nodup) (hb : ∀ i ∈ s, 0 ≤ i ∧ i < L.length) :
    popAll L (s.foldr insertDesc []) = .ok (keepFrom s 0 L) := by
  obtain ⟨h1, h2⟩ := sortDesc s
  have hn' : (s.foldr insertDesc []).Nodup := h1.nodup_iff.mpr hn
  rw [popAll_keep]
  · congr 1
    apply keepFrom_congr
    intro j _ _
    exact h1.mem_iff
  · have := List.pairwise_and_iff.mpr ⟨h2, hn'⟩
    refine this.imp ?_
    rintro a b ⟨h, h'⟩
    omega
  · intro i hi
    exact hb i (h1.mem_iff.mp hi)

/-! ### Finding the lines -/

theorem allPrivate_skip (L : List Str) : ∀ (i : Nat) (xs ys : List Str), (∀ l ∈ xs, ¬ PrivateHead l) →
    allPrivateLines L i (xs ++ ys) = allPrivateLines L (i + xs.length) ys
  | i, [], ys, _ => rfl
  | i, x :: xs, ys, h => by
    have hx : privateTest x = false := by
      rw [← Bool.not_eq_true, privateTest_iff]; exact h x (by simp)
    have e : i + 1 + xs.length = i + (x :: xs).length := by simp; omega
    rw [List.cons_append, allPrivateLines]
    unfold privateTest at hx
    rw [hx, if_neg (by simp), allPrivate_skip L (i + 1) xs ys (fun l hl => h l (by simp [hl])), e]

theorem allPrivate_head (L : List Str) (i : Nat) (x : Str) (ys : List Str) (h : PrivateHead x) {a b : List Int}
    (ha : privateLines L i x = .ok a) (hb : allPrivateLines L (i + 1) ys = .ok b) : allPrivateLines L i (x :: ys) = .ok (a ++ b) := by
  have hx := (privateTest_iff x).mpr h
  rw [allPrivateLines]
  unfold privateTest at hx
  rw [hx, if_pos rfl, ha, hb]

theorem pyLine_nat (L : List Str) (n : Nat) : pyLine L n = L[n]? := by
  unfold pyLine
  rw [if_pos (by omega)]
  rfl

/-- The numbers from `i` on, `n` of them. -/
def ints (i n : Nat) : List Int := (List.range' i n).map Int.ofNat

theorem mem_ints {i n : Nat} {j : Int} : j ∈ ints i n ↔ (i : Int) ≤ j ∧ j < i + n := by
  simp only [ints, List.mem_map, List.mem_range'_1]
  constructor
  · rintro ⟨a, h, rfl⟩; simp only [Int.ofNat_eq_natCast]; omega
  · intro h; exact ⟨j.toNat, by omega, by simp only [Int.ofNat_eq_natCast]; omega⟩

theorem ints_append (i m n : Nat) : ints i m ++ ints (i + m) n = ints i (m + n) := by
  simp only [ints, ← List.map_append]
  rw [List.range'_append_1]

theorem ints_nodup (i n : Nat) : (ints i n).Nodup := by
  unfold ints
  exact List.Pairwise.map _ (fun a b h h' => h (Int.ofNat.inj h')) (List.nodup_range' (step := 1))

theorem decorators_found (A B : List Str) (p : Str) (hp : A.getLast? = some p) (hp' : '@' ∉ p) : ∀ (fuel : Nat) (D D' : List Str),
    D.length < fuel → (∀ d ∈ D, '@' ∈ d) →
    ∃ l, decoratorsAbove (A ++ D ++ D' ++ B) fuel ((A.length + D.length : Nat) : Int) = .ok l ∧ l.Perm (ints A.length D.length)
  | 0, _, _, h, _ => absurd h (by omega)
  | fuel + 1, D, D', h, hd => by
    rw [decoratorsAbove]
    rcases List.eq_nil_or_concat D with rfl | ⟨D0, d, rfl⟩
    · obtain ⟨A0, rfl⟩ : ∃ A0, A = A0 ++ [p] := by
        rcases List.eq_nil_or_concat A with rfl | ⟨A0, a, rfl⟩
        · simp at hp
        · rw [List.concat_eq_append] at hp ⊢
          rw [List.getLast?_concat] at hp
          injection hp with hp
          exact ⟨A0, by rw [hp]⟩
      have e : (((A0 ++ [p]).length + ([] : List Str).length : Nat) : Int) - 1 = (A0.length : Nat) := by simp
      rw [e, pyLine_nat]
      have : ((A0 ++ [p]) ++ [] ++ D' ++ B)[A0.length]? = some p := by simp
      rw [this]
      dsimp only
      rw [if_neg (by simpa using hp')]
      exact ⟨[], rfl, by simp [ints]⟩
    · rw [List.concat_eq_append] at h hd ⊢
      have e : ((A.length + (D0 ++ [d]).length : Nat) : Int) - 1 = ((A.length + D0.length : Nat) : Int) := by simp; omega
      rw [e, pyLine_nat]
      have : (A ++ (D0 ++ [d]) ++ D' ++ B)[A.length + D0.length]? = some d := by
        have e2 : A ++ (D0 ++ [d]) ++ D' ++ B = (A ++ D0) ++ d :: (D' ++ B) := by simp
        rw [e2, List.getElem?_append_right (by simp)]
        simp
      rw [this]
      dsimp only
      rw [if_pos (by simpa using hd d (by simp))]
      have e3 : A ++ (D0 ++ [d]) ++ D' ++ B = A ++ D0 ++ (d :: D') ++ B := by simp
      obtain ⟨l, hl, hperm⟩ := decorators_found A B p hp hp' fuel D0 (d :: D') (by simp at h; omega) (fun x hx => hd x (by simp [hx]))
      rw [e3, hl]
      refine ⟨_, rfl, ?_⟩
      have : ints A.length (D0 ++ [d]).length = ints A.length D0.length ++ ints (A.length + D0.length) 1 := by
        rw [ints_append]; simp
      rw [this]
      refine (hperm.cons _).trans ?_
      have e4 : ints (A.length + D0.length) 1 = [((A.length + D0.length : Nat) : Int)] := rfl
      rw [e4]
      exact (List.perm_append_singleton _ _).symm

theorem ends_iff (l : Str) : (contains py!"):" l || contains py!"->" l) = true ↔ EndsParams l := by
  rw [Bool.or_eq_true, contains_iff_infix, contains_iff_infix]
  exact Iff.rfl

theorem signature_found (A B : List Str) : ∀ (fuel : Nat) (init : List Str) (last : Str) (pre : List Str), init.length < fuel → EndsParams last →
    (∀ l ∈ init, ¬ EndsParams l) →
    signatureEnd (A ++ pre ++ (init ++ [last]) ++ B) fuel (A.length + pre.length) =
      .ok (A.length + pre.length + init.length, List.range' (A.length + pre.length + 1) init.length)
  | 0, _, _, _, h, _, _ => absurd h (by omega)
  | fuel + 1, init, last, pre, hf, hl, hi => by
    rw [signatureEnd]
    cases init with
    | nil =>
      have : (A ++ pre ++ ([] ++ [last]) ++ B)[A.length + pre.length]? = some last := by
        have e : A ++ pre ++ ([] ++ [last]) ++ B = (A ++ pre) ++ last :: B := by simp
        rw [e, List.getElem?_append_right (by simp)]; simp
      rw [this]
      dsimp only
      rw [if_pos ((ends_iff last).mpr hl)]
      simp
    | cons x init =>
      have : (A ++ pre ++ (x :: init ++ [last]) ++ B)[A.length + pre.length]? = some x := by
        have e : A ++ pre ++ (x :: init ++ [last]) ++ B = (A ++ pre) ++ x :: (init ++ [last] ++ B) := by simp
        rw [e, List.getElem?_append_right (by simp)]; simp
      rw [this]
      dsimp only
      rw [if_neg (fun h => hi x (by simp) ((ends_iff x).mp h))]
      have ih := signature_found A B fuel init last (pre ++ [x]) (by simp at hf; omega) hl (fun l h => hi l (by simp [h]))
      have e1 : A ++ pre ++ (x :: init ++ [last]) ++ B = A ++ (pre ++ [x]) ++ (init ++ [last]) ++ B := by simp
      have e2 : A.length + pre.length + 1 = A.length + (pre ++ [x]).length := by simp; omega
      rw [e1, e2, ih]
      simp only [Except.map]
      congr 1
      simp only [List.length_append, List.length_cons, List.length_nil, Nat.zero_add, Prod.mk.injEq]
      refine ⟨by omega, ?_⟩
      rw [← List.range'_succ]

theorem deeper_test {n : Nat} {l : Str} (h : Deeper n l) : ∃ c, l[n]? = some c ∧ isSpace c = true := by
  obtain ⟨a, b, rfl, h1, h2⟩ := h
  have hn : n < a.length := by omega
  exact ⟨a[n], by rw [List.getElem?_append_left hn, List.getElem?_eq_getElem hn], h2 _ (List.getElem_mem hn)⟩

/-- What stops the walk over a body: the end of the file, or a line without a blank in column `n`. -/
def Stops (n : Nat) (C : List Str) : Prop := ∀ l t, C = l :: t → ∀ c, l[n]? = some c → isSpace c = false

theorem body_found (C : List Str) (n : Nat) (hC : Stops n C) : ∀ (fuel : Nat) (A : List Str) (body : List Str), body.length < fuel →
    (∀ l ∈ body, Deeper n l) →
    bodyBelow (A ++ body ++ C) n fuel A.length = List.range' A.length (body.length + min 1 C.length)
  | 0, _, _, h, _ => absurd h (by omega)
  | fuel + 1, A, body, hf, hb => by
    rw [bodyBelow]
    cases body with
    | nil =>
      cases C with
      | nil => simp
      | cons l t =>
        have : (A ++ [] ++ l :: t)[A.length]? = some l := by simp
        rw [this]
        dsimp only
        have e : min 1 (l :: t).length = 1 := by simp
        rw [e]
        cases hc : l[n]? with
        | none => simp
        | some c =>
          dsimp only
          rw [if_neg (by rw [hC l t rfl c hc]; decide)]
          simp
    | cons x body =>
      have : (A ++ x :: body ++ C)[A.length]? = some x := by simp
      rw [this]
      dsimp only
      obtain ⟨c, hc, hs⟩ := deeper_test (hb x (by simp))
      rw [hc]
      dsimp only
      rw [if_pos hs]
      have ih := body_found C n hC fuel (A ++ [x]) body (by simp at hf; omega) (fun l h => hb l (by simp [h]))
      have e1 : A ++ x :: body ++ C = A ++ [x] ++ body ++ C := by simp
      have e2 : A.length + 1 = (A ++ [x]).length := by simp
      rw [e1, e2, ih, ← e2]
      have : (x :: body).length + min 1 C.length = (body.length + min 1 C.length) + 1 := by simp; omega
      rw [this, List.range'_succ]

theorem indent_takeWhile {m : PrivateMethod} (h : m.Good) : (m.head.takeWhile isSpace).length = m.indent.length := by
  have : m.head.takeWhile isSpace = m.indent := by
    have e : m.head = m.indent ++ 'd' :: (py!"ef _" ++ m.rest) := by simp [PrivateMethod.head]
    rw [e]
    have hi := h.indent
    generalize m.indent = ind at hi
    induction ind with
    | nil => simp [isSpace]
    | cons c r ih => simp [hi c (by simp)]; exact ih (fun d hd => hi d (by simp [hd]))
  rw [this]

theorem head_private {m : PrivateMethod} (h : m.Good) : PrivateHead m.head := ⟨m.indent, m.rest, h.indent, rfl, h.single⟩

theorem method_found (A C : List Str) (m : PrivateMethod) (h : m.Good) (p : Str) (hp : A.getLast? = some p) (hp' : '@' ∉ p)
    (hb : ∀ l ∈ m.body, ¬ Blank l) (hC : Stops m.indent.length C) :
    ∃ l, privateLines (A ++ m.lines ++ C) (A.length + m.decorators.length) m.head = .ok l ∧
      l.Perm (ints A.length (m.lines.length + min 1 C.length)) := by
  obtain ⟨init, last, he, hl, hi⟩ := h.signature
  have hlen : m.params.length = init.length := by have := congrArg List.length he; simp at this; omega
  have hbody : ∀ l ∈ m.body, Deeper m.indent.length l := fun l hl => (h.body l hl).resolve_left (hb l hl)
  have eL : A ++ m.lines ++ C = A ++ m.decorators ++ (m.head :: m.params) ++ (m.body ++ C) := by simp [PrivateMethod.lines]
  have eL2 : A ++ m.lines ++ C = (A ++ m.decorators ++ m.head :: m.params) ++ m.body ++ C := by simp [PrivateMethod.lines]
  obtain ⟨ds, hds, hdp⟩ := decorators_found A (m.body ++ C) p hp hp' (2 * (A ++ m.lines ++ C).length + 2) m.decorators (m.head :: m.params)
    (by simp [PrivateMethod.lines]; omega) h.decorators
  have hsig := signature_found A (m.body ++ C) ((A ++ m.lines ++ C).length + 1) init last m.decorators
    (by simp [PrivateMethod.lines]; omega) hl hi
  rw [← he] at hsig
  have hbd := body_found C m.indent.length hC ((A ++ m.lines ++ C).length + 1) (A ++ m.decorators ++ m.head :: m.params) m.body
    (by simp [PrivateMethod.lines]; omega) hbody
  rw [← eL2] at hbd
  rw [← eL] at hsig hds
  unfold privateLines
  rw [hds, hsig]
  dsimp only
  rw [indent_takeWhile h]
  have ej : A.length + m.decorators.length + init.length + 1 = (A ++ m.decorators ++ m.head :: m.params).length := by simp; omega
  rw [ej, hbd]
  refine ⟨_, rfl, ?_⟩
  have e1 : ((A.length + m.decorators.length) :: List.range' (A.length + m.decorators.length + 1) init.length ++
      List.range' (A ++ m.decorators ++ m.head :: m.params).length (m.body.length + min 1 C.length)).map Int.ofNat =
      ints (A.length + m.decorators.length) (1 + init.length + (m.body.length + min 1 C.length)) := by
    rw [← ints_append, ints, ints, ← List.map_append]
    congr 1
    rw [Nat.add_comm 1 init.length, List.range'_succ]
    congr 2
    simp; omega
  rw [e1]
  refine (hdp.append_right _).trans ?_
  rw [ints_append]
  have : m.decorators.length + (1 + init.length + (m.body.length + min 1 C.length)) = m.lines.length + min 1 C.length := by
    simp [PrivateMethod.lines]; omega
  rw [this]

/-- What remains of a file: the other lines without the blank line below each private method. -/
def remaining : List Piece → List Str
  | [] => []
  | .other ls :: r => ls ++ remaining r
  | .method _ :: r => (remaining r).drop 1

theorem method_first {m : PrivateMethod} (h : m.Good) {b : Str} {t C : List Str} (e : m.lines ++ C = b :: t) : ¬ Blank b := by
  intro hb
  cases hd : m.decorators with
  | nil =>
    simp only [PrivateMethod.lines, hd, List.nil_append, List.cons_append, List.cons.injEq] at e
    have := hb 'd' (by rw [← e.1]; simp [PrivateMethod.head])
    revert this; decide
  | cons d ds =>
    simp only [PrivateMethod.lines, hd, List.cons_append, List.cons.injEq] at e
    have := hb '@' (by rw [← e.1]; exact h.decorators d (by simp [hd]))
    revert this; decide

theorem remaining_first : ∀ {ps : List Piece} {A : List Str} {b : Str} {t : List Str}, GoodFile A ps → fileLines ps = b :: t → Blank b →
    ∃ t', remaining ps = b :: t'
  | [], _, _, _, _, e, _ => by simp [fileLines] at e
  | .other [] :: r, A, b, t, hg, e, hb => by
    rw [remaining, List.nil_append]
    exact remaining_first hg.2 (by simpa [fileLines, Piece.lines] using e) hb
  | .other (l :: ls) :: r, A, b, t, hg, e, hb => by
    simp only [fileLines, List.flatMap_cons, Piece.lines, List.cons_append, List.cons.injEq] at e
    exact ⟨_, by rw [remaining, e.1]; rfl⟩
  | .method m :: r, A, b, t, hg, e, hb =>
    absurd hb (method_first hg.1 (by simpa only [fileLines, List.flatMap_cons, Piece.lines] using e))

theorem remaining_end : ∀ {ps : List Piece}, fileLines ps = [] → remaining ps = []
  | [], _ => rfl
  | .other ls :: r, e => by
    simp only [fileLines, List.flatMap_cons, Piece.lines, List.append_eq_nil_iff] at e
    rw [remaining, e.1, List.nil_append]
    exact remaining_end e.2
  | .method m :: r, e => by
    simp only [fileLines, List.flatMap_cons, Piece.lines, List.append_eq_nil_iff] at e
    rw [remaining, remaining_end e.2]; rfl

theorem pieces_found : ∀ (ps : List Piece) (A : List Str), GoodFile A ps → Spaced ps →
    ∃ idx, allPrivateLines (A ++ fileLines ps) A.length (fileLines ps) = .ok idx ∧ idx.Nodup ∧
      (∀ i ∈ idx, (A.length : Int) ≤ i ∧ i < (A ++ fileLines ps).length) ∧
      (∀ b t, fileLines ps = b :: t → Blank b → (A.length : Int) ∉ idx) ∧ keepFrom idx A.length (fileLines ps) = remaining ps
  | [], A, _, _ => ⟨[], rfl, .nil, by simp, by simp, rfl⟩
  | .other ls :: r, A, hg, hs => by
    obtain ⟨idx, h1, h2, h3, h4, h5⟩ := pieces_found r (A ++ ls) hg.2 hs
    have ef : fileLines (.other ls :: r) = ls ++ fileLines r := by simp [fileLines, Piece.lines]
    rw [ef, allPrivate_skip _ _ _ _ hg.1]
    rw [List.append_assoc, List.length_append] at h1
    refine ⟨idx, h1, h2, ?_, ?_, ?_⟩
    · intro i hi
      have := h3 i hi
      simp only [List.length_append] at this ⊢
      omega
    · intro b t e hb hi
      have hbound := h3 _ hi
      rw [List.length_append] at hbound
      cases ls with
      | nil => exact h4 b t (by simpa using e) hb (by simpa using hi)
      | cons l ls => simp at hbound; omega
    · rw [keepFrom_append, keepFrom_none _ ls, remaining]
      · rw [List.length_append] at h5
        rw [h5]
      · intro j _ hj hi
        have := h3 _ hi
        simp only [List.length_append] at this
        omega
  | .method m :: r, A, hg, hs => by
    obtain ⟨hm, ⟨p, hp, hp'⟩, _, hr⟩ := hg
    obtain ⟨hb, hn, hs'⟩ := hs
    obtain ⟨ir, h1, h2, h3, h4, h5⟩ := pieces_found r (A ++ m.lines) hr hs'
    have ef : fileLines (.method m :: r) = m.lines ++ fileLines r := by simp [fileLines, Piece.lines]
    have hC : Stops m.indent.length (fileLines r) := by
      intro l t e c hc
      rcases hn with hn | ⟨b, t', e', _, hlen⟩
      · rw [hn] at e; cases e
      · rw [e'] at e
        injection e with e1 e2
        subst e1
        rw [List.getElem?_eq_none (by omega)] at hc
        cases hc
    obtain ⟨a, ha, hperm⟩ := method_found A (fileLines r) m hm p hp hp' hb hC
    rw [ef]
    have hin := hm.inner
    have e1 : m.lines ++ fileLines r = m.decorators ++ (m.head :: ((m.params ++ m.body) ++ fileLines r)) := by simp [PrivateMethod.lines]
    have eL : A ++ (m.lines ++ fileLines r) = A ++ m.lines ++ fileLines r := by simp
    have hfound : allPrivateLines (A ++ (m.lines ++ fileLines r)) A.length (m.lines ++ fileLines r) = .ok (a ++ ir) := by
      rw [eL]
      conv => lhs; arg 3; rw [e1]
      rw [allPrivate_skip _ _ _ _ (fun l hl => hin l (by simp [hl]))]
      apply allPrivate_head _ _ _ _ (head_private hm) ha
      rw [allPrivate_skip _ _ _ _ (fun l hl => hin l (by simp at hl ⊢; rcases hl with h | h <;> simp [h]))]
      rw [← h1]
      congr 1
      simp [PrivateMethod.lines]; omega
    have hmem : ∀ i, i ∈ a ↔ (A.length : Int) ≤ i ∧ i < A.length + (m.lines.length + min 1 (fileLines r).length : Nat) := by
      intro i; rw [hperm.mem_iff, mem_ints]
    have hno : ∀ i ∈ ir, ((A.length + m.lines.length + min 1 (fileLines r).length : Nat) : Int) ≤ i := by
      intro i hi
      have hlow := (h3 i hi).1
      rw [List.length_append] at hlow
      rcases hn with hn | ⟨b, t, e, hbl, _⟩
      · rw [hn]; simp at hlow ⊢; omega
      · have : i ≠ ((A ++ m.lines).length : Int) := by rintro rfl; exact h4 b t e hbl hi
        rw [e]; simp at hlow this ⊢; omega
    refine ⟨a ++ ir, hfound, ?_, ?_, ?_, ?_⟩
    · rw [List.nodup_append]
      refine ⟨hperm.nodup_iff.mpr (ints_nodup _ _), h2, ?_⟩
      rintro x hx y hy rfl
      have := (hmem x).mp hx
      have := hno x hy
      omega
    · intro i hi
      rcases List.mem_append.mp hi with hi | hi
      · have := (hmem i).mp hi
        simp only [List.length_append]
        omega
      · have := h3 i hi
        simp only [List.length_append] at this ⊢
        omega
    · intro b t e hbl
      exact absurd hbl (method_first hm e)
    · rw [keepFrom_append, keepFrom_all _ m.lines, List.nil_append, remaining]
      · rcases hn with hn | ⟨b, t, e, hbl, _⟩
        · rw [hn, remaining_end hn]; rfl
        · rw [← h5, e]
          have hb1 : ((A ++ m.lines).length : Int) ∉ ir := h4 b t e hbl
          rw [List.length_append] at hb1
          have hone : min 1 (fileLines r).length = 1 := by rw [e]; simp
          simp only [keepFrom, List.length_append]
          rw [if_neg hb1, if_pos (List.mem_append_left _ ((hmem _).mpr (by rw [hone]; omega))), List.drop_one, List.tail_cons]
          apply keepFrom_congr
          intro j hj _
          rw [List.mem_append, hmem]
          constructor
          · rintro (h | h)
            · rw [hone] at h; omega
            · exact h
          · exact .inr
      · intro j h1 h2
        exact List.mem_append_left _ ((hmem _).mpr (by omega))

theorem blank_code {b : Str} (h : Blank b) (t : List Str) : codeLines (b :: t) = codeLines t := by
  have : b.all isSpace = true := List.all_eq_true.mpr h
  simp [codeLines, this]

theorem remaining_code : ∀ (ps : List Piece) (A : List Str), GoodFile A ps → Spaced ps → codeLines (remaining ps) = codeLines (otherLines ps)
  | [], _, _, _ => rfl
  | .other ls :: r, A, hg, hs => by
    have ih := remaining_code r _ hg.2 hs
    have e : otherLines (.other ls :: r) = ls ++ otherLines r := rfl
    rw [remaining, e]
    simp only [codeLines, List.filter_append] at ih ⊢
    rw [ih]
  | .method m :: r, A, hg, hs => by
    have ih := remaining_code r _ hg.2.2.2 hs.2.2
    have e : otherLines (.method m :: r) = otherLines r := rfl
    rw [remaining, e, ← ih]
    rcases hs.2.1 with hn | ⟨b, t, e, hb, _⟩
    · rw [remaining_end hn]; rfl
    · obtain ⟨t', ht⟩ := remaining_first hg.2.2.2 e hb
      rw [ht, blank_code hb]; rfl

theorem removePrivate_remaining (ps : List Piece) (hg : GoodFile [] ps) (hs : Spaced ps) :
    removePrivate (fileLines ps) = .ok (remaining ps) := by
  obtain ⟨idx, h1, h2, h3, _, h5⟩ := pieces_found ps [] hg hs
  simp only [List.nil_append, List.length_nil] at h1 h3 h5
  unfold removePrivate
  rw [h1]
  dsimp only
  rw [popAll_sorted idx _ h2 (fun i hi => by have := h3 i hi; omega), h5]

/-! ### Checking files -/

def deeperB (n : Nat) (l : Str) : Bool := decide ((l.take (n + 1)).length = n + 1) && (l.take (n + 1)).all isSpace

theorem deeperB_iff {n : Nat} {l : Str} : deeperB n l = true ↔ Deeper n l := by
  simp only [deeperB, Bool.and_eq_true, decide_eq_true_eq, List.all_eq_true]
  constructor
  · rintro ⟨h1, h2⟩
    exact ⟨l.take (n + 1), l.drop (n + 1), (List.take_append_drop _ _).symm, h1, h2⟩
  · rintro ⟨a, b, rfl, h1, h2⟩
    rw [← h1, List.take_left]
    exact ⟨rfl, h2⟩

def goodMethodB (m : PrivateMethod) : Bool :=
  m.indent.all isSpace && decide (m.rest.head? ≠ some '_') && m.decorators.all (fun d => d.contains '@') &&
  (match (m.head :: m.params).getLast? with
    | some last => (contains py!"):" last || contains py!"->" last) &&
        (m.head :: m.params).dropLast.all (fun l => !(contains py!"):" l || contains py!"->" l))
    | none => false) &&
  (m.decorators ++ m.params ++ m.body).all (fun l => !privateTest l) &&
  m.body.all (fun l => l.all isSpace || deeperB m.indent.length l)

theorem goodMethodB_sound {m : PrivateMethod} (h : goodMethodB m = true) : m.Good := by
  simp only [goodMethodB, Bool.and_eq_true, List.all_eq_true, decide_eq_true_eq] at h
  obtain ⟨⟨⟨⟨⟨h1, h2⟩, h3⟩, h4⟩, h5⟩, h6⟩ := h
  refine ⟨h1, h2, fun d hd => by simpa using h3 d hd, ?_, ?_, ?_⟩
  · have hl : (m.head :: m.params).getLast? = some ((m.head :: m.params).getLast (by simp)) := List.getLast?_eq_some_getLast _
    rw [hl] at h4
    simp only [Bool.and_eq_true, List.all_eq_true, Bool.not_eq_true'] at h4
    refine ⟨(m.head :: m.params).dropLast, _, (List.dropLast_concat_getLast _).symm, (ends_iff _).mp h4.1, ?_⟩
    intro l hl he
    have := h4.2 l hl
    rw [(ends_iff l).mpr he] at this
    cases this
  · intro l hl hp
    have := h5 l hl
    rw [(privateTest_iff l).mpr hp] at this
    cases this
  · intro l hl
    have := h6 l hl
    rw [Bool.or_eq_true, deeperB_iff, List.all_eq_true] at this
    exact this

def goodFileB (before : List Str) : List Piece → Bool
  | [] => true
  | .other ls :: r => ls.all (fun l => !privateTest l) && goodFileB (before ++ ls) r
  | .method m :: r => goodMethodB m && (match before.getLast? with
      | some p => !p.contains '@'
      | none => false) && (match (codeLines (fileLines r)).head? with
      | some l => !deeperB m.indent.length l
      | none => true) && goodFileB (before ++ m.lines) r

theorem goodFileB_sound : ∀ {ps : List Piece} {before : List Str}, goodFileB before ps = true → GoodFile before ps
  | [], _, _ => trivial
  | .other ls :: r, before, h => by
    simp only [goodFileB, Bool.and_eq_true, List.all_eq_true] at h
    refine ⟨?_, goodFileB_sound h.2⟩
    intro l hl hp
    have := h.1 l hl
    rw [(privateTest_iff l).mpr hp] at this
    cases this
  | .method m :: r, before, h => by
    simp only [goodFileB, Bool.and_eq_true] at h
    obtain ⟨⟨⟨h1, h2⟩, h3⟩, h4⟩ := h
    refine ⟨goodMethodB_sound h1, ?_, ?_, goodFileB_sound h4⟩
    · cases hp : before.getLast? with
      | none => rw [hp] at h2; cases h2
      | some p => rw [hp] at h2; exact ⟨p, rfl, by simpa using h2⟩
    · intro l hl hd
      rw [hl] at h3
      dsimp only at h3
      rw [deeperB_iff.mpr hd] at h3
      cases h3

end Verif
