import Verif.Spec.Tables
import Verif.Lemmas.Columns
/-
The recursion over the columns of data frames.
-/
namespace Verif
open Verif.Spec

theorem allSome_some {α : Type} : ∀ {l : List (Option α)}, (∀ x ∈ l, ∃ a, x = some a) → ∃ r, allSome l = some r
  | [], _ => ⟨[], rfl⟩
  | x :: l, h => by
    obtain ⟨a, rfl⟩ := h x (by simp)
    obtain ⟨r, hr⟩ := allSome_some (l := l) (fun y hy => h y (by simp [hy]))
    exact ⟨a :: r, by simp [allSome, hr]⟩

theorem allSome_none {α : Type} : ∀ {l : List (Option α)}, none ∈ l → allSome l = none
  | [], h => by cases h
  | none :: _, _ => rfl
  | some a :: l, h => by
    simp only [List.mem_cons, reduceCtorEq, false_or] at h
    simp [allSome, allSome_none h]

theorem literal_key {k : Key} (h : literalOf id k ≠ none) : literalKey k = true ∧ ∀ r, k ≠ .other .tuple r := by
  cases k with
  | str s => exact ⟨rfl, fun r e => by cases e⟩
  | none => exact absurd rfl h
  | other t r =>
    simp only [literalOf] at h
    split at h
    · rename_i ht
      refine ⟨by simpa [literalKey] using ht, fun r e => ?_⟩
      injection e with e _
      subst e
      rcases ht with h | h <;> cases h
    · exact absurd rfl h

variable {rt : Key → List Key → Str} {t : Table} {n : Nat}

/-- Frames with one level of labels. -/
theorem levels_plain (h : Levels 0 t) : ∀ c ∈ t, ∃ k, c.1 = .plain k := by
  intro c hc
  have := h c hc
  split at this
  · rename_i k e; exact ⟨k, e⟩
  · exact absurd rfl this.2

theorem levels_more (h : Levels (n + 1) t) : ∀ c ∈ t, ∃ k r, c.1 = .levels k r ∧ r.length = n + 1 := by
  intro c hc
  have := h c hc
  split at this
  · cases this
  · rename_i k r e; exact ⟨k, r, e, this.1⟩

theorem multilevel_plain (h : Levels 0 t) (hne : t ≠ []) : t.multilevel = false := by
  obtain ⟨c, r, rfl⟩ := List.exists_cons_of_ne_nil hne
  obtain ⟨k, hk⟩ := levels_plain h c (by simp)
  simp [Table.multilevel, hk]

theorem multilevel_more (h : Levels (n + 1) t) : t.multilevel = true := by
  unfold Table.multilevel
  rw [List.all_eq_true]
  intro c hc
  obtain ⟨k, r, e, _⟩ := levels_more h c hc
  rw [e]

/-- The labels below a label have one level less. -/
theorem select_levels (h : Levels (n + 1) t) (k : Key) : Levels n (t.select rt k) := by
  unfold Table.select
  rw [if_pos (multilevel_more h)]
  intro c hc
  obtain ⟨d, hd, rfl⟩ := List.mem_map.mp hc
  obtain ⟨k', r, e, hl⟩ := levels_more h d (List.mem_filter.mp hd).1
  dsimp only
  rw [e]
  cases r with
  | nil => cases hl
  | cons x r =>
    cases r with
    | nil => simp at hl; simp [ColLabel.below, hl]
    | cons y r => simp at hl; simp [ColLabel.below]; omega

theorem keys_below {l : ColLabel} (h : ∃ k x r, l = .levels k (x :: r)) : keysOf l.below = (keysOf l).tail := by
  obtain ⟨k, x, r, rfl⟩ := h
  cases r with
  | nil => rfl
  | cons y r => rfl

theorem select_literal (h : Levels (n + 1) t) (hl : LiteralTable t) (k : Key) : LiteralTable (t.select rt k) := by
  unfold Table.select
  rw [if_pos (multilevel_more h)]
  intro c hc k' hk'
  obtain ⟨d, hd, rfl⟩ := List.mem_map.mp hc
  obtain ⟨k2, r, e, hlen⟩ := levels_more h d (List.mem_filter.mp hd).1
  have hx : ∃ k x r, d.1 = .levels k (x :: r) := by
    cases r with
    | nil => cases hlen
    | cons x r => exact ⟨k2, x, r, e⟩
  rw [keys_below hx] at hk'
  exact hl d (List.mem_filter.mp hd).1 k' (List.mem_of_mem_tail hk')

theorem select_repeated (h : Levels (n + 1) t) {l : ColLabel} {v w : Val} (hs : [(l, v), (l, w)].Sublist t) :
    [(l.below, v), (l.below, w)].Sublist (t.select rt l.first) := by
  unfold Table.select
  rw [if_pos (multilevel_more h)]
  have := (hs.filter (fun c => c.1.first == l.first)).map (fun c => (c.1.below, c.2))
  simpa using this

/-- Labels of frames with literal keys are visited. -/
theorem visited_first (h : Levels n t) (hl : LiteralTable t) {c : ColLabel × Val} (hc : c ∈ t) :
    c.1.first ∈ visitedLabels (t.map (fun c => c.1.label rt)) := by
  have hcomp : compatibleLabels (t.map (fun c => c.1.label rt)) = true := by
    unfold compatibleLabels
    rw [List.all_eq_true]
    intro x hx
    obtain ⟨d, hd, rfl⟩ := List.mem_map.mp hx
    have := hl d hd
    cases hd1 : d.1 with
    | plain k => rw [hd1] at this; exact (literal_key (this k (by simp [keysOf]))).1
    | levels k r => rw [hd1] at this; exact (literal_key (this k (by simp [keysOf]))).1
  have hlone : (t.map (fun c => c.1.label rt)).all Label.lone = false := by
    rw [List.all_eq_false]
    refine ⟨_, List.mem_map_of_mem hc, ?_⟩
    have := h c hc
    cases hc1 : c.1 with
    | plain k => simp [ColLabel.label, Label.lone]
    | levels k r =>
      rw [hc1] at this
      cases r with
      | nil => exact absurd this.1.symm this.2
      | cons x r => simp [ColLabel.label, Label.lone]
  unfold visitedLabels
  rw [hcomp, hlone]
  simp only [Bool.not_true, Bool.false_eq_true, if_false]
  cases n with
  | zero =>
    have hnt : ¬ ((t.map (fun c => c.1.label rt)).all Label.isTuple = true) := by
      rw [Bool.not_eq_true, List.all_eq_false]
      obtain ⟨k, hk⟩ := levels_plain h c hc
      exact ⟨_, List.mem_map_of_mem hc, by simp [hk, ColLabel.label, Label.isTuple]⟩
    rw [if_neg hnt]
    obtain ⟨k, hk⟩ := levels_plain h c hc
    refine mem_dedup.mpr (List.mem_map.mpr ⟨_, List.mem_map_of_mem hc, ?_⟩)
    simp [hk, ColLabel.label, Label.key, ColLabel.first]
  | succ n =>
    have ht : (t.map (fun c => c.1.label rt)).all Label.isTuple = true := by
      rw [List.all_eq_true]
      intro x hx
      obtain ⟨d, hd, rfl⟩ := List.mem_map.mp hx
      obtain ⟨k, r, e, _⟩ := levels_more h d hd
      simp [e, ColLabel.label, Label.isTuple]
    rw [if_pos ht]
    obtain ⟨k, r, e, _⟩ := levels_more h c hc
    refine mem_dedup.mpr (List.mem_map.mpr ⟨_, List.mem_map_of_mem hc, ?_⟩)
    simp [e, ColLabel.label, Label.first, ColLabel.first]

/-- Frames with a repeated label are never read to the end. -/
theorem repeated_none {ty : Ty} {text : List Label → Str} : ∀ (f : Nat) {n : Nat} {t : Table}, Levels n t → LiteralTable t → RepeatedLabel t →
    readTable rt ty text f t = none
  | 0, _, _, _, _, _ => rfl
  | f + 1, n, t, h, hl, ⟨l, v, w, hs⟩ => by
    have hm : (l, v) ∈ t := hs.subset (by simp)
    have hmw : (l, w) ∈ t := hs.subset (by simp)
    have hv := visited_first (rt := rt) h hl hm
    unfold readTable
    dsimp only
    rw [allSome_none, Option.map_none]
    refine List.mem_map.mpr ⟨l.first, hv, ?_⟩
    cases n with
    | zero =>
      have hmul := multilevel_plain h (List.ne_nil_of_mem hm)
      obtain ⟨k, hk⟩ := levels_plain h _ hm
      have hk : l = .plain k := hk
      subst hk
      unfold Table.item
      rw [hmul]
      simp only [Bool.false_eq_true, if_false]
      have hsel : t.select rt (ColLabel.plain k).first = t.filter (fun c => (c.1.label rt).key == k) := by
        unfold Table.select
        rw [hmul]
        rfl
      have hs' := hs.filter (fun c => (c.1.label rt).key == k)
      rw [← hsel] at hs'
      simp only [List.filter_cons, ColLabel.label, Label.key, beq_self_eq_true, if_true, List.filter_nil] at hs'
      have hrec : readTable rt ty text f (t.select rt (ColLabel.plain k).first) = none := by
        refine repeated_none f (n := 0) (fun c hc => ?_) (fun c hc => ?_) ⟨_, _, _, hs'⟩
        · rw [hsel] at hc; exact h c (List.mem_filter.mp hc).1
        · rw [hsel] at hc; exact hl c (List.mem_filter.mp hc).1
      split
      · rename_i hx2; rw [hx2] at hs'; exact absurd hs'.length_le (by simp)
      · exact hrec
    | succ n =>
      unfold Table.item
      rw [if_pos (multilevel_more h)]
      exact repeated_none f (select_levels h _) (select_literal h hl _) ⟨_, _, _, select_repeated h hs⟩

theorem filter_key : ∀ {t : Table}, DistinctLabels t → ∀ {c : ColLabel × Val}, c ∈ t → t.filter (fun d => d.1 == c.1) = [c]
  | [], _, _, hc => by cases hc
  | d :: t, h, c, hc => by
    simp only [DistinctLabels, List.map_cons, List.nodup_cons] at h
    rcases List.mem_cons.mp hc with rfl | hc
    · rw [List.filter_cons, if_pos (by simp)]
      congr 1
      rw [List.filter_eq_nil_iff]
      intro d hd e
      simp only [beq_iff_eq] at e
      exact h.1 (e ▸ List.mem_map_of_mem hd)
    · rw [List.filter_cons, if_neg]
      · exact filter_key h.2 hc
      · simp only [beq_iff_eq]
        intro e
        exact h.1 (e ▸ List.mem_map_of_mem hc)

/-- Without second levels in all labels every label that is visited selects one column. -/
theorem single_some {ty : Ty} {text : List Label → Str} {f : Nat} (hmul : t.multilevel = false) (hd : DistinctLabels t)
    (hinj : ∀ c ∈ t, ∀ d ∈ t, (c.1.label rt).key = (d.1.label rt).key → c.1 = d.1) : ∃ v, readTable rt ty text (f + 1) t = some v := by
  unfold readTable
  dsimp only
  obtain ⟨r, hr⟩ := allSome_some (l := (visitedLabels (t.map (fun c => c.1.label rt))).map (fun k => readItem (readTable rt ty text f) (t.item rt k))) (by
    intro x hx
    obtain ⟨k, hk, rfl⟩ := List.mem_map.mp hx
    have hnt : ¬ ((t.map (fun c => c.1.label rt)).all Label.isTuple = true) := by
      rw [Bool.not_eq_true, List.all_eq_false]
      unfold Table.multilevel at hmul
      rw [List.all_eq_false] at hmul
      obtain ⟨c, hc, hcm⟩ := hmul
      refine ⟨_, List.mem_map_of_mem hc, ?_⟩
      cases hc1 : c.1 with
      | plain k => simp [ColLabel.label, Label.isTuple]
      | levels k r => rw [hc1] at hcm; exact absurd rfl hcm
    obtain ⟨c, hc, rfl⟩ : ∃ c ∈ t, (c.1.label rt).key = k := by
      unfold visitedLabels at hk
      split at hk
      · cases hk
      split at hk
      · cases hk
      obtain ⟨l, hl, rfl⟩ := List.mem_map.mp (mem_dedup.mp hk)
      obtain ⟨c, hc, rfl⟩ := List.mem_map.mp hl
      exact ⟨c, hc, rfl⟩
    refine ⟨c.2, ?_⟩
    have hsel : t.select rt (c.1.label rt).key = [c] := by
      unfold Table.select
      rw [hmul]
      simp only [Bool.false_eq_true, if_false]
      rw [← filter_key hd hc]
      apply List.filter_congr
      intro d hdm
      rw [Bool.eq_iff_iff]
      simp only [beq_iff_eq]
      exact ⟨fun e => hinj d hdm c hc e, fun e => by rw [e]⟩
    unfold Table.item
    rw [hmul, hsel]
    rfl)
  rw [hr]
  exact ⟨_, rfl⟩

theorem key_inj {P : Key → Prop} (hrt : TupleRepr rt P) (hf : FlatTable P t) : ∀ c ∈ t, ∀ d ∈ t, (c.1.label rt).key = (d.1.label rt).key → c.1 = d.1 := by
  intro c hc d hd e
  have hc' := hf c hc
  have hd' := hf d hd
  cases h1 : c.1 with
  | plain k =>
    rw [h1] at e hc'
    cases h2 : d.1 with
    | plain k' => rw [h2] at e; exact congrArg _ e
    | levels k' r' => rw [h2] at e; exact absurd e ((hc' k (by simp [keysOf])).2 _)
  | levels k r =>
    rw [h1] at e hc'
    cases h2 : d.1 with
    | plain k' => rw [h2] at e hd'; exact absurd e.symm ((hd' k' (by simp [keysOf])).2 _)
    | levels k' r' =>
      rw [h2] at e hd'
      injection e with _ e
      obtain ⟨e1, e2⟩ := hrt _ _ _ _ (fun x hx => (hc' x hx).1) (fun x hx => (hd' x hx).1) e
      rw [e1, e2]

theorem levels_eq {l m : ColLabel} (hl : ∃ k x r, l = .levels k (x :: r)) (hm : ∃ k x r, m = .levels k (x :: r)) (h1 : l.first = m.first)
    (h2 : l.below = m.below) : l = m := by
  obtain ⟨k, x, r, rfl⟩ := hl
  obtain ⟨k', x', r', rfl⟩ := hm
  have h1 : k = k' := h1
  subst h1
  cases r with
  | nil =>
    cases r' with
    | nil => injection h2 with h2; rw [h2]
    | cons y r' => cases h2
  | cons y r =>
    cases r' with
    | nil => cases h2
    | cons y' r' => injection h2 with h2 h3; rw [h2, h3]

theorem distinct_map {t : Table} {p : ColLabel → Bool} {g : ColLabel → ColLabel}
    (hg : ∀ c ∈ t, ∀ d ∈ t, p c.1 = true → p d.1 = true → g c.1 = g d.1 → c.1 = d.1) (h : DistinctLabels t) :
    DistinctLabels ((t.filter (fun c => p c.1)).map (fun c => (g c.1, c.2))) := by
  induction t with
  | nil => simp [DistinctLabels]
  | cons c t ih =>
    simp only [DistinctLabels, List.map_cons, List.nodup_cons] at h
    have ih := ih (fun c hc d hd => hg c (by simp [hc]) d (by simp [hd])) h.2
    rw [List.filter_cons]
    split
    · rename_i hp
      unfold DistinctLabels
      rw [List.map_cons, List.map_cons, List.nodup_cons]
      refine ⟨fun hm => ?_, ih⟩
      obtain ⟨x, hx, e⟩ := List.mem_map.mp hm
      obtain ⟨d, hd, rfl⟩ := List.mem_map.mp hx
      obtain ⟨hd, hpd⟩ := List.mem_filter.mp hd
      have := hg d (by simp [hd]) c (by simp) hpd hp e
      exact h.1 (this ▸ List.mem_map_of_mem hd)
    · exact ih

theorem levels_cons (h : Levels (n + 1) t) : ∀ c ∈ t, ∃ k x r, c.1 = .levels k (x :: r) := by
  intro c hc
  obtain ⟨k, r, e, hl⟩ := levels_more h c hc
  cases r with
  | nil => cases hl
  | cons x r => exact ⟨k, x, r, e⟩

theorem select_distinct (h : Levels (n + 1) t) (hd : DistinctLabels t) (k : Key) : DistinctLabels (t.select rt k) := by
  unfold Table.select
  rw [if_pos (multilevel_more h)]
  refine distinct_map (p := fun l => l.first == k) (fun c hc d hdm h1 h2 e => ?_) hd
  simp only [beq_iff_eq] at h1 h2
  exact levels_eq (levels_cons h c hc) (levels_cons h d hdm) (h1.trans h2.symm) e

theorem select_flat {P : Key → Prop} (h : Levels (n + 1) t) (hl : FlatTable P t) (k : Key) : FlatTable P (t.select rt k) := by
  unfold Table.select
  rw [if_pos (multilevel_more h)]
  intro c hc k' hk'
  obtain ⟨d, hd, rfl⟩ := List.mem_map.mp hc
  rw [keys_below (levels_cons h d (List.mem_filter.mp hd).1)] at hk'
  exact hl d (List.mem_filter.mp hd).1 k' (List.mem_of_mem_tail hk')

/-- A visited label of a frame with several levels is the first level of a column. -/
theorem visited_select (h : Levels (n + 1) t) {k : Key} (hk : k ∈ visitedLabels (t.map (fun c => c.1.label rt))) : t.select rt k ≠ [] := by
  have ht : (t.map (fun c => c.1.label rt)).all Label.isTuple = true := by
    rw [List.all_eq_true]
    intro x hx
    obtain ⟨d, hd, rfl⟩ := List.mem_map.mp hx
    obtain ⟨k, r, e, _⟩ := levels_more h d hd
    simp [e, ColLabel.label, Label.isTuple]
  unfold visitedLabels at hk
  split at hk
  · cases hk
  split at hk
  · cases hk
  first | rw [if_pos ht] at hk | skip
  obtain ⟨l, hl, rfl⟩ := List.mem_map.mp (mem_dedup.mp hk)
  obtain ⟨c, hc, rfl⟩ := List.mem_map.mp hl
  have hf : (c.1.label rt).first = c.1.first := by cases c.1 <;> rfl
  rw [hf]
  unfold Table.select
  rw [if_pos (multilevel_more h)]
  exact List.ne_nil_of_mem (List.mem_map.mpr ⟨c, List.mem_filter.mpr ⟨hc, by simp⟩, rfl⟩)

/-- Frames without repeated labels are read within as many steps as they have levels. -/
theorem distinct_some {ty : Ty} {text : List Label → Str} {P : Key → Prop} (hrt : TupleRepr rt P) : ∀ (n : Nat) {t : Table}, t ≠ [] → Levels n t → FlatTable P t → DistinctLabels t →
    ∃ v, readTable rt ty text (n + 1) t = some v
  | 0, t, hne, h, hf, hd => single_some (multilevel_plain h hne) hd (key_inj hrt hf)
  | n + 1, t, _, h, hf, hd => by
    unfold readTable
    dsimp only
    obtain ⟨r, hr⟩ := allSome_some (l := (visitedLabels (t.map (fun c => c.1.label rt))).map (fun k => readItem (readTable rt ty text (n + 1)) (t.item rt k))) (by
      intro x hx
      obtain ⟨k, hk, rfl⟩ := List.mem_map.mp hx
      unfold Table.item
      rw [if_pos (multilevel_more h)]
      exact distinct_some hrt n (visited_select h hk) (select_levels h k) (select_flat h hf k) (select_distinct h hd k))
    rw [hr]
    exact ⟨_, rfl⟩

theorem allSome_map {α β : Type} [Inhabited β] {g : α → Option β} : ∀ {l : List α} {r : List β}, allSome (l.map g) = some r →
    r = l.map (fun a => (g a).getD default) ∧ ∀ a ∈ l, ∃ b, g a = some b
  | [], r, h => by cases h; simp
  | a :: l, r, h => by
    cases ha : g a with
    | none => simp [allSome, ha] at h
    | some b =>
      simp only [List.map_cons, ha, allSome] at h
      cases hl : allSome (l.map g) with
      | none => rw [hl] at h; cases h
      | some r' =>
        rw [hl] at h
        cases h
        obtain ⟨h1, h2⟩ := allSome_map hl
        refine ⟨by simp [ha, h1], ?_⟩
        intro x hx
        rcases List.mem_cons.mp hx with rfl | hx
        · exact ⟨b, ha⟩
        · exact h2 x hx

instance : Inhabited Val := ⟨.module ⟨[], 0⟩⟩

/-- A frame that is read to the end holds what is read for its labels. -/
theorem readTable_some {ty : Ty} {text : List Label → Str} {f : Nat} {v : Val} (h : readTable rt ty text f t = some v) :
    ∃ g get, f = g + 1 ∧ v = readFrame ty (text (t.map (fun c => c.1.label rt))) (t.map (fun c => c.1.label rt)) get ∧
      ∀ k ∈ visitedLabels (t.map (fun c => c.1.label rt)), readItem (readTable rt ty text g) (t.item rt k) = some (get k) := by
  cases f with
  | zero => cases h
  | succ g =>
    unfold readTable at h
    dsimp only at h
    cases ha : allSome ((visitedLabels (t.map (fun c => c.1.label rt))).map (fun k => readItem (readTable rt ty text g) (t.item rt k))) with
    | none => rw [ha] at h; cases h
    | some vs =>
      rw [ha] at h
      injection h with h
      obtain ⟨h1, h2⟩ := allSome_map ha
      refine ⟨g, _, rfl, by rw [← h, h1]; rfl, fun k hk => ?_⟩
      obtain ⟨b, hb⟩ := h2 k hk
      rw [hb]
      rfl

theorem item_mem {k : Key} : (∀ v, t.item rt k = .inl v → ∃ c ∈ t, c.2 = v) ∧ (∀ t', t.item rt k = .inr t' → ∀ c ∈ t', ∃ d ∈ t, c.2 = d.2) := by
  have hsel : ∀ c ∈ t.select rt k, ∃ d ∈ t, c.2 = d.2 := by
    intro c hc
    unfold Table.select at hc
    split at hc
    · obtain ⟨d, hd, rfl⟩ := List.mem_map.mp hc
      exact ⟨d, (List.mem_filter.mp hd).1, rfl⟩
    · exact ⟨c, (List.mem_filter.mp hc).1, rfl⟩
  unfold Table.item
  split
  · refine ⟨(fun v h => by cases h), fun t' h => ?_⟩
    cases h
    exact hsel
  · split
    · rename_i c hc
      refine ⟨fun v h => ?_, fun t' h => by cases h⟩
      cases h
      obtain ⟨d, hd, e⟩ := hsel c (by rw [hc]; simp)
      exact ⟨d, hd, e.symm⟩
    · refine ⟨(fun v h => by cases h), fun t' h => ?_⟩
      cases h
      exact hsel

/-- All frames in what is read were read. -/
theorem readTable_read {ty : Ty} {text : List Label → Str} : ∀ {f : Nat} {t : Table} {v : Val}, readTable rt ty text f t = some v →
    (∀ c ∈ t, Every ReadFrame c.2) → Every ReadFrame v := by
  intro f
  induction f with
  | zero => intro t v h; cases h
  | succ f ih =>
    intro t v h hc
    obtain ⟨g, get, e, rfl, hg⟩ := readTable_some h
    cases e
    unfold readFrame
    simp only [Every]
    refine ⟨⟨_, _, _, rfl⟩, everyList_iff.mpr (fun x hx => ?_)⟩
    obtain ⟨k, hk, rfl⟩ := List.mem_map.mp hx
    have := hg k hk
    cases hi : t.item rt k with
    | inl w =>
      rw [hi] at this
      injection this with this
      obtain ⟨c, hcm, e⟩ := (item_mem (t := t) (rt := rt) (k := k)).1 w hi
      rw [← this, ← e]
      exact hc c hcm
    | inr t' =>
      rw [hi] at this
      refine ih this (fun c hcm => ?_)
      obtain ⟨d, hd, e⟩ := (item_mem (t := t) (rt := rt) (k := k)).2 t' hi c hcm
      rw [e]
      exact hc d hd

end Verif
