import Verif.Lemmas.ClearTree
/-
A check that implies clear names, for the examples beside C20.
-/
namespace Verif
open Verif.Spec

/-- Neither text begins with the other. -/
def differB (a b : Str) : Bool := !a.isPrefixOf b && !b.isPrefixOf a

theorem differB_spec {a b : Str} (h : differB a b = true) : (∀ s, b ≠ a ++ s) ∧ ∀ s, a ≠ b ++ s := by
  simp only [differB, Bool.and_eq_true, Bool.not_eq_true'] at h
  refine ⟨?_, ?_⟩
  · rintro s rfl
    have : a.isPrefixOf (a ++ s) = true := List.isPrefixOf_iff_prefix.mpr (List.prefix_append _ _)
    rw [this] at h
    cases h.1
  · rintro s rfl
    have : b.isPrefixOf (b ++ s) = true := List.isPrefixOf_iff_prefix.mpr (List.prefix_append _ _)
    rw [this] at h
    cases h.2

theorem differB_separate {a b : Str} (h : differB a b = true) : Separate a b := by
  obtain ⟨h1, h2⟩ := differB_spec h
  exact ⟨fun ⟨s, e, _⟩ => h1 s e, fun ⟨s, e, _⟩ => h2 s e⟩

/-- Texts that differ stay different if one of them is continued. -/
theorem differB_append {a b c d : Str} (h : differB a b = true) : a ++ c ≠ b ++ d := by
  obtain ⟨h1, h2⟩ := differB_spec h
  intro e
  rw [List.append_eq_append_iff] at e
  rcases e with ⟨s, e, _⟩ | ⟨s, e, _⟩
  · exact h1 s e
  · exact h2 s e

def clsText (t : Ty) : Str :=
  match t.name with
  | [] => []
  | c :: r => c.toUpper :: r.map Char.toLower

theorem className_text {t : Ty} {s : Str} (h : ClassWord t s) : ∃ ds, s = clsText t ++ ds := by
  obtain ⟨c, r, ds, e, _, rfl⟩ := h
  exact ⟨ds, by simp [clsText, e]⟩

def moreClassesB (es es' : List Val) : Bool :=
  es.any (fun e => !rich e && es'.all (fun e' => rich e' || e'.ty != e.ty))

theorem moreClassesB_spec {es es' : List Val} (h : moreClassesB es es' = true) : MoreClasses es es' := by
  simp only [moreClassesB, List.any_eq_true, Bool.and_eq_true, Bool.not_eq_true', List.all_eq_true, Bool.or_eq_true, bne_iff_ne] at h
  obtain ⟨e, he, hr, h⟩ := h
  refine ⟨e, he, hr, fun e' he' hr' => ?_⟩
  rcases h e' he' with h | h
  · rw [hr'] at h; cases h
  · exact h

def apartB (S : Strategies) : Val → Val → Bool
  | .seq k _ es, .seq k' _ es' => otherKind k k' ||
      ((k != .tuple || S.tuple == .anySize) &&
        (moreClassesB (limit S.checkMax es) (limit S.checkMax es') || moreClassesB (limit S.checkMax es') (limit S.checkMax es)))
  | .map .dict _ ks vs, .map .dict _ ks' vs' => S.dict == .typedDict &&
      (((entries (.map .dict .dict ks vs)).map (·.1)).any (fun k => !((entries (.map .dict .dict ks' vs')).map (·.1)).contains k) ||
       ((entries (.map .dict .dict ks' vs')).map (·.1)).any (fun k => !((entries (.map .dict .dict ks vs)).map (·.1)).contains k))
  | .map .dict .., .map .proxy .. => true
  | .map .proxy .., .map .dict .. => true
  | .map (.frame _) .., .map .dict .. => true
  | .map (.frame _) .., .map .proxy .. => true
  | .map .dict .., .map (.frame _) .. => true
  | .map .proxy .., .map (.frame _) .. => true
  | .map .., .seq .. => true
  | .map .., .func _ => true
  | .seq .., .map .. => true
  | .seq .., .func _ => true
  | .func _, .seq .. => true
  | .func _, .map .. => true
  | _, _ => false

theorem apartB_spec {S : Strategies} {v w : Val} (h : apartB S v w = true) : Apart S v w := by
  cases v with
  | seq k t es =>
    cases w with
    | seq k' t' es' =>
      simp only [apartB, Bool.or_eq_true, Bool.and_eq_true, bne_iff_ne, beq_iff_eq] at h
      unfold Apart
      rcases h with h | ⟨h1, h2⟩
      · exact .inl h
      · refine .inr ⟨h1, ?_⟩
        rcases h2 with h2 | h2
        · exact .inl (moreClassesB_spec h2)
        · exact .inr (moreClassesB_spec h2)
    | _ => first | exact trivial | (simp [apartB] at h)
  | map k t ks vs =>
    cases w with
    | map k' t' ks' vs' =>
      cases k <;> cases k' <;> first | exact trivial | (simp [apartB] at h; done) | skip
      simp only [apartB, Bool.and_eq_true, beq_iff_eq, Bool.or_eq_true, List.any_eq_true, Bool.not_eq_true', List.contains_eq_mem, decide_eq_false_iff_not] at h
      unfold Apart
      refine ⟨h.1, fun hk => ?_⟩
      rcases h.2 with ⟨k, h1, h2⟩ | ⟨k, h1, h2⟩
      · exact h2 ((hk k).mp h1)
      · exact h2 ((hk k).mpr h1)
    | seq => cases k <;> exact trivial
    | func => cases k <;> exact trivial
    | _ => cases k <;> simp [apartB] at h
  | func f => cases w <;> first | exact trivial | (simp [apartB] at h)
  | _ => simp [apartB] at h

def pairsB (G : List (Key × Val)) (p : Key × Val → Key × Val → Bool) : Bool :=
  G.all (fun x => !rich x.2 || G.all (fun y => !rich y.2 || p x y))

theorem pairsB_spec {G : List (Key × Val)} {p : Key × Val → Key × Val → Bool} (h : pairsB G p = true) :
    ∀ x ∈ G, ∀ y ∈ G, rich x.2 = true → rich y.2 = true → p x y = true := by
  simp only [pairsB, List.all_eq_true, Bool.or_eq_true, Bool.not_eq_true'] at h
  intro x hx y hy h1 h2
  rcases h x hx with h | h
  · rw [h] at h1; cases h1
  rcases h y hy with h | h
  · rw [h] at h2; cases h2
  · exact h

def keysApartB (G : List (Key × Val)) : Bool := pairsB G (fun x y => x.1 == y.1 || differB (keyName x.1) (keyName y.1))
def unlikeB (S : Strategies) (G : List (Key × Val)) : Bool := pairsB G (fun x y => x.1 == y.1 || apartB S x.2 y.2)
def classesApartB (G : List (Key × Val)) : Bool :=
  pairsB G (fun x y => differB (clsText y.2.ty) (keyName x.1) && (x.2.ty == y.2.ty || differB (clsText x.2.ty) (clsText y.2.ty)))

theorem keysApartB_spec {G : List (Key × Val)} (h : keysApartB G = true) : KeysApart G := by
  intro x hx y hy hne h1 h2
  have := pairsB_spec h x hx y hy h1 h2
  simp only [Bool.or_eq_true, beq_iff_eq] at this
  rcases this with h | h
  · exact absurd h hne
  · exact differB_separate h

theorem unlikeB_spec {S : Strategies} {G : List (Key × Val)} (h : unlikeB S G = true) : Unlike S G := by
  intro x hx y hy hne h1 h2
  have := pairsB_spec h x hx y hy h1 h2
  simp only [Bool.or_eq_true, beq_iff_eq] at this
  rcases this with h | h
  · exact absurd h hne
  · exact apartB_spec h

theorem classesApartB_spec {G : List (Key × Val)} (h : classesApartB G = true) : ClassesApart G := by
  intro x hx y hy h1 h2 s hs
  have := pairsB_spec h x hx y hy h1 h2
  simp only [Bool.and_eq_true, Bool.or_eq_true, beq_iff_eq] at this
  obtain ⟨ds, rfl⟩ := className_text hs
  refine ⟨⟨?_, ?_⟩, ?_⟩
  · rintro ⟨r, e, _⟩
    rw [List.append_assoc] at e
    exact (differB_spec this.1).1 _ e
  · rintro ⟨r, e, _⟩
    exact differB_append this.1 e
  · intro hne hs'
    rcases this.2 with h | h
    · exact hne h
    · obtain ⟨ds', e⟩ := className_text hs'
      exact differB_append h e.symm

def alphaKeyB : Key → Bool
  | .str (c :: r) => c.isAlpha && (c :: r).all isAscii
  | _ => false

theorem alphaKeyB_spec {k : Key} (h : alphaKeyB k = true) : AlphaKey k := by
  unfold alphaKeyB at h
  split at h
  · simp only [Bool.and_eq_true, List.all_eq_true] at h
    exact ⟨⟨_, _, rfl, h.1⟩, h.2⟩
  · cases h

def isRecordB (S : Strategies) : Val → Bool
  | .map .dict _ ks _ => S.dict == .typedDict && ks.all (·.isStr)
  | _ => false

def pairwiseB {α} (p : α → α → Bool) : List α → Bool
  | [] => true
  | a :: r => r.all (p a) && pairwiseB p r

theorem pairwiseB_spec {α} {p : α → α → Bool} : ∀ {l : List α}, pairwiseB p l = true → l.Pairwise (fun a b => p a b = true)
  | [], _ => .nil
  | a :: r, h => by
    simp only [pairwiseB, Bool.and_eq_true, List.all_eq_true] at h
    exact .cons h.1 (pairwiseB_spec h.2)

def wellKeyedB (S : Strategies) : Val → Bool
  | .map (.frame _) _ ks vs => decide ks.Nodup && ks.all alphaKeyB && keysApartB (ks.zip vs)
  | .map _ _ ks vs => decide ks.Nodup && ks.length == vs.length && ks.all (fun k => k.hidden || alphaKeyB k)
  | .seq .tuple _ es => S.tuple != .fixed || pairwiseB (apartB S) (es.filter rich) && pairwiseB (fun d e => !(isRecordB S d && isRecordB S e)) es
  | _ => true

theorem isRecord_iff {S : Strategies} {v : Val} : IsRecord S v ↔ isRecordB S v = true := by
  cases v with
  | map k t ks vs => cases k <;> simp [IsRecord, isRecordB]
  | _ => simp [IsRecord, isRecordB]

theorem wellKeyedB_spec {S : Strategies} {v : Val} (h : wellKeyedB S v = true) : WellKeyed S v := by
  have maps : ∀ {ks : List Key} {vs : List Val}, (decide ks.Nodup && ks.length == vs.length && ks.all (fun k => k.hidden || alphaKeyB k)) = true →
      ks.Nodup ∧ ks.length = vs.length ∧ ∀ k ∈ ks, k.hidden = true ∨ AlphaKey k := by
    intro ks vs h
    simp only [Bool.and_eq_true, decide_eq_true_eq, beq_iff_eq, List.all_eq_true, Bool.or_eq_true] at h
    exact ⟨h.1.1, h.1.2, fun k hk => (h.2 k hk).imp id alphaKeyB_spec⟩
  cases v with
  | map k t ks vs =>
    cases k with
    | frame i =>
      simp only [wellKeyedB, Bool.and_eq_true, decide_eq_true_eq, List.all_eq_true] at h
      exact ⟨h.1.1, fun k hk => alphaKeyB_spec (h.1.2 k hk), keysApartB_spec h.2⟩
    | dict => exact maps h
    | proxy => exact maps h
  | seq k t es =>
    cases k <;> try exact trivial
    intro hS
    simp only [wellKeyedB, hS, bne_self_eq_false, Bool.false_or, Bool.and_eq_true] at h
    refine ⟨(pairwiseB_spec h.1).imp (fun h => apartB_spec h), (pairwiseB_spec h.2).imp ?_⟩
    intro a b h
    rw [isRecord_iff, isRecord_iff]
    rintro ⟨h1, h2⟩
    rw [h1, h2] at h
    cases h
  | _ => exact trivial

mutual
def everyB (p : Val → Bool) : Val → Bool
  | .seq k t es => p (.seq k t es) && everyListB p es
  | .map k t ks vs => p (.map k t ks vs) && everyListB p vs
  | v => p v
def everyListB (p : Val → Bool) : List Val → Bool
  | [] => true
  | v :: l => everyB p v && everyListB p l
end

mutual
theorem everyB_spec {p : Val → Bool} {P : Val → Prop} (h : ∀ v, p v = true → P v) : ∀ (v : Val), everyB p v = true → Every P v
  | .seq k t es, hv => by
    simp only [everyB, Bool.and_eq_true] at hv
    exact ⟨h _ hv.1, everyListB_spec h es hv.2⟩
  | .map k t ks vs, hv => by
    simp only [everyB, Bool.and_eq_true] at hv
    exact ⟨h _ hv.1, everyListB_spec h vs hv.2⟩
  | .inst .., hv => by simp only [everyB] at hv; exact h _ hv
  | .cls .., hv => by simp only [everyB] at hv; exact h _ hv
  | .func _, hv => by simp only [everyB] at hv; exact h _ hv
  | .module _, hv => by simp only [everyB] at hv; exact h _ hv
  | .io _, hv => by simp only [everyB] at hv; exact h _ hv
  | .ndarray .., hv => by simp only [everyB] at hv; exact h _ hv
theorem everyListB_spec {p : Val → Bool} {P : Val → Prop} (h : ∀ v, p v = true → P v) : ∀ (l : List Val), everyListB p l = true → EveryList P l
  | [], _ => trivial
  | v :: l, hv => by
    simp only [everyListB, Bool.and_eq_true] at hv
    exact ⟨everyB_spec h v hv.1, everyListB_spec h l hv.2⟩
end

def clearB (S : Strategies) (v : Val) : Bool :=
  everyB (fun w => wellKeyedB S w && keysApartB (family w) &&
    (unlikeB S (family w) || classesApartB (family w) && (family w).all (fun x => everyB (fun u => unlikeB S (family u)) x.2))) v

theorem clearB_spec {S : Strategies} {v : Val} (h : clearB S v = true) : ClearNames S v := by
  refine everyB_spec ?_ v h
  intro w hw
  simp only [Bool.and_eq_true, Bool.or_eq_true, List.all_eq_true] at hw
  refine ⟨wellKeyedB_spec hw.1.1, keysApartB_spec hw.1.2, ?_⟩
  rcases hw.2 with h | ⟨h1, h2⟩
  · exact .inl (unlikeB_spec h)
  · exact .inr ⟨classesApartB_spec h1, fun x hx => everyB_spec (fun _ => unlikeB_spec) _ (h2 x hx)⟩

end Verif
