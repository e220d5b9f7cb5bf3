import Verif.Lemmas.SimBuild
/-
The text of trees that differ only in the order of children described in place.
-/
namespace Verif
open Verif.Spec

variable {q : Prop}

/-- The same keywords occur. -/
def KwEq (a b : List Str) : Prop := ∀ x, x ∈ a ↔ x ∈ b

theorem KwEq.refl (a : List Str) : KwEq a a := fun _ => Iff.rfl

theorem KwEq.append {a b c d : List Str} (h : KwEq a b) (h' : KwEq c d) : KwEq (a ++ c) (b ++ d) := by
  intro x
  simp only [List.mem_append, h x, h' x]

theorem KwEq.cons {a b : List Str} (h : KwEq a b) (k : Str) : KwEq (k :: a) (k :: b) := by
  intro x
  simp only [List.mem_cons, h x]

theorem KwEq.flatMap {α β} {R : α → β → Prop} {f : α → List Str} {g : β → List Str} (hfg : ∀ a b, R a b → KwEq (f a) (g b)) {l : List α} {l' : List β}
    (h : All₂ R l l') : KwEq (l.flatMap f) (l'.flatMap g) := by
  induction h with
  | nil => exact .refl _
  | cons h _ ih => simp only [List.flatMap_cons]; exact (hfg _ _ h).append ih

theorem KwEq.perm {α} {f : α → List Str} {l l' : List α} (h : l.Perm l') : KwEq (l.flatMap f) (l'.flatMap f) := by
  intro x
  simp only [List.mem_flatMap, h.mem_iff]

/-- Declarations with the same text that request the same imports. -/
structure DeclEq (d d' : Decl) : Prop where
  text : d.text = d'.text
  kws : KwEq d.kws d'.kws
  fails : d.fails = d'.fails

theorem DeclEq.refl (d : Decl) : DeclEq d d := ⟨rfl, .refl _, rfl⟩

theorem DeclEq.trans {a b c : Decl} (h : DeclEq a b) (h' : DeclEq b c) : DeclEq a c :=
  ⟨h.text.trans h'.text, fun x => (h.kws x).trans (h'.kws x), h.fails.trans h'.fails⟩

theorem All₂.chain {α} {R : α → α → Prop} (ht : ∀ a b c, R a b → R b c → R a c) {l l' : List α} (h : All₂ R l l') : ∀ {l''}, All₂ R l' l'' → All₂ R l l'' := by
  induction h with
  | nil => intro l'' h; exact h
  | cons h _ ih =>
    intro l'' h'
    cases h' with
    | cons h1 h2 => exact .cons (ht _ _ _ h h1) (ih h2)

theorem All₂.self {α} {R : α → α → Prop} (h : ∀ a, R a a) : ∀ l : List α, All₂ R l l
  | [] => .nil
  | a :: l => .cons (h a) (All₂.self h l)

/-- The same declarations, with `q` in the same order. -/
def Emits (q : Prop) (l l' : List Decl) : Prop := ∃ mid, All₂ DeclEq l mid ∧ mid.Perm l' ∧ (q → mid = l')

theorem Emits.of {l l' : List Decl} (h : All₂ DeclEq l l') : Emits q l l' := ⟨l', h, .refl _, fun _ => rfl⟩

theorem Emits.append {a b c d : List Decl} (h : Emits q a b) (h' : Emits q c d) : Emits q (a ++ c) (b ++ d) := by
  obtain ⟨m, h1, h2, h3⟩ := h
  obtain ⟨m', h1', h2', h3'⟩ := h'
  exact ⟨m ++ m', h1.append h1', h2.append h2', fun t => by rw [h3 t, h3' t]⟩

theorem Emits.flatMap {α β} {R : α → β → Prop} {f : α → List Decl} {g : β → List Decl} (hfg : ∀ a b, R a b → Emits q (f a) (g b)) {l : List α} {l' : List β}
    (h : All₂ R l l') : Emits q (l.flatMap f) (l'.flatMap g) := by
  induction h with
  | nil => exact .of .nil
  | cons h _ ih => simp only [List.flatMap_cons]; exact (hfg _ _ h).append ih

theorem Emits.trans {a b c : List Decl} (h : Emits q a b) (h' : Emits q b c) : Emits q a c := by
  obtain ⟨m, h1, h2, h3⟩ := h
  obtain ⟨m', h1', h2', h3'⟩ := h'
  obtain ⟨x, x1, x2⟩ := All₂.perm_left h2 h1'
  by_cases t : q
  · have e := h3 t
    have e' := h3' t
    subst e; subst e'
    exact .of (All₂.chain (R := DeclEq) (fun _ _ _ h h' => DeclEq.trans h h') h1 h1')
  · exact ⟨x, All₂.chain (R := DeclEq) (fun _ _ _ h h' => DeclEq.trans h h') h1 x1, x2.trans h2', fun t' => absurd t' t⟩

/-- Renderings with the same text that request the same imports. -/
structure OutEq (q : Prop) (o o' : Out) : Prop where
  name : o.name = o'.name
  height : o.height = o'.height
  perm : o.perm = o'.perm
  top : DeclEq o.top o'.top
  emitted : Emits q o.emitted o'.emitted

theorem OutEq.ref {o o' : Out} (h : OutEq q o o') : childRef o = childRef o' := by
  simp only [childRef, h.perm, h.name, h.top.text]

theorem OutEq.refKws {o o' : Out} (h : OutEq q o o') : KwEq (refKws o) (refKws o') := by
  simp only [Verif.refKws, h.perm]
  split
  · exact .refl _
  · exact h.top.kws

/-- Pairs of a text and keywords. -/
def PairEq {α} (p q : α × List Str) : Prop := p.1 = q.1 ∧ KwEq p.2 q.2

/-- Lists of renderings with the same types in the same positions. -/
theorem childTypes_eq {kids kids' : List Out} {b : Bool} (h1 : kids.map childRef = kids'.map childRef)
    (h2 : KwEq (kids.flatMap refKws) (kids'.flatMap refKws)) : PairEq (childTypes kids b) (childTypes kids' b) := by
  unfold childTypes
  simp only [h1]
  by_cases he : (kids'.map childRef).isEmpty = true
  · simp only [he, if_true]
    exact ⟨rfl, h2.append (.refl _)⟩
  · simp only [he, if_false, Bool.false_eq_true]
    exact ⟨rfl, h2⟩

/-- Lists of renderings with the same types. -/
theorem childTypes_perm {kids kids' : List Out} (h : kids.Perm kids') : PairEq (childTypes kids true) (childTypes kids' true) := by
  have h2 : KwEq (kids.flatMap refKws) (kids'.flatMap refKws) := KwEq.perm h
  have hp := h.map childRef
  unfold childTypes
  have he : (kids.map childRef).isEmpty = (kids'.map childRef).isEmpty := by
    rw [Bool.eq_iff_iff, List.isEmpty_iff, List.isEmpty_iff]
    exact ⟨fun e => by rw [e] at hp; exact hp.symm.eq_nil, fun e => by rw [e] at hp; exact hp.eq_nil⟩
  simp only [he]
  by_cases he : (kids'.map childRef).isEmpty = true
  · simp only [he, if_true]
    exact ⟨rfl, h2.append (.refl _)⟩
  · simp only [he, if_false, Bool.false_eq_true]
    refine ⟨uniqueTypes_congr (fun x => hp.mem_iff), h2⟩

theorem aliasChildren_eq {kids kids' : List Out} (h : PairEq (childTypes kids true) (childTypes kids' true)) :
    PairEq (aliasChildren kids) (aliasChildren kids') := by
  unfold aliasChildren
  obtain ⟨h1, h2⟩ := h
  dsimp only
  rw [h1]
  exact ⟨rfl, h2.append (.refl _)⟩

theorem tupleAlias_eq {S : Strategies} {kids kids' : List Out} (h : PairEq (childTypes kids true) (childTypes kids' true))
    (hf : S.tuple = .fixed → PairEq (childTypes kids false) (childTypes kids' false)) :
    PairEq (tupleAliasChildren S kids) (tupleAliasChildren S kids') := by
  unfold tupleAliasChildren
  cases hS : S.tuple with
  | fixed =>
    obtain ⟨h1, h2⟩ := hf hS
    dsimp only
    rw [h1]
    split
    · exact ⟨rfl, h2.append (.refl _)⟩
    · exact ⟨rfl, h2⟩
  | anySize =>
    obtain ⟨h1, h2⟩ := h
    dsimp only
    rw [h1]
    split
    · exact ⟨rfl, h2.append (.refl _)⟩
    · split
      · exact ⟨rfl, h2⟩
      · exact ⟨rfl, h2.append (.refl _)⟩

theorem mapTop_eq {E : Env} {h : Hdr} {keys : List Key} {kids kids' : List Out} (hc : PairEq (childTypes kids true) (childTypes kids' true)) :
    PairEq (mapTop E h keys kids) (mapTop E h keys kids') := by
  have ha := aliasChildren_eq hc
  unfold mapTop
  by_cases hk : keys.isEmpty = true
  · simp only [hk, if_true, hc.1, ha.1]
    refine ⟨rfl, ?_⟩
    exact ((((KwEq.refl _).append hc.2).append (.refl _)).append ha.2).append (.refl _)
  · simp only [hk, if_false, ha.1, Bool.false_eq_true]
    refine ⟨rfl, ?_⟩
    exact (((KwEq.refl _).append ha.2)).append (.refl _)

theorem entryType_eq {E : Env} {m : DMeta} {key : Str} {o o' : Out} (h : OutEq q o o') : PairEq (entryType E m key o) (entryType E m key o') := by
  unfold entryType
  simp only [h.perm, h.name, h.top.text]
  cases hp : o'.perm with
  | true =>
    simp only [if_true]
    exact ⟨rfl, .refl _⟩
  | false =>
    simp only [Bool.false_eq_true, if_false]
    cases lookupKey (.str key) m.req with
    | none => exact ⟨rfl, h.top.kws⟩
    | some r =>
      cases r <;> cases E.S.readOnly <;> simp only [Bool.false_eq_true, if_false, if_true]
      · exact ⟨rfl, h.top.kws.append (.refl _)⟩
      · exact ⟨rfl, (h.top.kws.append (.refl _)).append (.refl _)⟩
      · exact ⟨rfl, h.top.kws⟩
      · exact ⟨rfl, h.top.kws.append (.refl _)⟩

theorem entries_eq {E : Env} {m : DMeta} {g : Key × Out → Option (Str × (Str × List Str))} (g1 : ∀ s o, g (.str s, o) = some (s, entryType E m s o))
    (g2 : ∀ o, g (.none, o) = none) (g3 : ∀ t r o, g (.other t r, o) = none) {kids kids' : List (Key × Out)}
    (h : All₂ (fun (a b : Key × Out) => a.1 = b.1 ∧ OutEq q a.2 b.2) kids kids') :
    All₂ (fun (a b : Str × (Str × List Str)) => a.1 = b.1 ∧ PairEq a.2 b.2) (kids.filterMap g) (kids'.filterMap g) := by
  induction h with
  | nil => exact .nil
  | @cons a b l₁ l₂ h _ ih =>
    obtain ⟨k, o⟩ := a
    obtain ⟨k', o'⟩ := b
    obtain ⟨rfl, ho⟩ := h
    cases k with
    | str s => simp only [List.filterMap_cons, g1]; exact .cons ⟨rfl, entryType_eq ho⟩ ih
    | none => simpa only [List.filterMap_cons, g2] using ih
    | other t r => simpa only [List.filterMap_cons, g3] using ih

theorem typedText_eq {E : Env} {h : Hdr} {data : List (Key × Val)} {m : DMeta} {l l' : List (Str × (Str × List Str))}
    (he : All₂ (fun (a b : Str × (Str × List Str)) => a.1 = b.1 ∧ PairEq a.2 b.2) l l') :
    PairEq
      (if isFunctional E.U m then functionalText h.name (l.map (fun e => (e.1, e.2.1))) (classDoc E data)
        else classText m h.name (l.map (fun e => (e.1, e.2.1))) (classDoc E data), py!"TypedDict" :: l.flatMap (fun e => e.2.2))
      (if isFunctional E.U m then functionalText h.name (l'.map (fun e => (e.1, e.2.1))) (classDoc E data)
        else classText m h.name (l'.map (fun e => (e.1, e.2.1))) (classDoc E data), py!"TypedDict" :: l'.flatMap (fun e => e.2.2)) := by
  have h1 := he.map_eq (f := fun e => (e.1, e.2.1)) (g := fun e => (e.1, e.2.1)) (fun a b h => by rw [h.1, h.2.1])
  rw [h1]
  exact ⟨rfl, (KwEq.flatMap (fun a b h => h.2.2) he).cons _⟩

theorem typedTop_eq {E : Env} {h : Hdr} {data : List (Key × Val)} {m : DMeta} {kids kids' : List (Key × Out)}
    (hk : All₂ (fun (a b : Key × Out) => a.1 = b.1 ∧ OutEq q a.2 b.2) kids kids') : PairEq (typedTop E h data m kids) (typedTop E h data m kids') := by
  unfold typedTop
  dsimp only
  exact typedText_eq (entries_eq (fun _ _ => rfl) (fun _ => rfl) (fun _ _ _ => rfl) hk)

theorem frameTop_eq {E : Env} {h : Hdr} {kids kids' : List (Key × Out)}
    (hk : All₂ (fun (a b : Key × Out) => a.1 = b.1 ∧ OutEq q a.2 b.2) kids kids') : PairEq (frameTop E h kids) (frameTop E h kids') := by
  have hl := hk.filter (p := fun kk => literalKey kk.1) (q := fun kk => literalKey kk.1) (fun a b h => by rw [h.1])
  have h1 := hl.map_eq (f := fun kk => frameOverload E kk.1 (childRef kk.2)) (g := fun kk => frameOverload E kk.1 (childRef kk.2))
    (fun a b h => by rw [h.1, h.2.ref])
  have h2 := hl.map_eq (f := fun kk => reprKey E kk.1) (g := fun kk => reprKey E kk.1) (fun a b h => by rw [h.1])
  have h3 := hk.all_eq (p := fun kk => literalKey kk.1) (q := fun kk => literalKey kk.1) (fun a b h => by rw [h.1])
  have h4 : KwEq _ _ := KwEq.flatMap (f := fun kk : Key × Out => refKws kk.2) (g := fun kk : Key × Out => refKws kk.2) (fun a b h => h.2.refKws) hl
  unfold frameTop
  rw [hk.isEmpty]
  split
  · exact ⟨rfl, .refl _⟩
  · simp only [h1, h2, h3]
    split
    · exact ⟨rfl, (KwEq.refl _).append h4⟩
    · exact ⟨rfl, (KwEq.refl _).append h4⟩

theorem DeclEq.ok {p q : Str × List Str} (h : PairEq p q) : DeclEq { text := p.1, kws := p.2, fails := none } { text := q.1, kws := q.2, fails := none } :=
  ⟨h.1, h.2, rfl⟩

theorem DeclEq.alias {a b : Str} {p q : Str × List Str} (h : PairEq p q) (kws : List Str) :
    DeclEq { text := a ++ p.1 ++ b, kws := kws ++ p.2, fails := none } { text := a ++ q.1 ++ b, kws := kws ++ q.2, fails := none } :=
  ⟨by simp only [h.1], (KwEq.refl _).append h.2, rfl⟩

/-- The text of a node, given the types of its children. -/
theorem topOf_eq {E : Env} {im : Str → List Str} {h : Hdr} {kids kids' : List Out}
    (hc : PairEq (childTypes (iterate h.slots kids) true) (childTypes (iterate h.slots kids') true))
    (ht : h.kind = .seq .tuple → E.S.tuple = .fixed →
      PairEq (childTypes (iterate h.slots kids) false) (childTypes (iterate h.slots kids') false))
    (hk : (∃ d m, h.kind = .dict d m) ∨ (∃ i, h.kind = .frame i) → All₂ (OutEq q) kids kids') :
    DeclEq (topOf E im h kids) (topOf E im h kids') := by
  have ha := aliasChildren_eq hc
  have hz : (∃ d m, h.kind = .dict d m) ∨ (∃ i, h.kind = .frame i) →
      All₂ (fun (a b : Key × Out) => a.1 = b.1 ∧ OutEq q a.2 b.2) ((h.slots.map (·.key)).zip kids) ((h.slots.map (·.key)).zip kids') :=
    fun e => (hk e).zip _
  unfold topOf
  dsimp only
  cases hkind : h.kind with
  | inst => exact .refl _
  | func f => exact .refl _
  | cls n => exact .refl _
  | module => exact .refl _
  | io => exact .refl _
  | ndarray d => exact .refl _
  | seq k =>
    cases k with
    | list =>
      dsimp only
      split
      · exact .alias ha _
      · exact .alias ha _
    | tuple => exact .alias (tupleAlias_eq hc (ht hkind)) _
    | set => exact .alias ha _
    | frozenset => exact .alias ha _
    | iterator => exact .alias ha _
    | series => exact .alias ha _
  | dict d m =>
    dsimp only
    split
    · exact .ok (typedTop_eq (hz (.inl ⟨d, m, hkind⟩)))
    · exact .ok (mapTop_eq hc)
  | proxy => exact .ok (mapTop_eq hc)
  | frame i => exact .ok (frameTop_eq (hz (.inr ⟨i, hkind⟩)))

theorem foldl_height_eq {l l' : List Out} (h : All₂ (OutEq q) l l') : ∀ m, l.foldl (fun m k => max k.height m) m = l'.foldl (fun m k => max k.height m) m := by
  induction h with
  | nil => intro _; rfl
  | cons h _ ih => intro m; simp only [List.foldl_cons, h.height, ih]

theorem All₂.flatMap_rel {α β γ δ} {R : α → β → Prop} {R' : γ → δ → Prop} {f : α → List γ} {g : β → List δ} (hfg : ∀ a b, R a b → All₂ R' (f a) (g b))
    {l : List α} {l' : List β} (h : All₂ R l l') : All₂ R' (l.flatMap f) (l'.flatMap g) := by
  induction h with
  | nil => exact .nil
  | cons h _ ih => simp only [List.flatMap_cons]; exact (hfg _ _ h).append ih

/-- Equal children give equal renderings. -/
theorem combine_eq {E : Env} {im : Str → List Str} {h : Hdr} {kids kids' : List Out} (hk : All₂ (OutEq q) kids kids') :
    OutEq q (combine E im h kids) (combine E im h kids') := by
  have hi : All₂ (OutEq q) (iterate h.slots kids) (iterate h.slots kids') := hk.iterate h.slots
  have hr : (iterate h.slots kids).map childRef = (iterate h.slots kids').map childRef := hi.map_eq (fun _ _ h => h.ref)
  have hq : KwEq ((iterate h.slots kids).flatMap refKws) ((iterate h.slots kids').flatMap refKws) := KwEq.flatMap (fun _ _ h => h.refKws) hi
  have hh : heightOf h (iterate h.slots kids) = heightOf h (iterate h.slots kids') := by
    unfold heightOf
    rw [foldl_height_eq hi]
  have ht : DeclEq (topOf E im h kids) (topOf E im h kids') := topOf_eq (childTypes_eq hr hq) (fun _ _ => childTypes_eq hr hq) (fun _ => hk)
  unfold combine
  dsimp only
  rw [hh]
  refine ⟨rfl, rfl, rfl, ht, ?_⟩
  unfold emitOf
  rw [hk.isEmpty]
  have hl : ∀ b : Bool, All₂ DeclEq (if b then [topOf E im h kids] else []) (if b then [topOf E im h kids'] else []) := by
    intro b
    cases b with
    | true => exact .cons ht .nil
    | false => exact .nil
  split
  · exact .of (hl _)
  · refine Emits.append (Emits.flatMap ?_ hi) (.of (hl _))
    intro a b hab
    refine hab.emitted.append ?_
    rw [hab.perm]
    split
    · exact .of (.cons hab.top .nil)
    · exact .of .nil

theorem OutEq.trans {a b c : Out} (h : OutEq q a b) (h' : OutEq q b c) : OutEq q a c :=
  ⟨h.name.trans h'.name, h.height.trans h'.height, h.perm.trans h'.perm, h.top.trans h'.top, h.emitted.trans h'.emitted⟩

theorem OutEq.refl (o : Out) : OutEq q o o := ⟨rfl, rfl, rfl, .refl _, .of (All₂.self (fun d => .refl d) _)⟩

theorem flatMap_perm {α β} {f : α → List β} {l l' : List α} (h : l.Perm l') : l'.Pairwise (fun a b => f a = [] ∨ f b = []) → l.flatMap f = l'.flatMap f := by
  induction h with
  | nil => intro _; rfl
  | cons x _ ih =>
    intro hp
    rw [List.pairwise_cons] at hp
    simp only [List.flatMap_cons, ih hp.2]
  | swap x y l =>
    intro hp
    simp only [List.pairwise_cons, List.mem_cons] at hp
    simp only [List.flatMap_cons]
    rcases hp.1 y (.inl rfl) with h | h <;> simp [h]
  | trans h1 h2 ih1 ih2 =>
    intro hp
    have := (h2.pairwise_iff (R := fun a b => f a = [] ∨ f b = []) (fun h => h.symm)).mpr hp
    rw [ih1 this, ih2 hp]

theorem foldl_height_perm {l l' : List Out} (h : l.Perm l') : ∀ m, l.foldl (fun m k => max k.height m) m = l'.foldl (fun m k => max k.height m) m := by
  induction h with
  | nil => intro _; rfl
  | cons x _ ih => intro m; simp only [List.foldl_cons, ih]
  | swap x y l => intro m; simp only [List.foldl_cons]; congr 1; omega
  | trans _ _ ih1 ih2 => intro m; rw [ih1, ih2]

/-- The order of children decides on the order of declarations only, and not on that if they are described in place. -/
theorem combine_perm {E : Env} {im : Str → List Str} {h : Hdr} {kids kids' : List Out} {k : SeqKind} (hk : h.kind = .seq k)
    (hs : ¬ (k = .tuple ∧ E.S.tuple = .fixed)) (hsl : h.slots = kids.map (fun _ => Slot.seq 1)) (hp : kids.Perm kids')
    (hq : q → kids'.Pairwise (fun a b => (a.emitted = [] ∧ a.perm = false) ∨ (b.emitted = [] ∧ b.perm = false))) :
    OutEq q (combine E im h kids) (combine E im h kids') := by
  have hn : ∀ s ∈ h.slots, s.key ≠ .none := by
    intro s hs
    rw [hsl, List.mem_map] at hs
    obtain ⟨_, _, rfl⟩ := hs
    simp [Slot.seq]
  have hi : iterate h.slots kids = kids := iterate_seq (by rw [hsl, List.length_map]) hn
  have hi' : iterate h.slots kids' = kids' := iterate_seq (by rw [hsl, List.length_map, hp.length_eq]) hn
  have hh : heightOf h kids = heightOf h kids' := by
    unfold heightOf
    rw [foldl_height_perm hp]
  have ht : DeclEq (topOf E im h kids) (topOf E im h kids') := by
    refine topOf_eq (q := q) (by rw [hi, hi']; exact childTypes_perm hp) ?_ ?_
    · intro e1 e2
      rw [hk] at e1
      injection e1 with e1
      exact absurd ⟨e1, e2⟩ hs
    · rintro (⟨_, _, e⟩ | ⟨_, e⟩) <;> rw [hk] at e <;> cases e
  unfold combine
  dsimp only
  rw [hi, hi', hh]
  refine ⟨rfl, rfl, rfl, ht, ?_⟩
  have hl : ∀ b : Bool, All₂ DeclEq (if b then [topOf E im h kids] else []) (if b then [topOf E im h kids'] else []) := by
    intro b
    cases b with
    | true => exact .cons ht .nil
    | false => exact .nil
  have he : kids.isEmpty = kids'.isEmpty := by
    rw [Bool.eq_iff_iff, List.isEmpty_iff, List.isEmpty_iff]
    exact ⟨fun e => by rw [e] at hp; exact hp.symm.eq_nil, fun e => by rw [e] at hp; exact hp.eq_nil⟩
  unfold emitOf
  rw [hi, hi', he]
  split
  · exact .of (hl _)
  · refine Emits.append ⟨_, All₂.self (fun d => .refl d) _, hp.flatMap_right _, fun t => ?_⟩ (.of (hl _))
    exact flatMap_perm hp ((hq t).imp (by
      intro a b hab
      rcases hab with ⟨h1, h2⟩ | ⟨h1, h2⟩
      · left; simp [h1, h2]
      · right; simp [h1, h2]))

theorem foldl_height_le {b : Nat} : ∀ {l : List Out} {m : Nat}, m ≤ b → (∀ o ∈ l, o.height ≤ b) → l.foldl (fun m k => max k.height m) m ≤ b
  | [], _, hm, _ => hm
  | o :: l, m, hm, h => by
    rw [List.foldl_cons]
    exact foldl_height_le (by have := h o (by simp); omega) (fun o ho => h o (by simp [ho]))

mutual
/-- Nodes described in place have no declarations. -/
theorem silent_out {E : Env} {im : Str → List Str} : ∀ (b : Nat) (n : Node), b ≤ E.S.minHeight → Silent E.S b n →
    (n.out E im).emitted = [] ∧ (n.out E im).perm = false ∧ (n.out E im).height ≤ b
  | b, .mk h kids, hb, hn => by
    simp only [Silent] at hn
    obtain ⟨hr, hk, hks⟩ := hn
    have hi := silentAll_out (im := im) (b - 1) kids (by omega) hks
    have hit : ∀ o ∈ iterate h.slots (outList E im kids), o.emitted = [] ∧ o.perm = false ∧ o.height ≤ b - 1 := fun o ho => hi o (mem_iterate ho)
    have hh : heightOf h (iterate h.slots (outList E im kids)) ≤ b := by
      have := foldl_height_le (m := 0) (Nat.zero_le (b - 1)) (fun o ho => (hit o ho).2.2)
      cases hkind : h.kind <;> simp only [heightOf, hkind] <;> rw [hkind] at hk <;> simp only [silentKind] at hk <;> omega
    have hp : permOf E.S h (heightOf h (iterate h.slots (outList E im kids))) = false := by
      have hle : ¬ (heightOf h (iterate h.slots (outList E im kids)) > E.S.minHeight) := by omega
      generalize heightOf h (iterate h.slots (outList E im kids)) = x at hle
      cases hkind : h.kind <;> rw [hkind] at hk <;> simp only [silentKind] at hk <;> simp [permOf, hkind, hr, hle]
      exact hk.1
    simp only [Node.out, combine]
    refine ⟨?_, hp, hh⟩
    unfold emitOf
    rw [hp]
    split
    · simp
    · simp only [Bool.false_eq_true, if_false, List.append_nil, List.flatMap_eq_nil_iff]
      intro o ho
      obtain ⟨h1, h2, _⟩ := hit o ho
      simp [h1, h2]
theorem silentAll_out {E : Env} {im : Str → List Str} : ∀ (b : Nat) (l : List Node), b ≤ E.S.minHeight → SilentAll E.S b l →
    ∀ o ∈ outList E im l, o.emitted = [] ∧ o.perm = false ∧ o.height ≤ b
  | _, [], _, _ => by simp [outList]
  | b, n :: l, hb, h => by
    simp only [SilentAll] at h
    have h1 := silent_out (im := im) b n hb h.1
    have h2 := silentAll_out (im := im) b l hb h.2
    intro o ho
    simp only [outList, List.mem_cons] at ho
    rcases ho with e | ho
    · rw [e]; exact h1
    · exact h2 o ho
end

/-- Trees that differ only in the order of children have the same declarations, in the same order if these children are
described in place. -/
theorem sim_out {E : Env} {im : Str → List Str} {n n' : Node} (h : Sim q E.S n n') : OutEq q (n.out E im) (n'.out E im) := by
  induction h with
  | @mk h kids mid kids' hl _ hm ih =>
    have h1 : All₂ (fun a b => OutEq q (Node.out E im a) (Node.out E im b)) kids mid := All₂.of_zip hl ih
    have h2 : OutEq q ((Node.mk h kids).out E im) ((Node.mk h mid).out E im) := by
      simp only [Node.out, outList_eq_map]
      exact combine_eq (All₂.map (R := fun a b => OutEq q (Node.out E im a) (Node.out E im b)) (R' := OutEq q) (f := fun n => Node.out E im n) (g := fun n => Node.out E im n) (fun _ _ h => h) h1)
    refine h2.trans ?_
    rcases hm with rfl | ⟨⟨hs, k, hk, hks⟩, hp, hq⟩
    · simp only [Node.out, outList_eq_map]
      exact combine_eq (All₂.self (fun o => OutEq.refl o) _)
    · simp only [Node.out, outList_eq_map]
      refine combine_perm hk hks (by rw [hs]; simp) (hp.map _) ?_
      intro t
      rw [List.pairwise_map]
      refine (hq t).imp ?_
      intro a b hab
      rcases hab with hh | hh
      · have := silent_out (im := im) _ a (Nat.le_refl _) hh
        exact .inl ⟨this.1, this.2.1⟩
      · have := silent_out (im := im) _ b (Nat.le_refl _) hh
        exact .inr ⟨this.1, this.2.1⟩

/-- Rendering does not look at the iteration order of sets. -/
theorem combine_env {U : Uni} {S : Strategies} {b : Str → Bool} {r : Str → Str} {o o' : Nat → List Node → List Node} {im : Str → List Str} {h : Hdr} {kids : List Out} :
    combine ⟨U, S, b, r, o⟩ im h kids = combine ⟨U, S, b, r, o'⟩ im h kids := rfl

mutual
theorem out_env {U : Uni} {S : Strategies} {b : Str → Bool} {r : Str → Str} {o o' : Nat → List Node → List Node} {im : Str → List Str} :
    ∀ n : Node, n.out ⟨U, S, b, r, o⟩ im = n.out ⟨U, S, b, r, o'⟩ im
  | .mk h kids => by
    simp only [Node.out]
    rw [outList_env kids]
    exact combine_env
theorem outList_env {U : Uni} {S : Strategies} {b : Str → Bool} {r : Str → Str} {o o' : Nat → List Node → List Node} {im : Str → List Str} :
    ∀ l : List Node, outList ⟨U, S, b, r, o⟩ im l = outList ⟨U, S, b, r, o'⟩ im l
  | [] => by simp only [outList]
  | n :: l => by simp only [outList]; rw [out_env n, outList_env l]
end

end Verif
