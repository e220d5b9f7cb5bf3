import Verif.Lemmas.Order
/-
The declarations of a tree are in dependency order.
-/
namespace Verif
open Verif.Spec

/-- `x` is used by the declaration. -/
def Uses (d : TDecl) (x : Str) : Prop := ∃ t ∈ d.body.types, x ∈ t.idents

/-- Every identifier is in `P`, or declared earlier in the list. -/
def OrderedFrom (P : Str → Prop) : List TDecl → Prop
  | [] => True
  | d :: r => (∀ x, Uses d x → P x) ∧ OrderedFrom (fun x => P x ∨ x = d.name) r

theorem OrderedFrom.mono : ∀ {l : List TDecl} {P Q : Str → Prop}, (∀ x, P x → Q x) → OrderedFrom P l → OrderedFrom Q l
  | [], _, _, _, _ => trivial
  | d :: r, P, Q, h, hl => ⟨fun x hx => h x (hl.1 x hx), hl.2.mono (fun x hx => hx.imp_left (h x))⟩

theorem OrderedFrom.append : ∀ {l l' : List TDecl} {P : Str → Prop}, OrderedFrom P l →
    OrderedFrom (fun x => P x ∨ ∃ d ∈ l, d.name = x) l' → OrderedFrom P (l ++ l')
  | [], l', P, _, h => h.mono (by rintro x (h | ⟨d, hd, _⟩); exact h; simp at hd)
  | d :: r, l', P, hl, h => by
    refine ⟨hl.1, hl.2.append (h.mono ?_)⟩
    rintro x (h | ⟨e, he, rfl⟩)
    · exact .inl (.inl h)
    · rcases List.mem_cons.mp he with rfl | he
      · exact .inl (.inr rfl)
      · exact .inr ⟨e, he, rfl⟩

theorem OrderedFrom.filter {f : TDecl → Bool} : ∀ {l : List TDecl} {P : Str → Prop}, (∀ e ∈ l, f e = false → P e.name) →
    OrderedFrom P l → OrderedFrom P (l.filter f)
  | [], _, _, h => h
  | d :: r, P, hf, hl => by
    rw [List.filter_cons]
    split
    · exact ⟨hl.1, hl.2.filter (fun e he h => .inl (hf e (by simp [he]) h))⟩
    · rename_i hd
      refine OrderedFrom.filter (fun e he h => hf e (by simp [he]) h) (hl.2.mono ?_)
      rintro x (h | rfl)
      · exact h
      · exact hf d (by simp) (by simpa using hd)

theorem OrderedFrom.spec : ∀ {l : List TDecl} {P : Str → Prop}, OrderedFrom P l → DeclaredBeforeUse P l
  | [], P, _, pre, d, post, e => by simp at e
  | d :: r, P, hl, pre, e, post, he => by
    intro t ht x hx
    cases pre with
    | nil =>
      simp only [List.nil_append, List.cons.injEq] at he
      rw [← he.1] at ht
      exact .inl (hl.1 x ⟨t, ht, hx⟩)
    | cons a pre =>
      simp only [List.cons_append, List.cons.injEq] at he
      obtain ⟨rfl, he⟩ := he
      rcases hl.2.spec pre e post he t ht x hx with (h | h) | ⟨b, hb, h⟩
      · exact .inl h
      · exact .inr ⟨d, by simp, h.symm⟩
      · exact .inr ⟨b, by simp [hb], h⟩

/-- A check of the order for examples. -/
def orderedCheck (scope : Str → Bool) (seen : List Str) : List TDecl → Bool
  | [] => true
  | d :: r => d.body.types.all (fun t => t.idents.all (fun x => scope x || seen.contains x)) &&
      orderedCheck scope (d.name :: seen) r

theorem orderedCheck_of {scope : Str → Bool} : ∀ {Γ : List TDecl} {seen : List Str},
    DeclaredBeforeUse (fun x => scope x = true ∨ x ∈ seen) Γ → orderedCheck scope seen Γ = true
  | [], _, _ => rfl
  | d :: r, seen, h => by
    simp only [orderedCheck, Bool.and_eq_true, List.all_eq_true]
    refine ⟨?_, orderedCheck_of ?_⟩
    · intro t ht x hx
      rcases h [] d r rfl t ht x hx with (h | h) | ⟨e, he, _⟩
      · rw [h]; rfl
      · rw [Bool.or_eq_true, List.contains_iff_mem]; exact .inr h
      · simp at he
    · intro pre e post he t ht x hx
      rcases h (d :: pre) e post (by rw [he]; rfl) t ht x hx with (h | h) | ⟨a, ha, hn⟩
      · exact .inl (.inl h)
      · exact .inl (.inr (by simp [h]))
      · rcases List.mem_cons.mp ha with rfl | ha
        · exact .inl (.inr (by simp [hn]))
        · exact .inr ⟨a, ha, hn⟩

/-! ### Identifiers of types -/

theorem mem_identsList {x : Str} : ∀ {ts : List TExpr}, x ∈ identsList ts ↔ ∃ t ∈ ts, x ∈ t.idents
  | [] => by simp [identsList]
  | t :: r => by simp [identsList, mem_identsList (ts := r)]

theorem unionOf_idents {ts : List TExpr} {x : Str} (h : x ∈ (unionOf ts).idents) : x = py!"Union" ∨ ∃ t ∈ ts, x ∈ t.idents := by
  match ts with
  | [] =>
    simp only [unionOf, TExpr.idents, identsList, List.mem_cons, List.not_mem_nil, or_false] at h
    exact .inl h
  | [t] => exact .inr ⟨t, by simp, h⟩
  | a :: b :: r =>
    simp only [unionOf, TExpr.idents, List.mem_cons] at h
    rcases h with h | h
    · exact .inl h
    · exact .inr (mem_identsList.mp h)

/-- Identifiers that are in scope without declarations. -/
def InScope (E : Env) (x : Str) : Prop := x ∈ libraryNames ∨ E.isBuiltin x = true

theorem lib {E : Env} {x y : Str} (h : y ∈ libraryNames := by decide) (e : x = y) : InScope E x := .inl (e ▸ h)

/-- Identifiers a parent may use for its children. -/
def Below (kids : List AOut) (x : Str) : Prop := ∃ k ∈ kids, x ∈ (aref k).idents

theorem aTypes_idents {E : Env} {kids : List AOut} {t : TExpr} (ht : t ∈ aTypes kids) {x : Str} (hx : x ∈ t.idents) :
    InScope E x ∨ Below kids x := by
  unfold aTypes at ht
  split at ht
  · simp only [List.mem_singleton] at ht
    subst ht
    simp only [TExpr.idents, List.mem_singleton] at hx
    exact .inl (lib (y := py!"Any") (by decide) hx)
  · obtain ⟨k, hk, rfl⟩ := List.mem_map.mp ht
    exact .inr ⟨k, hk, hx⟩

theorem aAlias_idents {E : Env} {kids : List AOut} {x : Str} (hx : x ∈ (aAlias kids).idents) : InScope E x ∨ Below kids x := by
  rcases unionOf_idents hx with h | ⟨t, ht, hx⟩
  · exact .inl (lib (y := py!"Union") (by decide) h)
  · exact aTypes_idents (aUnique_mem ht) hx

theorem aTuple_idents {E : Env} {kids : List AOut} {x : Str} (hx : x ∈ (aTuple E.S kids).idents) : InScope E x ∨ Below kids x := by
  unfold aTuple at hx
  split at hx
  · split at hx
    · simp only [TExpr.idents, List.mem_cons, List.not_mem_nil, or_false] at hx
      rcases hx with h | h
      · exact .inl (lib (y := py!"Tuple") (by decide) h)
      · exact .inl (lib (y := py!"Any") (by decide) h)
    · simp only [TExpr.idents, List.mem_cons] at hx
      rcases hx with h | h
      · exact .inl (lib (y := py!"Tuple") (by decide) h)
      · obtain ⟨t, ht, hx⟩ := mem_identsList.mp h
        exact aTypes_idents ht hx
  · simp only [TExpr.idents, List.mem_cons] at hx
    rcases hx with h | h
    · exact .inl (lib (y := py!"Tuple") (by decide) h)
    · exact aAlias_idents h

theorem seqCon_lib (S : Strategies) (k : SeqKind) : seqCon S k ∈ libraryNames := by
  cases k with
  | list => simp only [seqCon]; split <;> decide
  | _ => simp only [seqCon]; decide

theorem mapCon_lib (S : Strategies) (t : Ty) : mapCon S t ∈ libraryNames := by
  unfold mapCon
  split
  · decide
  · split <;> decide

theorem keyExpr_idents {E : Env} {keys : List Key} (h : ∀ k ∈ keys, E.isBuiltin k.ty.name = true) {x : Str}
    (hx : x ∈ (keyExpr keys).idents) : InScope E x := by
  unfold keyExpr at hx
  split at hx
  · simp only [TExpr.idents, List.mem_singleton] at hx
    exact lib (y := py!"Any") (by decide) hx
  · rcases unionOf_idents hx with h' | ⟨t, ht, hx⟩
    · exact lib (y := py!"Union") (by decide) h'
    · obtain ⟨s, hs, rfl⟩ := List.mem_map.mp ht
      obtain ⟨k, hk, rfl⟩ := List.mem_map.mp (mem_uniqueTypes.mp hs).1
      simp only [TExpr.idents, List.mem_singleton] at hx
      subst hx
      exact .inr (h k hk)

/-- Headers of trees whose identifiers are all in scope. -/
def ScopeHdr (E : Env) (h : Hdr) : Prop :=
  (CamelName h.name ∧ NeatTy h.ty ∧ ∀ s ∈ h.slots, s.key ≠ .none ∧ E.isBuiltin s.key.ty.name = true) ∧ CleanHdr E h

theorem iterate_all {α} {slots : List Slot} (h : ∀ s ∈ slots, s.key ≠ .none) (kids : List α) :
    iterate slots kids = (slots.zip kids).map (·.2) := by
  unfold iterate
  rw [takeWhile_all]
  intro sk hsk
  have := h sk.1 (List.of_mem_zip hsk).1
  simpa using this

theorem zip_keys_mem {slots : List Slot} {kids : List AOut} {kk : Key × AOut} (h : kk ∈ (slots.map (·.key)).zip kids) :
    kk.2 ∈ (slots.zip kids).map (·.2) := by
  rw [List.zip_map_left] at h
  obtain ⟨sk, hsk, rfl⟩ := List.mem_map.mp h
  exact List.mem_map.mpr ⟨sk, hsk, rfl⟩

theorem body_idents {E : Env} {h : Hdr} {kids : List AOut} (hh : ScopeHdr E h) (hc : ∀ k ∈ kids, CamelName k.name) {t : TExpr}
    (ht : t ∈ (aBody E h kids).types) {x : Str} (hx : x ∈ t.idents) : InScope E x ∨ Below (iterate h.slots kids) x := by
  have hk := fun s hs => (hh.1.2.2 s hs).2
  have map : x ∈ (mapExpr E h (iterate h.slots kids)).idents → InScope E x ∨ Below (iterate h.slots kids) x := by
    intro hx
    simp only [mapExpr, TExpr.idents, List.mem_cons, List.mem_append] at hx
    rcases hx with h' | h' | h'
    · exact .inl (lib (mapCon_lib _ _) h')
    · refine .inl (keyExpr_idents ?_ h')
      intro k hkm
      obtain ⟨s, hs, rfl⟩ := List.mem_map.mp hkm
      exact hk s hs
    · exact aAlias_idents h'
  unfold aBody at ht
  dsimp only at ht
  cases hkd : h.kind with
  | inst =>
    rw [hkd] at ht
    simp only [Body.types, List.mem_singleton] at ht
    subst ht
    unfold atom at hx
    split at hx
    · simp only [TExpr.idents, List.mem_cons, List.not_mem_nil, or_false] at hx
      rcases hx with h | h
      · exact .inl (lib (y := py!"Optional") (by decide) h)
      · exact .inl (lib (y := py!"object") (by decide) h)
    · split at hx
      · rename_i hb
        simp only [TExpr.idents, List.mem_singleton] at hx
        subst hx
        exact .inl (.inr hb)
      · simp [TExpr.idents] at hx
  | func f =>
    rw [hkd] at ht
    simp only [funcBody] at ht
    split at ht
    · simp [Body.types] at ht
    · simp only [Body.types, List.mem_singleton] at ht
      subst ht
      simp only [TExpr.idents, List.mem_singleton] at hx
      exact .inl (lib (y := py!"Callable") (by decide) hx)
    · split at ht
      · simp only [Body.types, List.mem_singleton] at ht
        subst ht
        simp only [TExpr.idents, List.mem_cons, List.not_mem_nil, or_false] at hx
        rcases hx with h | h
        · exact .inl (lib (y := py!"Callable") (by decide) h)
        · exact .inl (lib (y := py!"Any") (by decide) h)
      · simp [Body.types] at ht
  | cls n =>
    rw [hkd] at ht
    simp only [Body.types, List.mem_singleton] at ht
    subst ht
    simp only [TExpr.idents, List.mem_cons] at hx
    rcases hx with h | h
    · exact .inl (lib (y := py!"Type") (by decide) h)
    · split at h
      · rename_i hb
        simp only [TExpr.idents, List.mem_singleton] at h
        subst h
        exact .inl (.inr hb)
      · simp [TExpr.idents] at h
  | module =>
    rw [hkd] at ht
    simp only [Body.types, List.mem_singleton] at ht
    subst ht
    simp only [TExpr.idents, List.mem_singleton] at hx
    exact .inl (lib (y := py!"ModuleType") (by decide) hx)
  | io =>
    rw [hkd] at ht
    simp only [Body.types, List.mem_singleton] at ht
    subst ht
    simp only [TExpr.idents, List.mem_singleton] at hx
    exact .inl (lib (y := py!"TextIO") (by decide) hx)
  | ndarray d =>
    rw [hkd] at ht
    simp only [Body.types, List.mem_singleton] at ht
    subst ht
    simp [TExpr.idents] at hx
  | seq k =>
    rw [hkd] at ht
    cases k
    case tuple =>
      simp only [Body.types, List.mem_singleton] at ht
      subst ht
      exact aTuple_idents hx
    all_goals
      simp only [Body.types, List.mem_singleton] at ht
      subst ht
      simp only [TExpr.idents, List.mem_cons] at hx
      rcases hx with h | h
      · exact .inl (lib (seqCon_lib _ _) h)
      · exact aAlias_idents h
  | dict data m =>
    rw [hkd] at ht
    dsimp only at ht
    split at ht
    · simp only [recordBody, Body.types] at ht
      obtain ⟨e, he, rfl⟩ := List.mem_map.mp ht
      obtain ⟨s, k, hk', rfl⟩ := mem_aEntries.mp he
      refine .inr ⟨k, ?_, ?_⟩
      · rw [iterate_all (fun s hs => (hh.1.2.2 s hs).1)]
        exact zip_keys_mem hk'
      · simp only [aEntry] at hx
        split at hx
        · rename_i hp
          rw [toCamel_camelName (hc k (List.of_mem_zip hk').2)] at hx
          simpa only [aref, hp, if_true] using hx
        · exact hx
    · simp only [Body.types, List.mem_singleton] at ht
      subst ht
      exact map hx
  | proxy =>
    rw [hkd] at ht
    simp only [Body.types, List.mem_singleton] at ht
    subst ht
    exact map hx
  | frame i =>
    rw [hkd] at ht
    dsimp only [frameBody] at ht
    split at ht
    · simp only [Body.types, List.mem_singleton] at ht
      subst ht
      simp only [TExpr.idents, List.mem_singleton] at hx
      exact .inl (lib (y := py!"pd.DataFrame") (by decide) hx)
    · simp only [Body.types, List.map_map] at ht
      obtain ⟨kk, hkk, rfl⟩ := List.mem_map.mp ht
      refine .inr ⟨kk.2, ?_, hx⟩
      rw [iterate_all (fun s hs => (hh.1.2.2 s hs).1)]
      exact zip_keys_mem (List.mem_filter.mp hkk).1

/-! ### Trees -/

/-- What the declarations of a node guarantee. -/
structure Scoped (E : Env) (a : AOut) : Prop where
  camel : CamelName a.name
  ref : ∀ x ∈ (aref a).idents, InScope E x ∨ Declared a.decls x
  emitted : OrderedFrom (InScope E) a.emitted
  body : ∀ x, Uses a.decl x → InScope E x ∨ Declared a.emitted x

theorem Scoped.decls {E : Env} {a : AOut} (h : Scoped E a) : OrderedFrom (InScope E) a.decls := by
  refine h.emitted.append ?_
  split
  · exact ⟨h.body, trivial⟩
  · trivial

theorem ordered_flatMap {E : Env} : ∀ {kids : List AOut}, (∀ k ∈ kids, Scoped E k) →
    OrderedFrom (InScope E) (kids.flatMap AOut.decls)
  | [], _ => trivial
  | k :: r, h => by
    rw [List.flatMap_cons]
    exact (h k (by simp)).decls.append ((ordered_flatMap (fun k hk => h k (by simp [hk]))).mono (fun _ h => .inl h))

theorem scoped_combine {E : Env} {h : Hdr} {kids : List AOut} (hh : ScopeHdr E h) (hk : ∀ k ∈ kids, Scoped E k) :
    Scoped E (aCombine E h kids) := by
  have hit : ∀ k ∈ iterate h.slots kids, k ∈ kids := by
    intro k hk
    unfold iterate at hk
    obtain ⟨sk, hsk, rfl⟩ := List.mem_map.mp hk
    exact (List.of_mem_zip (List.takeWhile_subset _ hsk)).2
  have hu : ∀ x, Uses (aCombine E h kids).decl x → InScope E x ∨ Declared ((iterate h.slots kids).flatMap AOut.decls) x := by
    rintro x ⟨t, ht, hx⟩
    rcases body_idents hh (fun k hkm => (hk k hkm).camel) ht hx with h' | ⟨k, hkm, hx⟩
    · exact .inl h'
    · rcases (hk k (hit k hkm)).ref x hx with h' | ⟨d, hd, e⟩
      · exact .inl h'
      · exact .inr ⟨d, List.mem_flatMap.mpr ⟨k, hkm, hd⟩, e⟩
  have hsub : ∀ x, Declared ((iterate h.slots kids).flatMap AOut.decls) x → Declared (aCombine E h kids).emitted x := by
    rintro x ⟨d, hd, e⟩
    refine ⟨d, ?_, e⟩
    show d ∈ aEmit h (aCombine E h kids).perm ⟨h.name, aBody E h kids⟩ kids
    unfold aEmit
    have : kids.isEmpty = false := by
      cases kids with
      | nil => simp [iterate] at hd
      | cons => rfl
    rw [this]
    simp only [Bool.false_eq_true, if_false]
    exact List.mem_append_left _ hd
  have hbody : ∀ x, Uses (aCombine E h kids).decl x → InScope E x ∨ Declared (aCombine E h kids).emitted x :=
    fun x hx => (hu x hx).imp_right (hsub x)
  refine ⟨hh.1.1, ?_, ?_, hbody⟩
  · intro x hx
    unfold aref at hx
    split at hx
    · rename_i hp
      simp only [TExpr.idents, List.mem_singleton] at hx
      subst hx
      exact .inr ⟨_, List.mem_append_right _ (by rw [if_pos hp]; exact List.mem_singleton.mpr rfl), rfl⟩
    · rename_i hp
      have dec : (aCombine E h kids).decls = (aCombine E h kids).emitted := by
        unfold AOut.decls
        rw [if_neg hp, List.append_nil]
      rw [dec]
      split at hx
      · rename_i t e
        exact hbody x ⟨t, by show t ∈ (aCombine E h kids).body.types; rw [e]; simp [Body.types], hx⟩
      · rename_i hna
        exfalso
        have hcl := hh.2.2.2.2
        have hp : ¬ permOf E.S h (aHeight h (iterate h.slots kids)) = true := hp
        have hna : ∀ t, aBody E h kids = .alias t → False := hna
        unfold permOf at hp
        unfold aBody at hna
        dsimp only at hp hna
        cases hkd : h.kind with
        | func f => rw [hkd] at hp; exact hp rfl
        | seq k => rw [hkd] at hna; cases k <;> exact hna _ rfl
        | dict data m =>
          rw [hkd] at hp hna
          dsimp only at hp hna
          cases htd : m.isTyped E.S with
          | true => rw [htd] at hp; exact hp rfl
          | false => rw [htd] at hna; exact hna _ rfl
        | frame i =>
          rw [hkd] at hp hcl
          dsimp only at hp hcl
          rcases hcl with h' | h' <;> rw [h'] at hp <;> simp at hp
        | _ => rw [hkd] at hna; exact hna _ rfl
  · show OrderedFrom (InScope E) (aEmit h (aCombine E h kids).perm ⟨h.name, aBody E h kids⟩ kids)
    unfold aEmit
    split
    · rename_i he
      split
      · refine ⟨?_, trivial⟩
        intro x hx
        rcases hu x hx with h' | ⟨d, hd, _⟩
        · exact h'
        · rw [List.isEmpty_iff] at he
          subst he
          simp [iterate] at hd
      · trivial
    · refine (ordered_flatMap (fun k hkm => hk k (hit k hkm))).append ?_
      split
      · exact ⟨hu, trivial⟩
      · trivial

mutual
theorem scoped_abs {E : Env} : ∀ (n : Node), NodeAll (ScopeHdr E) n → Scoped E (n.abs E)
  | .mk h kids, hn => scoped_combine hn.1 (scoped_absList kids hn.2)
theorem scoped_absList {E : Env} : ∀ (l : List Node), NodeAllList (ScopeHdr E) l → ∀ k ∈ absList E l, Scoped E k
  | [], _ => by simp [absList]
  | n :: r, hn => by
    intro k hk
    simp only [absList, List.mem_cons] at hk
    rcases hk with rfl | hk
    · exact scoped_abs n hn.1
    · exact scoped_absList r hn.2 k hk
end

theorem ordered_dedup : ∀ {l : List TDecl} {P : Str → Prop}, (∀ d ∈ l, CamelName d.name) → OrderedFrom P l → OrderedFrom P (dedupDecls l)
  | [], _, _, h => by unfold dedupDecls; exact h
  | d :: r, P, hc, h => by
    unfold dedupDecls
    refine ⟨h.1, OrderedFrom.filter ?_ (ordered_dedup (fun e he => hc e (by simp [he])) h.2)⟩
    intro e he hp
    have hp : e.print = d.print := by simpa using hp
    have hn : ∀ {e : TDecl}, CamelName e.name → declName e.print = e.name := fun h =>
      declName_print (fun x hx => alnum_ident (camelName_alnum h x hx)) (camelName_class h)
    right
    rw [← hn (hc e (by simp [dedupDecls_mem he])), hp, hn (hc d (by simp))]

/-! ### The invariant -/

/-- Names, classes and keys of neat data with keys of builtin classes. -/
def ScopeHdr₀ (E : Env) (h : Hdr) : Prop :=
  CamelName h.name ∧ NeatTy h.ty ∧ ∀ s ∈ h.slots, s.key ≠ .none ∧ E.isBuiltin s.key.ty.name = true

theorem camelName_renameTimes {new : Str} {len : Nat} (hn : CamelName new) : ∀ (c : Nat) {s : Str}, CamelName s →
    CamelName (renameTimes new len c s)
  | 0, _, h => h
  | c + 1, s, h => by
    apply camelName_renameTimes hn c
    exact camelName_append hn (fun d hd => camelName_alnum h d (List.mem_of_mem_drop hd))

/-- Keys of builtin classes other than `None`. -/
def BuiltinKey (E : Env) (k : Key) : Prop := NeatKey k ∧ k ≠ .none ∧ E.isBuiltin k.ty.name = true

theorem scope_inv {E : Env} (hstr : E.isBuiltin py!"str" = true) :
    Inv E (ValAll NeatTy (BuiltinKey E) (fun _ => True))
      (fun k v => BuiltinKey E k ∧ ValAll NeatTy (BuiltinKey E) (fun _ => True) v)
      CamelName (ScopeHdr₀ E) (fun _ => True) where
  seqElem h he := valAllList_iff.mp h.2 _ he
  mapEntry h hkv := ⟨h.2.1 _ (List.of_mem_zip hkv).1, valAllList_iff.mp h.2.2 _ (List.of_mem_zip hkv).2⟩
  entry h := h.2
  dict h := valAll_dict ⟨by decide, by decide⟩ h
  nameElem hs hv := camelName_append hs (Alnum.capitalize (valAll_ty hv).2)
  nameNum hs := camelName_append hs (alnum_natStr _)
  nameKey := by
    intro s k v hs hk
    refine camelName_append hs ?_
    have hk := hk.1.1
    cases k with
    | str t => exact alnum_toCamel (fun c hc => (hk c hc).1)
    | none => show Alnum (Key.none.ty.name); intro c hc; revert c; decide
    | other t r => exact hk.1.2
  nameLabel := by
    intro s k v hs hk
    refine camelName_append hs ?_
    have hk := hk.1.1
    unfold labelSuffix
    dsimp only
    split
    · intro c hc; revert c; decide
    · apply alnum_toCamel
      cases k with
      | str t => exact fun c hc => (hk c hc).1
      | none => intro c hc; revert c; decide
      | other t r => exact hk.2
  nameTy hs hh := camelName_append hs (Alnum.capitalize hh.2.1.2)
  rename hh hn := ⟨camelName_renameTimes hn _ hh.1, hh.2.1, hh.2.2⟩
  hdr := by
    intro name v root' slots hn hv hsl
    refine ⟨hn, valAll_ty hv, ?_⟩
    intro s hs
    rcases hsl s hs with h | ⟨w, h, _⟩
    · rw [h]; exact ⟨by simp, hstr⟩
    · exact h.2
  merge hh _ _ := hh
  bad _ _ _ := trivial
  sig _ _ := trivial
  noTrees _ := trivial

theorem scope_hdrs {E : Env} (hE : E.Fair) (hstr : E.isBuiltin py!"str" = true) {name : Str} {v : Val} (hc : CamelName name)
    (hv : ValAll NeatTy (BuiltinKey E) (fun _ => True) v) {f : Nat} {root : Bool} {n : Node}
    (hb : build E f root name v = .ok n) (hd : v.depth < f) : NodeAll (ScopeHdr₀ E) n := by
  have h := build_ens hE (scope_inv hstr) f root name v hc hv hd
  rw [hb] at h
  exact h.1.1

mutual
theorem nodeAll_and {p q : Hdr → Prop} : ∀ (n : Node), NodeAll p n → NodeAll q n → NodeAll (fun h => p h ∧ q h) n
  | .mk _ kids, hp, hq => ⟨⟨hp.1, hq.1⟩, nodeAllList_and kids hp.2 hq.2⟩
theorem nodeAllList_and {p q : Hdr → Prop} : ∀ (l : List Node), NodeAllList p l → NodeAllList q l →
    NodeAllList (fun h => p h ∧ q h) l
  | [], _, _ => trivial
  | n :: r, hp, hq => ⟨nodeAll_and n hp.1 hq.1, nodeAllList_and r hp.2 hq.2⟩
end

end Verif
