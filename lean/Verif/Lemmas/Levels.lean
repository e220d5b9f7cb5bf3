import Verif.Spec.Levels
import Verif.Lemmas.Formed
import Verif.Lemmas.Scope
import Verif.Lemmas.Sound
/-
The levels of generated declarations are the heights of the nodes of the tree.
-/
namespace Verif
open Verif.Spec

/-! ### Levels -/

theorem levelsMax_eq {lv : Str → Nat} : ∀ {ts : List TExpr}, levelsMax lv ts = maxOf (ts.map (TExpr.levels lv))
  | [] => by simp [levelsMax, maxOf]
  | t :: r => by
    simp only [levelsMax, levelsMax_eq (ts := r), List.map_cons, maxOf, List.foldr_cons]

mutual
theorem levels_congr {lv lv' : Str → Nat} : ∀ (t : TExpr), (∀ x ∈ t.idents, lv x = lv' x) → t.levels lv = t.levels lv'
  | .name n, h => by simpa [TExpr.levels] using h n (by simp [TExpr.idents])
  | .quoted _, _ => by simp [TExpr.levels]
  | .object, _ => by simp [TExpr.levels]
  | .callable _, _ => by simp [TExpr.levels]
  | .union ts, h => by
    simp only [TExpr.levels]
    exact levelsMax_congr ts (fun x hx => h x (by simp [TExpr.idents, hx]))
  | .app con t, h => by
    simp only [TExpr.levels]
    rw [levels_congr t (fun x hx => h x (by simp [TExpr.idents, hx]))]
  | .tuple ts, h => by
    simp only [TExpr.levels]
    rw [levelsMax_congr ts (fun x hx => h x (by simp [TExpr.idents, hx]))]
  | .tupleOf t, h => by
    simp only [TExpr.levels]
    rw [levels_congr t (fun x hx => h x (by simp [TExpr.idents, hx]))]
  | .mapping con k v, h => by
    simp only [TExpr.levels]
    rw [levels_congr v (fun x hx => h x (by simp [TExpr.idents, hx]))]
theorem levelsMax_congr {lv lv' : Str → Nat} : ∀ (ts : List TExpr), (∀ x ∈ identsList ts, lv x = lv' x) →
    levelsMax lv ts = levelsMax lv' ts
  | [], _ => by simp [levelsMax]
  | t :: r, h => by
    simp only [levelsMax]
    rw [levels_congr t (fun x hx => h x (by simp [identsList, hx])), levelsMax_congr r (fun x hx => h x (by simp [identsList, hx]))]
end

theorem body_levels_congr {lv lv' : Str → Nat} {d : TDecl} (h : ∀ x, Uses d x → lv x = lv' x) :
    d.body.levels lv = d.body.levels lv' := by
  have hl : ∀ ts : List TExpr, (∀ t ∈ ts, t ∈ d.body.types) → levelsMax lv ts = levelsMax lv' ts := by
    intro ts hts
    refine levelsMax_congr ts (fun x hx => ?_)
    obtain ⟨t, ht, hx⟩ := mem_identsList.mp hx
    exact h x ⟨t, hts t ht, hx⟩
  cases hb : d.body with
  | alias t => exact levels_congr t (fun x hx => h x ⟨t, by rw [hb]; simp [Body.types], hx⟩)
  | record f doc es =>
    simp only [Body.levels]
    rw [hl _ (fun t ht => by rw [hb]; exact ht)]
  | protocol s => rfl
  | frame ovs rest =>
    simp only [Body.levels]
    rw [hl _ (fun t ht => by rw [hb]; exact ht)]

/-! ### The table -/

/-- One step of reading the declarations. -/
def levelStep (lv : Str → Nat) (d : TDecl) : Str → Nat := fun x => if x = d.name then d.body.levels lv else lv x

theorem levelStep_other {lv : Str → Nat} {d : TDecl} {x : Str} (h : x ≠ d.name) : levelStep lv d x = lv x := if_neg h

theorem levelFold_other : ∀ {Γ : List TDecl} {lv : Str → Nat} {x : Str}, (∀ d ∈ Γ, d.name ≠ x) → Γ.foldl levelStep lv x = lv x
  | [], _, _, _ => rfl
  | d :: r, lv, x, h => by
    rw [List.foldl_cons, levelFold_other (fun e he => h e (by simp [he])), levelStep_other (Ne.symm (h d (by simp)))]

/-- The table gives every declared name the levels of its declaration. -/
theorem levelFold_fix : ∀ {Γ : List TDecl} {lv : Str → Nat} {P : Str → Prop}, (Γ.map (·.name)).Nodup → OrderedFrom P Γ →
    (∀ d ∈ Γ, ¬ P d.name) → ∀ d ∈ Γ, Γ.foldl levelStep lv d.name = d.body.levels (Γ.foldl levelStep lv)
  | [], _, _, _, _, _, d, hd => by cases hd
  | e :: r, lv, P, hn, ho, hp, d, hd => by
    rw [List.map_cons, List.nodup_cons] at hn
    rw [List.foldl_cons]
    have hne : ∀ d ∈ r, d.name ≠ e.name := fun d hd h => hn.1 (List.mem_map.mpr ⟨d, hd, h⟩)
    rcases List.mem_cons.mp hd with rfl | hd
    · rw [levelFold_other hne]
      show (if d.name = d.name then d.body.levels lv else lv d.name) = _
      rw [if_pos rfl]
      refine body_levels_congr (fun x hx => ?_)
      have hx := ho.1 x hx
      rw [levelFold_other (fun c hc h => hp c (by simp [hc]) (h ▸ hx)), levelStep_other]
      rintro rfl
      exact hp d (by simp) hx
    · refine levelFold_fix hn.2 ho.2 ?_ d hd
      rintro c hc (h | h)
      · exact hp c (by simp [hc]) h
      · exact hne c hc h

theorem levelTable_eq (Γ : List TDecl) : levelTable Γ = Γ.foldl levelStep (fun _ => 0) := rfl

theorem levelTable_fix {Γ : List TDecl} {P : Str → Prop} (hn : (Γ.map (·.name)).Nodup) (ho : OrderedFrom P Γ)
    (hp : ∀ d ∈ Γ, ¬ P d.name) {d : TDecl} (hd : d ∈ Γ) : levelTable Γ d.name = d.body.levels (levelTable Γ) := by
  rw [levelTable_eq]; exact levelFold_fix hn ho hp d hd

theorem levelTable_other {Γ : List TDecl} {x : Str} (h : ∀ d ∈ Γ, d.name ≠ x) : levelTable Γ x = 0 := by
  rw [levelTable_eq, levelFold_other h]

/-! ### Collections -/

theorem mem_collectionsIn {x : TExpr} : ∀ {ts : List TExpr}, x ∈ collectionsIn ts ↔ ∃ t ∈ ts, x ∈ t.collections
  | [] => by simp [collectionsIn]
  | t :: r => by simp [collectionsIn, mem_collectionsIn (ts := r)]

theorem unionOf_collections {ts : List TExpr} {x : TExpr} (h : x ∈ (unionOf ts).collections) : ∃ t ∈ ts, x ∈ t.collections := by
  match ts with
  | [] => simp [unionOf, TExpr.collections, collectionsIn] at h
  | [t] => exact ⟨t, by simp, h⟩
  | a :: b :: r =>
    simp only [unionOf, TExpr.collections] at h
    exact mem_collectionsIn.mp h

theorem unionOf_levels {lv : Str → Nat} {ts : List TExpr} (h : ts ≠ []) : (unionOf ts).levels lv = levelsMax lv ts := by
  match ts with
  | [] => exact absurd rfl h
  | [t] => simp [unionOf, levelsMax]
  | a :: b :: r => simp only [unionOf, TExpr.levels]

/-! ### Nodes -/

/-- Headers of trees for values with string keys. -/
def LevelHdr (root : Str) (h : Hdr) : Prop :=
  NameP root h.name ∧ NeatTy h.ty ∧ (∀ s ∈ h.slots, (∃ x, s.key = .str x) ∧ NeatKey s.key) ∧ match h.kind with
    | .cls n => PlainName n
    | .ndarray n => PlainName n
    | .frame _ => False
    | _ => True

/-- Names that count as no level. -/
structure Ground (E : Env) (T : Str → Nat) : Prop where
  lib : ∀ x ∈ libraryNames, T x = 0
  builtin : ∀ x, E.isBuiltin x = true → T x = 0
  int : T py!"int" = 0

/-- What the rendering of a node guarantees for the table `T`. -/
structure Lev (E : Env) (T : Str → Nat) (a : AOut) : Prop where
  camel : CamelName a.name
  wf : WFT (aref a)
  ref : (aref a).levels T = a.height
  body : a.body.levels T = a.height
  inl : ∀ x ∈ (aref a).collections, x.levels T ≤ E.S.minHeight
  inside : ∀ x ∈ a.body.inline, x.levels T ≤ E.S.minHeight

theorem aTypes_levels {E : Env} {T : Str → Nat} (g : Ground E T) {kids : List AOut} (hk : ∀ k ∈ kids, Lev E T k) :
    levelsMax T (aTypes kids) = maxOf (kids.map (·.height)) := by
  unfold aTypes
  split
  · rename_i he
    rw [List.isEmpty_iff] at he
    subst he
    simp [levelsMax, TExpr.levels, maxOf, g.lib py!"Any" (by decide)]
  · rw [levelsMax_eq, List.map_map]
    congr 1
    exact List.map_congr_left (fun k hkm => (hk k hkm).ref)

theorem aAlias_levels {E : Env} {T : Str → Nat} (g : Ground E T) {kids : List AOut} (hk : ∀ k ∈ kids, Lev E T k) :
    (aAlias kids).levels T = maxOf (kids.map (·.height)) := by
  rw [← aTypes_levels g hk]
  unfold aAlias
  rw [unionOf_levels (aUnique_ne (aTypes_ne kids)), levelsMax_eq, levelsMax_eq]
  have hw := aTypes_wf (fun k hkm => (hk k hkm).wf)
  apply Nat.le_antisymm
  · refine maxOf_mono (fun x hx => ?_)
    obtain ⟨t, ht, rfl⟩ := List.mem_map.mp hx
    exact ⟨_, List.mem_map.mpr ⟨t, aUnique_mem ht, rfl⟩, Nat.le_refl _⟩
  · refine maxOf_le (fun x hx => ?_)
    obtain ⟨t, ht, rfl⟩ := List.mem_map.mp hx
    by_cases hi : t.print = py!"int"
    · rw [int_name (hw t ht) (alnum_name_wf (by decide) (by unfold Alnum; decide)) hi]
      simp [TExpr.levels, g.int]
    · exact le_maxOf (List.mem_map.mpr ⟨t, mem_aUnique hw ht (fun h => hi h.1), rfl⟩)

theorem aTuple_levels {E : Env} {T : Str → Nat} (g : Ground E T) {kids : List AOut} (hk : ∀ k ∈ kids, Lev E T k) :
    (aTuple E.S kids).levels T = maxOf (kids.map (·.height)) + 1 := by
  unfold aTuple
  split
  · split
    · rename_i h
      rw [← aTypes_levels g hk]
      have hw := aTypes_wf (fun k hkm => (hk k hkm).wf)
      have : aTypes kids = [.name py!"Any"] := by
        match he : aTypes kids, h, hw with
        | [], h, _ => cases h
        | _ :: _ :: _, h, _ => simp at h
        | [t], h, hw =>
          simp only [List.map_cons, List.map_nil, List.cons.injEq, and_true] at h
          rw [int_name (hw t (by simp)) any_wf h]
      rw [this]
      simp [TExpr.levels, levelsMax]
    · simp only [TExpr.levels]
      rw [aTypes_levels g hk]
  · simp only [TExpr.levels]
    rw [aAlias_levels g hk]

theorem aTypes_collections {E : Env} {T : Str → Nat} {kids : List AOut} (hk : ∀ k ∈ kids, Lev E T k) {t x : TExpr}
    (ht : t ∈ aTypes kids) (hx : x ∈ t.collections) : x.levels T ≤ E.S.minHeight := by
  unfold aTypes at ht
  split at ht
  · simp only [List.mem_singleton] at ht
    subst ht
    simp [TExpr.collections] at hx
  · obtain ⟨k, hkm, rfl⟩ := List.mem_map.mp ht
    exact (hk k hkm).inl x hx

theorem aAlias_collections {E : Env} {T : Str → Nat} {kids : List AOut} (hk : ∀ k ∈ kids, Lev E T k) {x : TExpr}
    (hx : x ∈ (aAlias kids).collections) : x.levels T ≤ E.S.minHeight := by
  obtain ⟨t, ht, hx⟩ := unionOf_collections hx
  exact aTypes_collections hk (aUnique_mem ht) hx

theorem aTuple_inner {E : Env} {T : Str → Nat} {kids : List AOut} (hk : ∀ k ∈ kids, Lev E T k) {x : TExpr}
    (hx : x ∈ (aTuple E.S kids).collections.tail) : x.levels T ≤ E.S.minHeight := by
  unfold aTuple at hx
  split at hx
  · split at hx
    · simp [TExpr.collections] at hx
    · simp only [TExpr.collections, List.tail_cons] at hx
      obtain ⟨t, ht, hx⟩ := mem_collectionsIn.mp hx
      exact aTypes_collections hk ht hx
  · simp only [TExpr.collections, List.tail_cons] at hx
    exact aAlias_collections hk hx

theorem aTuple_isCollection {S : Strategies} {kids : List AOut} : (aTuple S kids).isCollection = true := by
  unfold aTuple
  split
  · split <;> rfl
  · rfl

theorem seqCon_type (S : Strategies) (k : SeqKind) : seqCon S k ≠ py!"Type" := by
  cases k with
  | list => simp only [seqCon]; split <;> decide
  | _ => simp only [seqCon]; decide

theorem collections_split {t x : TExpr} (h : x ∈ t.collections) : x = t ∧ t.isCollection = true ∨ x ∈ (Body.alias t).inline := by
  unfold Body.inline
  dsimp only
  by_cases hc : t.isCollection = true
  · rw [if_pos hc]
    cases t with
    | app con t =>
      simp only [TExpr.collections] at h ⊢
      split at h
      · cases h
      · rename_i hne
        rw [if_neg hne]
        rcases List.mem_cons.mp h with h | h
        · exact .inl ⟨h, hc⟩
        · exact .inr h
    | tuple ts => exact (List.mem_cons.mp h).imp (fun e => ⟨e, hc⟩) id
    | tupleOf ts => exact (List.mem_cons.mp h).imp (fun e => ⟨e, hc⟩) id
    | mapping c k v => exact (List.mem_cons.mp h).imp (fun e => ⟨e, hc⟩) id
    | _ => cases hc
  · rw [if_neg hc]; exact .inr h

theorem iterate_kids {slots : List Slot} {kids : List AOut} (h : ∀ s ∈ slots, ∃ x, s.key = .str x)
    (hl : slots.length = kids.length) : iterate slots kids = kids := by
  rw [iterate_all (fun s hs => by obtain ⟨x, e⟩ := h s hs; rw [e]; simp)]
  rw [List.map_snd_zip (by omega)]

/-- The entries of a record have the types of the children. -/
theorem entries_types {E : Env} {m : DMeta} : ∀ {keys : List Key} {kids : List AOut}, (∀ k ∈ keys, ∃ x, k = .str x) →
    keys.length = kids.length → (∀ k ∈ kids, CamelName k.name) →
    (aEntries E m (keys.zip kids)).map Entry.type = kids.map aref
  | [], [], _, _, _ => rfl
  | [], _ :: _, _, h, _ => by simp at h
  | _ :: _, [], _, h, _ => by simp at h
  | k :: keys, a :: kids, hs, hl, hc => by
    obtain ⟨x, rfl⟩ := hs k (by simp)
    have ih := entries_types (E := E) (m := m) (keys := keys) (kids := kids) (fun k hk => hs k (by simp [hk]))
      (by simpa using hl) (fun k hk => hc k (by simp [hk]))
    unfold aEntries at ih ⊢
    simp only [List.zip_cons_cons, List.filterMap_cons, List.map_cons]
    rw [ih]
    congr 1
    simp only [aEntry]
    split
    · rename_i hp
      rw [toCamel_camelName (hc a (by simp))]
      simp [aref, hp]
    · rfl

theorem map_levels {E : Env} {T : Str → Nat} (g : Ground E T) {h : Hdr} {kids : List AOut} (hk : ∀ k ∈ kids, Lev E T k) :
    (mapExpr E h kids).levels T = maxOf (kids.map (·.height)) + 1 := by
  simp only [mapExpr, TExpr.levels]
  rw [aAlias_levels g hk]

theorem atom_levels {E : Env} {T : Str → Nat} (g : Ground E T) (t : Ty) : (atom E t).levels T = 0 := by
  unfold atom
  split
  · simp [TExpr.levels]
  · split
    · rename_i hb; simp [TExpr.levels, g.builtin _ hb]
    · simp [TExpr.levels]

theorem atom_collections {E : Env} (t : Ty) : (atom E t).collections = [] := by
  unfold atom
  split
  · simp [TExpr.collections]
  · split <;> simp [TExpr.collections]

theorem aHeight_some {h : Hdr} {kids : List AOut} (hk : (match h.kind with | .seq _ | .dict _ _ | .proxy | .frame _ => true | _ => false) = true) :
    aHeight h kids = maxOf (kids.map (·.height)) + 1 := by
  unfold aHeight
  rw [foldl_max (fun k : AOut => k.height), Nat.zero_max]
  cases hkd : h.kind <;> rw [hkd] at hk <;> first | rfl | cases hk

/-- The body of a node, and the types written out in it. -/
theorem body_levels {E : Env} {T : Str → Nat} (g : Ground E T) {root : Str} {h : Hdr} {kids : List AOut} (hh : LevelHdr root h)
    (hl : h.slots.length = kids.length) (hk : ∀ k ∈ kids, Lev E T k) :
    (aBody E h kids).levels T = aHeight h (iterate h.slots kids) ∧
    (∀ x ∈ (aBody E h kids).inline, x.levels T ≤ E.S.minHeight) ∧
    (∀ t, aBody E h kids = .alias t → WFT t) := by
  have hi := iterate_kids (fun s hs => (hh.2.2.1 s hs).1) hl
  have hw := fun k hm => (hk k hm).wf
  have hmw : WFT (mapExpr E h kids) := by
    refine ⟨mapCon_ident.1, mapCon_ident.2, keyExpr_wf ?_, aAlias_wf hw⟩
    intro k hkm
    obtain ⟨s, hs, rfl⟩ := List.mem_map.mp hkm
    exact (hh.2.2.1 s hs).2
  have hmi : ∀ x ∈ (Body.alias (mapExpr E h kids)).inline, x.levels T ≤ E.S.minHeight := by
    intro x hx
    exact aAlias_collections hk hx
  have hkd := hh.2.2.2
  unfold aBody
  rw [hi]
  dsimp only
  split
  · rename_i e
    refine ⟨?_, ?_, ?_⟩
    · simp only [Body.levels, aHeight, e]; exact atom_levels g _
    · intro x hx
      simp [Body.inline, atom_collections] at hx
    · rintro t ⟨⟩; exact atom_wf hh.2.1
  · rename_i f e
    have h0 : aHeight h kids = 0 := by simp [aHeight, e]
    rw [h0]
    unfold funcBody
    split
    · exact ⟨rfl, by simp [Body.inline, Body.types, collectionsIn], by simp⟩
    · refine ⟨?_, by simp [Body.inline, TExpr.isCollection, TExpr.collections], ?_⟩
      · simp [Body.levels, TExpr.levels, g.lib py!"Callable" (by decide)]
      · rintro t ⟨⟩; exact alnum_name_wf (by decide) (by unfold Alnum; decide)
    · split
      · refine ⟨?_, by simp [Body.inline, TExpr.isCollection, TExpr.collections], ?_⟩
        · simp [Body.levels, TExpr.levels]
        · rintro t ⟨⟩; trivial
      · exact ⟨rfl, by simp [Body.inline, Body.types, collectionsIn], by simp⟩
  · rename_i n e
    rw [e] at hkd
    refine ⟨by simp [Body.levels, TExpr.levels, aHeight, e], by simp [Body.inline, TExpr.isCollection, TExpr.collections], ?_⟩
    rintro t ⟨⟩
    exact ⟨ident_check (by decide), by decide, class_wf hkd⟩
  · rename_i e
    refine ⟨by simp [Body.levels, TExpr.levels, aHeight, e, g.lib py!"ModuleType" (by decide)],
      by simp [Body.inline, TExpr.isCollection, TExpr.collections], ?_⟩
    rintro t ⟨⟩; exact alnum_name_wf (by decide) (by unfold Alnum; decide)
  · rename_i e
    refine ⟨by simp [Body.levels, TExpr.levels, aHeight, e, g.lib py!"TextIO" (by decide)],
      by simp [Body.inline, TExpr.isCollection, TExpr.collections], ?_⟩
    rintro t ⟨⟩; exact alnum_name_wf (by decide) (by unfold Alnum; decide)
  · rename_i d e
    rw [e] at hkd
    refine ⟨by simp [Body.levels, TExpr.levels, aHeight, e], by simp [Body.inline, TExpr.isCollection, TExpr.collections], ?_⟩
    rintro t ⟨⟩
    refine ⟨?_, ?_⟩ <;> intro hm <;> simp only [List.mem_append] at hm <;> rcases hm with (hm | hm) | hm
    · revert hm; decide
    · exact (plainName_not hkd).1 hm
    · revert hm; decide
    · revert hm; decide
    · exact (plainName_not hkd).2.1 hm
    · revert hm; decide
  · rename_i e
    refine ⟨?_, ?_, ?_⟩
    · rw [aHeight_some (by rw [e])]; exact aTuple_levels g hk
    · intro x hx
      simp only [Body.inline, aTuple_isCollection, if_true] at hx
      exact aTuple_inner hk hx
    · rintro t ⟨⟩; exact aTuple_wf hw
  · rename_i k hne e
    refine ⟨?_, ?_, ?_⟩
    · rw [aHeight_some (by rw [e])]
      simp only [Body.levels, TExpr.levels, if_neg (seqCon_type E.S k)]
      rw [aAlias_levels g hk]
    · intro x hx
      simp only [Body.inline, TExpr.isCollection, TExpr.collections, if_neg (seqCon_type E.S k), ne_eq, seqCon_type E.S k,
        not_false_eq_true, decide_true, if_true, List.tail_cons] at hx
      exact aAlias_collections hk hx
    · rintro t ⟨⟩
      have : k ≠ .tuple := by rintro rfl; exact hne rfl
      exact ⟨(seqCon_ident this).1, (seqCon_ident this).2, aAlias_wf hw⟩
  · rename_i data m e
    rw [aHeight_some (by rw [e])]
    split
    · have ht := entries_types (E := E) (m := m) (keys := h.slots.map (·.key)) (kids := kids) (by
        intro k hkm
        obtain ⟨s, hs, rfl⟩ := List.mem_map.mp hkm
        exact (hh.2.2.1 s hs).1) (by simpa using hl) (fun k hkm => (hk k hkm).camel)
      refine ⟨?_, ?_, by simp [recordBody]⟩
      · simp only [recordBody, Body.levels]
        rw [ht, levelsMax_eq, List.map_map]
        congr 2
        exact List.map_congr_left (fun k hkm => (hk k hkm).ref)
      · intro x hx
        simp only [recordBody, Body.inline, Body.types] at hx
        rw [ht] at hx
        obtain ⟨t, htm, hx⟩ := mem_collectionsIn.mp hx
        obtain ⟨k, hkm, rfl⟩ := List.mem_map.mp htm
        exact (hk k hkm).inl x hx
    · refine ⟨map_levels (h := h) g hk, hmi, ?_⟩
      rintro t ⟨⟩; exact hmw
  · rename_i e
    rw [aHeight_some (by rw [e])]
    refine ⟨map_levels (h := h) g hk, hmi, ?_⟩
    rintro t ⟨⟩; exact hmw
  · rename_i e
    rw [e] at hkd
    exact hkd.elim

/-- A node that is not declared is not higher than allowed, and is written as an alias. -/
theorem not_perm {E : Env} {h : Hdr} {kids : List AOut} (hf : ∀ i, h.kind ≠ .frame i) (hp : ¬ (aCombine E h kids).perm = true) :
    aHeight h (iterate h.slots kids) ≤ E.S.minHeight ∧ ∃ t, aBody E h kids = .alias t := by
  have hp : ¬ permOf E.S h (aHeight h (iterate h.slots kids)) = true := hp
  have base : ∀ {b : Bool}, ¬ (b || decide (aHeight h (iterate h.slots kids) > E.S.minHeight)) = true →
      aHeight h (iterate h.slots kids) ≤ E.S.minHeight := by
    intro b hb
    rw [Bool.or_eq_true, decide_eq_true_eq] at hb
    omega
  unfold permOf at hp
  unfold aBody
  dsimp only at hp ⊢
  cases hkd : h.kind with
  | func f => rw [hkd] at hp; exact absurd rfl hp
  | frame i => exact absurd hkd (hf i)
  | seq k => rw [hkd] at hp; exact ⟨base hp, by cases k <;> exact ⟨_, rfl⟩⟩
  | proxy => rw [hkd] at hp; exact ⟨base hp, _, rfl⟩
  | dict data m =>
    rw [hkd] at hp
    dsimp only at hp ⊢
    cases ht : m.isTyped E.S with
    | true => rw [ht] at hp; simp at hp
    | false =>
      rw [ht, Bool.false_or] at hp
      exact ⟨base hp, _, rfl⟩
  | _ => exact ⟨by simp [aHeight, hkd], _, rfl⟩

theorem lev_combine {E : Env} {T : Str → Nat} (g : Ground E T) {root : Str} {h : Hdr} {kids : List AOut} (hh : LevelHdr root h)
    (hl : h.slots.length = kids.length) (hk : ∀ k ∈ kids, Lev E T k)
    (hT : (aCombine E h kids).perm = true → T h.name = (aBody E h kids).levels T) : Lev E T (aCombine E h kids) := by
  obtain ⟨h1, h2, h3⟩ := body_levels g hh hl hk
  have hf : ∀ i, h.kind ≠ .frame i := by
    intro i e
    have := hh.2.2.2
    rw [e] at this
    exact this
  by_cases hp : (aCombine E h kids).perm = true
  · have hr : aref (aCombine E h kids) = .name h.name := by unfold aref; rw [if_pos hp]; rfl
    refine ⟨hh.1.1, ?_, ?_, h1, ?_, h2⟩
    · rw [hr]; exact camel_wf hh.1.1
    · rw [hr]
      simp only [TExpr.levels]
      rw [hT hp, h1]
      rfl
    · rw [hr]; simp [TExpr.collections]
  · obtain ⟨hle, t, ht⟩ := not_perm hf hp
    have hr : aref (aCombine E h kids) = t := by
      unfold aref
      rw [if_neg hp]
      show (match aBody E h kids with | .alias t => t | _ => _) = t
      rw [ht]
    rw [ht] at h1 h2
    refine ⟨hh.1.1, ?_, ?_, ?_, ?_, ?_⟩
    · rw [hr]; exact h3 t ht
    · rw [hr]; exact h1
    · show (aBody E h kids).levels T = _
      rw [ht]; exact h1
    · rw [hr]
      intro x hx
      rcases collections_split hx with ⟨rfl, _⟩ | hx
      · have h1 : x.levels T = _ := h1
        omega
      · exact h2 x hx
    · show ∀ x ∈ (aBody E h kids).inline, _
      rw [ht]; exact h2

/-- The declarations of a tree that are aliases of collections, other than that of the root. -/
def High (E : Env) (T : Str → Nat) (d : TDecl) : Prop :=
  ∀ t, d.body = .alias t → t.isCollection = true → E.S.minHeight < T d.name

/-- What is written out in a declaration is low. -/
def Low (E : Env) (T : Str → Nat) (d : TDecl) : Prop := ∀ x ∈ d.body.inline, x.levels T ≤ E.S.minHeight

/-- A declared node below the root that is an alias of a collection is higher than the limit. -/
theorem perm_high {E : Env} {h : Hdr} {kids : List AOut} (hr : h.root = false) (hp : (aCombine E h kids).perm = true) {t : TExpr}
    (ht : aBody E h kids = .alias t) (hc : t.isCollection = true) : E.S.minHeight < aHeight h (iterate h.slots kids) := by
  have hp : permOf E.S h (aHeight h (iterate h.slots kids)) = true := hp
  unfold permOf at hp
  unfold aBody at ht
  dsimp only at hp ht
  rw [hr] at hp
  simp only [Bool.false_or] at hp
  cases hkd : h.kind with
  | func f =>
    rw [hkd] at ht
    simp only [funcBody] at ht
    split at ht
    · cases ht
    · injection ht with ht; subst ht; cases hc
    · split at ht
      · injection ht with ht; subst ht; cases hc
      · cases ht
  | seq k => rw [hkd] at hp; simpa using hp
  | proxy => rw [hkd] at hp; simpa using hp
  | frame i =>
    rw [hkd] at ht
    simp only [frameBody] at ht
    split at ht
    · injection ht with ht; subst ht; cases hc
    · cases ht
  | dict data m =>
    rw [hkd] at hp ht
    dsimp only at hp ht
    cases hty : m.isTyped E.S with
    | true => rw [hty] at ht; simp [recordBody] at ht
    | false => rw [hty] at hp; simpa using hp
  | _ => rw [hkd] at hp; cases hp

theorem kids_emitted {E : Env} {h : Hdr} {kids : List AOut} (hi : iterate h.slots kids = kids) {k : AOut} (hk : k ∈ kids)
    {d : TDecl} (hd : d ∈ k.decls) : d ∈ (aCombine E h kids).emitted := by
  show d ∈ aEmit h (aCombine E h kids).perm ⟨h.name, aBody E h kids⟩ kids
  unfold aEmit
  rw [if_neg (by intro e; rw [List.isEmpty_iff] at e; rw [e] at hk; cases hk), hi]
  exact List.mem_append_left _ (List.mem_flatMap.mpr ⟨k, hk, hd⟩)

theorem decls_perm {E : Env} {h : Hdr} {kids : List AOut} {d : TDecl} (hd : d ∈ (aCombine E h kids).decls) :
    (d = ⟨h.name, aBody E h kids⟩ ∧ (aCombine E h kids).perm = true) ∨ ∃ k ∈ kids, d ∈ k.decls := by
  have top : d ∈ (if (aCombine E h kids).perm then [(aCombine E h kids).decl] else []) →
      d = ⟨h.name, aBody E h kids⟩ ∧ (aCombine E h kids).perm = true := by
    intro hd
    split at hd
    · rename_i hp; exact ⟨List.mem_singleton.mp hd, hp⟩
    · simp at hd
  rcases List.mem_append.mp hd with hd | hd
  · have hd : d ∈ aEmit h (aCombine E h kids).perm ⟨h.name, aBody E h kids⟩ kids := hd
    unfold aEmit at hd
    split at hd
    · split at hd
      · rename_i hp
        rw [Bool.and_eq_true] at hp
        exact .inl ⟨by simpa using hd, hp.2⟩
      · simp at hd
    · rcases List.mem_append.mp hd with hd | hd
      · obtain ⟨k, hk, hd⟩ := List.mem_flatMap.mp hd
        exact .inr ⟨k, mem_iterate hk, hd⟩
      · exact .inl (top hd)
  · exact .inl (top hd)

mutual
/-- Nodes below the root. -/
theorem lev_node {E : Env} {T : Str → Nat} (g : Ground E T) {root : Str} : ∀ (n : Node), NodeAll (LevelHdr root) n → Formed n →
    (∀ d ∈ (n.abs E).decls, T d.name = d.body.levels T) →
    Lev E T (n.abs E) ∧ ∀ d ∈ (n.abs E).decls, High E T d ∧ Low E T d
  | .mk h kids, hh, hf, hT => by
    rw [Node.abs] at hT ⊢
    have hlen : h.slots.length = (absList E kids).length := by rw [absList_eq_map, List.length_map]; exact hf.2.1
    have hks := lev_nodes g kids hh.2 hf.2.2 (fun k hk d hd => hT d (List.mem_append_left _
      (kids_emitted (iterate_kids (fun s hs => (hh.1.2.2.1 s hs).1) hlen) hk hd)))
    have hown : (aCombine E h (absList E kids)).perm = true →
        T h.name = (aBody E h (absList E kids)).levels T := by
      intro hp
      exact hT (aCombine E h (absList E kids)).decl (List.mem_append_right _ (by rw [if_pos hp]; simp))
    have hl : Lev E T (aCombine E h (absList E kids)) := lev_combine g hh.1 hlen (fun k hk => (hks k hk).1) hown
    refine ⟨hl, ?_⟩
    intro d hd
    rcases decls_perm hd with ⟨rfl, hp⟩ | ⟨k, hk, hd⟩
    · refine ⟨?_, hl.inside⟩
      intro t ht hc
      have := perm_high hf.1 hp ht hc
      have h2 : (aBody E h (absList E kids)).levels T = aHeight h (iterate h.slots (absList E kids)) := hl.body
      show _ < T h.name
      rw [hown hp, h2]
      exact this
    · exact (hks k hk).2 d hd
theorem lev_nodes {E : Env} {T : Str → Nat} (g : Ground E T) {root : Str} : ∀ (l : List Node), NodeAllList (LevelHdr root) l →
    FormedList l → (∀ k ∈ absList E l, ∀ d ∈ k.decls, T d.name = d.body.levels T) →
    ∀ k ∈ absList E l, Lev E T k ∧ ∀ d ∈ k.decls, High E T d ∧ Low E T d
  | [], _, _, _, k, hk => by simp [absList] at hk
  | n :: r, hh, hf, hT, k, hk => by
    rw [absList] at hk
    rcases List.mem_cons.mp hk with rfl | hk
    · exact lev_node g n hh.1 hf.1 (hT _ (by simp [absList]))
    · exact lev_nodes g r hh.2 hf.2 (fun k hk => hT k (by simp [absList, hk])) k hk
end

/-- The root. -/
theorem lev_root {E : Env} {T : Str → Nat} (g : Ground E T) {root : Str} {n : Node} (hh : NodeAll (LevelHdr root) n)
    (hf : Under true n) (hT : ∀ d ∈ (n.abs E).decls, T d.name = d.body.levels T) :
    Lev E T (n.abs E) ∧ ∀ d ∈ (n.abs E).emitted, Low E T d ∧ (d = (n.abs E).decl ∨ High E T d) := by
  cases n with
  | mk h kids =>
    obtain ⟨hr, hlen, hfl⟩ := hf
    rw [Node.abs] at hT ⊢
    have hlen : h.slots.length = (absList E kids).length := by rw [absList_eq_map, List.length_map]; exact hlen
    have hks := lev_nodes g kids hh.2 hfl (fun k hk d hd => hT d (List.mem_append_left _
      (kids_emitted (iterate_kids (fun s hs => (hh.1.2.2.1 s hs).1) hlen) hk hd)))
    have hown : (aCombine E h (absList E kids)).perm = true →
        T h.name = (aBody E h (absList E kids)).levels T := by
      intro hp
      exact hT (aCombine E h (absList E kids)).decl (List.mem_append_right _ (by rw [if_pos hp]; simp))
    have hl : Lev E T (aCombine E h (absList E kids)) := lev_combine g hh.1 hlen (fun k hk => (hks k hk).1) hown
    refine ⟨hl, ?_⟩
    intro d hd
    rcases decls_perm (List.mem_append_left _ hd) with ⟨rfl, hp⟩ | ⟨k, hk, hd⟩
    · exact ⟨hl.inside, .inl rfl⟩
    · exact ⟨((hks k hk).2 d hd).2, .inr ((hks k hk).2 d hd).1⟩

/-! ### The invariant -/

/-- The data. -/
def LevelData (v : Val) : Prop :=
  ValAll NeatTy (fun k => (∃ x, k = .str x) ∧ NeatKey k) (fun _ => True) v ∧ Every (fun w => match w with
    | .map (.frame _) _ _ _ => False
    | .cls _ n | .ndarray _ n => PlainName n
    | _ => True) v

mutual
/-- Data with clear names and without frames has string keys. -/
theorem clear_data {S : Strategies} {p : Val → Prop} (hp : ∀ w, p w → WellKeyed S w) : ∀ (v : Val), Every p v → PlainlyNamed v →
    NoFrames v → Neat v → LevelData v
  | .inst .., _, _, _, hn => ⟨hn, trivial⟩
  | .func _, _, _, _, hn => ⟨hn, trivial⟩
  | .cls .., _, hc, _, hn => ⟨hn, hc⟩
  | .ndarray .., _, hc, _, hn => ⟨hn, hc⟩
  | .module _, _, _, _, hn => ⟨hn, trivial⟩
  | .io _, _, _, _, hn => ⟨hn, trivial⟩
  | .seq _ _ es, hv, hc, hq, hn =>
    have ih := clear_datas hp es hv.2 hc.2 hq.2 hn.2
    ⟨⟨hn.1, ih.1⟩, trivial, ih.2⟩
  | .map k _ ks vs, hv, hc, hq, hn => by
    have ih := clear_datas hp vs hv.2 hc.2 hq.2 hn.2.2
    have hw := hp _ hv.1
    have hks : (∀ x ∈ ks, ∃ s, x = .str s) ∧ ∀ i, k ≠ .frame i := by
      have hs : (∀ x ∈ ks, x.hidden = true ∨ AlphaKey x) → ∀ x ∈ ks, ∃ s, x = .str s := by
        intro h x hx
        cases x with
        | str s => exact ⟨s, rfl⟩
        | none => rcases h _ hx with h | h <;> cases h
        | other t r => rcases h _ hx with h | h <;> cases h
      cases k with
      | frame i => exact hq.1.elim
      | dict => exact ⟨hs hw.2.2, by simp⟩
      | proxy => exact ⟨hs hw.2.2, by simp⟩
    refine ⟨⟨hn.1, fun x hx => ⟨hks.1 x hx, hn.2.1 x hx⟩, ih.1⟩, ?_, ih.2⟩
    cases k with
    | frame i => exact absurd rfl (hks.2 i)
    | _ => trivial
theorem clear_datas {S : Strategies} {p : Val → Prop} (hp : ∀ w, p w → WellKeyed S w) : ∀ (l : List Val), EveryList p l →
    EveryList (fun w => match w with
      | .cls _ n | .ndarray _ n => PlainName n
      | _ => True) l → EveryList (fun w => match w with
      | .map (.frame _) _ _ _ => False
      | _ => True) l → ValAllList NeatTy NeatKey (fun _ => True) l →
    ValAllList NeatTy (fun k => (∃ x, k = .str x) ∧ NeatKey k) (fun _ => True) l ∧ EveryList (fun w => match w with
      | .map (.frame _) _ _ _ => False
      | .cls _ n | .ndarray _ n => PlainName n
      | _ => True) l
  | [], _, _, _, _ => ⟨trivial, trivial⟩
  | v :: r, hv, hc, hq, hn =>
    have h1 := clear_data hp v hv.1 hc.1 hq.1 hn.1
    have h2 := clear_datas hp r hv.2 hc.2 hq.2 hn.2
    ⟨⟨h1.1, h2.1⟩, h1.2, h2.2⟩
end

theorem level_inv {E : Env} {root : Str} : Inv E LevelData (fun k v => ((∃ x, k = .str x) ∧ NeatKey k) ∧ LevelData v)
    (NameP root) (LevelHdr root) (fun _ => True) where
  seqElem h he := ⟨valAllList_iff.mp h.1.2 _ he, everyList_iff.mp h.2.2 _ he⟩
  mapEntry h hkv := ⟨h.1.2.1 _ (List.of_mem_zip hkv).1, valAllList_iff.mp h.1.2.2 _ (List.of_mem_zip hkv).2,
    everyList_iff.mp h.2.2 _ (List.of_mem_zip hkv).2⟩
  entry h := h.2
  dict h := ⟨valAll_dict ⟨by decide, by decide⟩ (fun kv hkv => ⟨(h kv hkv).1, (h kv hkv).2.1⟩), trivial, by
    rw [everyList_iff]
    intro v hv
    obtain ⟨kv, hkv, rfl⟩ := List.mem_map.mp hv
    exact (h kv hkv).2.2⟩
  nameElem hs hv := hs.append (Alnum.capitalize (valAll_ty hv.1).2)
  nameNum hs := hs.append (alnum_natStr _)
  nameKey := by
    intro s k v hs hk
    refine hs.append ?_
    obtain ⟨⟨x, rfl⟩, hk⟩ := hk.1
    exact alnum_toCamel (fun c hc => (hk c hc).1)
  nameLabel := by
    intro s k v hs hk
    refine hs.append ?_
    obtain ⟨⟨x, rfl⟩, hk⟩ := hk.1
    unfold labelSuffix
    dsimp only
    split
    · intro c hc; revert c; decide
    · exact alnum_toCamel (fun c hc => (hk c hc).1)
  nameTy hs hh := hs.append (Alnum.capitalize hh.2.1.2)
  rename hh hn := ⟨hn.renameTimes _ hh.1, hh.2.1, hh.2.2⟩
  hdr := by
    intro name v root' slots hn hv hsl
    refine ⟨hn, valAll_ty hv.1, ?_, ?_⟩
    · intro s hs
      rcases hsl s hs with h | ⟨w, h, _⟩
      · rw [h]; exact ⟨⟨_, rfl⟩, by intro c hc; simp at hc⟩
      · exact h
    · cases v with
      | cls m c => exact hv.2
      | ndarray m c => exact hv.2
      | map k t ks vs => cases k <;> first | trivial | exact hv.2.1
      | seq => trivial
      | _ => trivial
  merge hh _ _ := ⟨hh.1, hh.2.1, hh.2.2.1, trivial⟩
  bad _ _ _ := trivial
  sig _ _ := trivial
  noTrees _ := trivial

theorem level_hdrs {E : Env} (hE : E.Fair) {name : Str} {v : Val} (hc : CamelName name) (hv : LevelData v) {f : Nat} {root : Bool}
    {n : Node} (hb : build E f root name v = .ok n) (hd : v.depth < f) : NodeAll (LevelHdr name) n := by
  have h := build_ens hE (level_inv (root := name)) f root name v ⟨hc, List.prefix_rfl⟩ hv hd
  rw [hb] at h
  exact h.1.1

end Verif
