import Verif.Model.Imports
import Verif.Spec.Imports
import Verif.Lemmas.ListStr
/- Helper lemmas about grouping and formatting imports. -/
namespace Verif
open Spec

/-- Names listed for a package. -/
def namesOf (prs : List (Str × Str)) (p : Str) : List Str := (prs.filter (fun e => e.1 == p)).map (·.2)

theorem namesOf_append (a b : List (Str × Str)) (p : Str) : namesOf (a ++ b) p = namesOf a p ++ namesOf b p := by
  simp [namesOf]

def flat (g : List (Str × List Str)) : List (Str × Str) := g.flatMap fun e => e.2.map fun n => (e.1, n)

structure Good (prs : List (Str × Str)) (g : List (Str × List Str)) : Prop where
  nodup : (g.map (·.1)).Nodup
  names : ∀ e ∈ g, e.2 = namesOf prs e.1
  keys : ∀ p, p ∈ g.map (·.1) ↔ p ∈ prs.map (·.1)
  ne : ∀ e ∈ g, e.2 ≠ []
  perm : (flat g).Perm prs

theorem keys_addTo (p n : Str) : ∀ g, (addTo p n g).map (·.1) = if p ∈ g.map (·.1) then g.map (·.1) else g.map (·.1) ++ [p]
  | [] => by simp [addTo]
  | (q, ns) :: r => by
    have ih := keys_addTo p n r
    by_cases h : q = p
    · simp [addTo, h]
    · have h' : ¬ p = q := fun e => h e.symm
      simp only [addTo, h, if_false, List.map_cons, ih, List.mem_cons, h', false_or]
      by_cases hm : p ∈ r.map (·.1)
      · rw [if_pos hm, if_pos hm]
      · rw [if_neg hm, if_neg hm]; rfl

theorem flat_addTo (p n : Str) : ∀ g, (flat (addTo p n g)).Perm (flat g ++ [(p, n)])
  | [] => by simp [addTo, flat]
  | (q, ns) :: r => by
    have ih := flat_addTo p n r
    by_cases h : q = p
    · subst h
      simp only [addTo, if_true, flat, List.flatMap_cons, List.map_append, List.append_assoc]
      refine List.Perm.append_left _ ?_
      exact List.perm_append_comm
    · simp only [addTo, h, if_false, flat, List.flatMap_cons, List.append_assoc]
      exact List.Perm.append_left _ ih

theorem mem_addTo {p n : Str} {e : Str × List Str} : ∀ {g : List (Str × List Str)}, (g.map (·.1)).Nodup → e ∈ addTo p n g →
    (e.1 ≠ p ∧ e ∈ g) ∨ (e.1 = p ∧ ((∃ ns, (p, ns) ∈ g ∧ e.2 = ns ++ [n]) ∨ (p ∉ g.map (·.1) ∧ e.2 = [n])))
  | [], _, h => by simp [addTo] at h; subst h; simp
  | (q, ns) :: r, hn, h => by
    simp only [List.map_cons, List.nodup_cons] at hn
    by_cases hq : q = p
    · subst hq
      simp only [addTo, if_true, List.mem_cons] at h
      rcases h with h | h
      · subst h; exact .inr ⟨rfl, .inl ⟨ns, by simp, rfl⟩⟩
      · refine .inl ⟨fun he => hn.1 ?_, by simp [h]⟩
        exact List.mem_map.2 ⟨e, h, he⟩
    · simp only [addTo, hq, if_false, List.mem_cons] at h
      rcases h with h | h
      · subst h; exact .inl ⟨hq, by simp⟩
      · rcases mem_addTo hn.2 h with ⟨h1, h2⟩ | ⟨h1, ⟨ns', h2, h3⟩ | ⟨h2, h3⟩⟩
        · exact .inl ⟨h1, by simp [h2]⟩
        · exact .inr ⟨h1, .inl ⟨ns', by simp [h2], h3⟩⟩
        · refine .inr ⟨h1, .inr ⟨?_, h3⟩⟩
          simp only [List.map_cons, List.mem_cons, not_or]
          exact ⟨fun e => hq e.symm, h2⟩

theorem namesOf_not_mem {prs : List (Str × Str)} {p : Str} (h : p ∉ prs.map (·.1)) : namesOf prs p = [] := by
  simp only [namesOf, List.map_eq_nil_iff, List.filter_eq_nil_iff, beq_iff_eq]
  intro a ha e; exact h (List.mem_map.2 ⟨a, ha, e⟩)

theorem Good.add {prs g} (hg : Good prs g) (p n : Str) : Good (prs ++ [(p, n)]) (addTo p n g) where
  nodup := by
    rw [keys_addTo]
    split
    · exact hg.nodup
    · rename_i h
      rw [List.nodup_append]
      refine ⟨hg.nodup, by simp, ?_⟩
      intro a ha b hb; simp at hb; subst hb; intro e; subst e; exact h ha
  names := by
    intro e he
    rw [namesOf_append]
    rcases mem_addTo hg.nodup he with ⟨h1, h2⟩ | ⟨h1, ⟨ns, h2, h3⟩ | ⟨h2, h3⟩⟩
    · have : namesOf [(p, n)] e.1 = [] := by
        have : (p == e.1) = false := by simpa using fun h => h1 h.symm
        simp [namesOf, this]
      rw [this, List.append_nil]; exact hg.names e h2
    · have := hg.names _ h2
      simp only at this
      rw [h3, h1, this]; simp [namesOf]
    · have : p ∉ prs.map (·.1) := fun h => h2 ((hg.keys p).2 h)
      rw [h3, h1, namesOf_not_mem this]; simp [namesOf]
  keys := by
    intro q
    rw [keys_addTo]
    have := hg.keys q
    have hp := hg.keys p
    split
    · rename_i h
      rw [this, List.map_append, List.mem_append]
      constructor
      · exact .inl
      · rintro (h' | h')
        · exact h'
        · simp at h'; subst h'; exact hp.1 h
    · simp only [List.map_append, List.mem_append, this]; simp
  ne := by
    intro e he
    rcases mem_addTo hg.nodup he with ⟨h1, h2⟩ | ⟨h1, ⟨ns, h2, h3⟩ | ⟨h2, h3⟩⟩
    · exact hg.ne e h2
    · rw [h3]; simp
    · rw [h3]; simp
  perm := (flat_addTo p n g).trans (List.Perm.append_right _ hg.perm)

theorem groupImports_good : ∀ {kws : List Str} {acc : List (Str × List Str)} {prs : List (Str × Str)} {g : List (Str × List Str)}, Good prs acc → groupImports acc kws = .ok g →
    Good (prs ++ kws.filterMap packageOf) g ∧ ∀ kw ∈ kws, (packageOf kw).isSome
  | [], acc, prs, g, h, hg => by
    simp [groupImports] at hg; subst hg; simpa using h
  | kw :: r, acc, prs, g, h, hg => by
    simp only [groupImports] at hg
    cases hk : packageOf kw with
    | none => simp [hk] at hg
    | some pn =>
      obtain ⟨p, n⟩ := pn
      simp only [hk] at hg
      have := groupImports_good (h.add p n) hg
      refine ⟨?_, ?_⟩
      · simpa [List.filterMap_cons, hk] using this.1
      · intro k hk'
        rcases List.mem_cons.1 hk' with rfl | hk'
        · simp [hk]
        · exact this.2 k hk'

theorem good_nil : Good [] [] := ⟨by simp, by simp, by simp, by simp, by simp [flat]⟩

theorem groupImports_ok : ∀ {kws : List Str} {acc : List (Str × List Str)}, (∀ kw ∈ kws, (packageOf kw).isSome) → ∃ g, groupImports acc kws = .ok g
  | [], acc, _ => ⟨acc, rfl⟩
  | kw :: r, acc, h => by
    have h1 := h kw (by simp)
    cases hk : packageOf kw with
    | none => simp [hk] at h1
    | some pn =>
      simp only [groupImports, hk]
      exact groupImports_ok fun k hk => h k (by simp [hk])

/-- What a table entry stands for. -/
def convert (e : Str × Str) : Str × Str :=
  if e = (py!"pandas", py!"pandas") then (py!"pandas", py!"pd")
  else if e = (py!"npt", py!"npt") then (py!"numpy.typing", py!"npt")
  else if e = (py!"numpy", py!"numpy") then (py!"numpy", py!"np")
  else e

theorem known_iff (kw : Str) : Known kw ↔ (packageOf kw).isSome = true := by
  constructor
  · rintro ⟨b, hb⟩
    have : ∀ e ∈ symbolTable, (packageOf e.1).isSome = true := by decide
    exact this _ hb
  · intro h
    simp only [packageOf, Option.isSome_map, List.find?_isSome, beq_iff_eq] at h
    obtain ⟨e, he, rfl⟩ := h
    have : ∀ e ∈ packageTable, e.1 ∈ symbolTable.map (·.1) := by decide
    obtain ⟨x, hx, h⟩ := List.mem_map.1 (this e he)
    exact ⟨x.2, by rw [← h]; exact hx⟩

theorem packageOf_mem {kw : Str} {pn} (h : packageOf kw = some pn) : (kw, pn) ∈ packageTable := by
  simp only [packageOf, Option.map_eq_some_iff] at h
  obtain ⟨e, he, rfl⟩ := h
  have h1 := List.find?_some he
  simp at h1; subst h1
  exact List.mem_of_find?_eq_some he

theorem bindingOf_eq {kw : Str} {pn} (h : packageOf kw = some pn) : bindingOf kw = convert pn := by
  have : ∀ e ∈ packageTable, bindingOf e.1 = convert e.2 := by decide
  exact this _ (packageOf_mem h)

theorem packageOf_inj {a b : Str} {pn} (ha : packageOf a = some pn) (hb : packageOf b = some pn) : a = b := by
  have : ∀ e ∈ packageTable, ∀ f ∈ packageTable, e.2 = f.2 → e.1 = f.1 := by decide
  exact this _ (packageOf_mem ha) _ (packageOf_mem hb) rfl

theorem nodup_filterMap_packageOf : ∀ {kws : List Str}, kws.Nodup → (kws.filterMap packageOf).Nodup
  | [], _ => by simp
  | kw :: r, h => by
    have ⟨h1, h2⟩ := List.nodup_cons.1 h
    have ih := nodup_filterMap_packageOf h2
    rw [List.filterMap_cons]
    split
    · exact ih
    · rename_i b hb
      rw [List.nodup_cons]
      refine ⟨fun hm => ?_, ih⟩
      obtain ⟨a, ha, ha'⟩ := List.mem_filterMap.1 hm
      exact h1 (packageOf_inj hb ha' ▸ ha)

theorem mem_pairs {kws : List Str} {pn} (h : pn ∈ kws.filterMap packageOf) : pn ∈ packageTable.map (·.2) := by
  obtain ⟨a, _, ha⟩ := List.mem_filterMap.1 h
  exact List.mem_map.2 ⟨_, packageOf_mem ha, rfl⟩

/-- Packages imported in the form `import x as y`. -/
def specials : List (Str × Str) :=
  [(py!"pandas", py!"pandas"), (py!"npt", py!"npt"), (py!"numpy", py!"numpy")]

theorem nodup_all_eq {α} {l : List α} {a : α} (hn : l.Nodup) (hne : l ≠ []) (h : ∀ x ∈ l, x = a) : l = [a] := by
  match l, hne with
  | [x], _ => rw [h x (by simp)]
  | x :: y :: r, _ =>
    have h1 := h x (by simp); have h2 := h y (by simp)
    subst h1; subst h2; simp at hn

/-- Every group is one of the three alias imports, alone, or contains none of their names. -/
theorem group_cases {kws : List Str} {g : List (Str × List Str)} (hn : kws.Nodup) (hg : Good (kws.filterMap packageOf) g) {e} (he : e ∈ g) :
    (∃ s ∈ specials, e = (s.1, [s.2])) ∨
    (∀ n ∈ e.2, (e.1, n) ∈ kws.filterMap packageOf ∧ (e.1, n) ∈ packageTable.map (·.2) ∧ n ∉ specials.map (·.2)) := by
  have hmem : ∀ n ∈ e.2, (e.1, n) ∈ kws.filterMap packageOf := by
    intro n hn'
    exact hg.perm.mem_iff.1 (List.mem_flatMap.2 ⟨e, he, List.mem_map.2 ⟨n, hn', rfl⟩⟩)
  have hnd : e.2.Nodup := by
    rw [hg.names e he]
    have h1 : ((kws.filterMap packageOf).filter (fun x => x.1 == e.1)).Nodup :=
      (nodup_filterMap_packageOf hn).sublist List.filter_sublist
    refine List.Pairwise.map _ ?_ (List.Pairwise.and_mem.1 h1)
    rintro a b ⟨ha, hb, hab⟩ h
    simp only [List.mem_filter, beq_iff_eq] at ha hb
    exact hab (Prod.ext (ha.2.trans hb.2.symm) h)
  by_cases hs : e.1 ∈ specials.map (·.1)
  · left
    obtain ⟨s, hs, h1⟩ := List.mem_map.1 hs
    refine ⟨s, hs, Prod.ext h1.symm ?_⟩
    refine nodup_all_eq hnd (hg.ne e he) fun n hn' => ?_
    have h2 := mem_pairs (hmem n hn')
    have : ∀ s ∈ specials, ∀ x ∈ packageTable.map (·.2), x.1 = s.1 → x.2 = s.2 := by decide
    exact this s hs _ h2 h1.symm
  · right
    intro n hn'
    have h2 := mem_pairs (hmem n hn')
    refine ⟨hmem n hn', h2, fun h => hs ?_⟩
    have : ∀ x ∈ packageTable.map (·.2), x.2 ∈ specials.map (·.2) → x.1 ∈ specials.map (·.1) := by decide
    exact this _ h2 h

/-! ### Sorting the groups -/

theorem insertBy_map {α β} (f : α → β) (le : α → α → Bool) (le' : β → β → Bool) (h : ∀ a b, le' (f a) (f b) = le a b)
    (x : α) : ∀ l, (insertBy le x l).map f = insertBy le' (f x) (l.map f)
  | [] => rfl
  | y :: r => by
    simp only [insertBy, List.map_cons, h]
    split
    · rfl
    · simp [insertBy_map f le le' h x r]

theorem sortBy_map {α β} (f : α → β) (le : α → α → Bool) (le' : β → β → Bool) (h : ∀ a b, le' (f a) (f b) = le a b) :
    ∀ l, (sortBy le l).map f = sortBy le' (l.map f)
  | [] => rfl
  | x :: r => by simp only [sortBy, List.map_cons, insertBy_map f le le' h, sortBy_map f le le' h r]

def keyLe {α} (a b : Str × α) : Bool := strLe a.1 b.1

theorem keyLe_total {α} (a b : Str × α) : keyLe a b = true ∨ keyLe b a = true := strLe_total _ _
theorem keyLe_trans {α} (a b c : Str × α) (h : keyLe a b = true) (h' : keyLe b c = true) : keyLe a c = true :=
  strLe_trans _ _ _ h h'

theorem eq_of_key_eq {α} {l : List (Str × α)} (hn : (l.map (·.1)).Nodup) {a b} (ha : a ∈ l) (hb : b ∈ l)
    (h : a.1 = b.1) : a = b := by
  induction l with
  | nil => simp at ha
  | cons x r ih =>
    simp only [List.map_cons, List.nodup_cons] at hn
    rcases List.mem_cons.1 ha with rfl | ha' <;> rcases List.mem_cons.1 hb with rfl | hb'
    · rfl
    · exact absurd (List.mem_map.2 ⟨b, hb', h.symm⟩) hn.1
    · exact absurd (List.mem_map.2 ⟨a, ha', h⟩) hn.1
    · exact ih hn.2 ha' hb'

theorem sort_keyed_eq {α} {l₁ l₂ : List (Str × α)} (hp : l₁.Perm l₂) (hn : (l₁.map (·.1)).Nodup) :
    sortBy keyLe l₁ = sortBy keyLe l₂ := by
  refine List.Perm.eq_of_pairwise (le := fun a b => keyLe a b = true) ?_
    (pairwise_sortBy keyLe_total keyLe_trans _) (pairwise_sortBy keyLe_total keyLe_trans _)
    (((perm_sortBy _ _).trans hp).trans (perm_sortBy _ _).symm)
  intro a b ha hb h1 h2
  have ha := mem_sortBy.1 ha
  have hb := hp.mem_iff.2 (mem_sortBy.1 hb)
  exact eq_of_key_eq hn ha hb (strLe_antisymm _ _ h1 h2)

theorem nodup_of_nodup_map {α β} (f : α → β) : ∀ {l : List α}, (l.map f).Nodup → l.Nodup
  | [], _ => by simp
  | a :: r, h => by
    simp only [List.map_cons, List.nodup_cons] at h
    rw [List.nodup_cons]
    exact ⟨fun hm => h.1 (List.mem_map.2 ⟨a, hm, rfl⟩), nodup_of_nodup_map f h.2⟩

theorem head?_of_all {α} {l : List α} {a : α} (h : l.head? = some a) : a ∈ l := by
  cases l with
  | nil => simp at h
  | cons b r => simp at h; simp [h]

theorem headD_mem {α} {l : List α} {d : α} (h : l ≠ []) : l.headD d ∈ l := by
  cases l with
  | nil => exact absurd rfl h
  | cons b r => simp

theorem formatPackage_plain {w : Nat} {p : Str} {ns : List Str} (hne : ns ≠ []) (h : ∀ n ∈ ns, n ∉ specials.map (·.2)) : formatPackage w p ns =
    if (py!"from " ++ p ++ py!" import " ++ join py!", " (sortStr ns)).length > w then
      py!"from " ++ p ++ py!" import (\n    " ++ join py!",\n    " (sortStr ns) ++ py!",\n)"
    else py!"from " ++ p ++ py!" import " ++ join py!", " (sortStr ns) := by
  have h1 := h _ (headD_mem (d := []) hne)
  simp only [specials, List.map_cons, List.map_nil, List.mem_cons, List.not_mem_nil, or_false, not_or] at h1
  unfold formatPackage
  simp only [h1, if_false, TAB]
  split <;> simp

theorem formatPackage_perm {w : Nat} {p : Str} {ns ns' : List Str} (hne : ns ≠ []) (h : ∀ n ∈ ns, n ∉ specials.map (·.2)) (hp : ns.Perm ns') :
    formatPackage w p ns = formatPackage w p ns' := by
  rw [formatPackage_plain hne h, formatPackage_plain (ns := ns'), sortStr_eq_of_perm hp]
  · intro e; subst e; exact hne hp.eq_nil
  · intro n hn; exact h n (hp.mem_iff.2 hn)

theorem formatTexts_eq {w : Nat} {g : List (Str × List Str)} : (sortPackages g).map (fun p => formatPackage w p.1 p.2) =
    (sortBy keyLe (g.map (fun p => (p.1, formatPackage w p.1 p.2)))).map (·.2) := by
  unfold sortPackages
  rw [← sortBy_map (fun p : Str × List Str => (p.1, formatPackage w p.1 p.2)) (fun a b => strLe a.1 b.1) keyLe
    (fun _ _ => rfl), List.map_map]
  rfl

theorem texts_perm {w : Nat} {g₁ g₂ : List (Str × List Str)} {k₁ k₂ : List Str} (hn : k₁.Nodup) (hp : k₁.Perm k₂)
    (h1 : Good (k₁.filterMap packageOf) g₁) (h2 : Good (k₂.filterMap packageOf) g₂) :
    (g₁.map (fun p => (p.1, formatPackage w p.1 p.2))).Perm (g₂.map (fun p => (p.1, formatPackage w p.1 p.2))) := by
  have hpp : (k₁.filterMap packageOf).Perm (k₂.filterMap packageOf) := hp.filterMap _
  have key : ∀ {ka kb : List Str} {ga gb : List (Str × List Str)}, ka.Nodup →
      (ka.filterMap packageOf).Perm (kb.filterMap packageOf) → Good (ka.filterMap packageOf) ga →
      Good (kb.filterMap packageOf) gb → ∀ x, x ∈ ga.map (fun p => (p.1, formatPackage w p.1 p.2)) →
      x ∈ gb.map (fun p => (p.1, formatPackage w p.1 p.2)) := by
    intro ka kb ga gb hna hpp ha hb x hx
    obtain ⟨e, he, rfl⟩ := List.mem_map.1 hx
    have hk : e.1 ∈ gb.map (·.1) := (hb.keys _).2
      ((hpp.map _).mem_iff.1 ((ha.keys _).1 (List.mem_map.2 ⟨e, he, rfl⟩)))
    obtain ⟨f, hf, hfe⟩ := List.mem_map.1 hk
    have hnames : e.2.Perm f.2 := by
      rw [ha.names e he, hb.names f hf, hfe]
      exact (hpp.filter _).map _
    refine List.mem_map.2 ⟨f, hf, ?_⟩
    rw [hfe]
    refine Prod.ext rfl ?_
    simp only
    rcases group_cases hna ha he with ⟨s, hs, h⟩ | h
    · have : e.2 = [s.2] := by rw [h]
      rw [this] at hnames ⊢
      rw [List.perm_singleton.1 hnames.symm]
    · exact (formatPackage_perm (ha.ne e he) (fun n hn => (h n hn).2.2) hnames).symm
  have hn2 : k₂.Nodup := hp.nodup_iff.1 hn
  refine perm_of_nodup_mem ?_ ?_ fun x => ⟨key hn hpp h1 h2 x, key hn2 hpp.symm h2 h1 x⟩
  · refine nodup_of_nodup_map (·.1) ?_
    simpa [List.map_map, Function.comp_def] using h1.nodup
  · refine nodup_of_nodup_map (·.1) ?_
    simpa [List.map_map, Function.comp_def] using h2.nodup

theorem formatGroups_perm {w : Nat} {g₁ g₂ : List (Str × List Str)} {k₁ k₂ : List Str} (hn : k₁.Nodup) (hp : k₁.Perm k₂)
    (h1 : Good (k₁.filterMap packageOf) g₁) (h2 : Good (k₂.filterMap packageOf) g₂) :
    formatGroups w g₁ = formatGroups w g₂ := by
  unfold formatGroups
  rw [formatTexts_eq, formatTexts_eq, sort_keyed_eq (texts_perm hn hp h1 h2)]
  simpa [List.map_map, Function.comp_def] using h1.nodup

/-- One group is printed as one statement that binds what its keywords stand for. -/
theorem package_layout (w : Nat) (hw : 26 ≤ w) {kws : List Str} {g : List (Str × List Str)} (hn : kws.Nodup)
    (hg : Good (kws.filterMap packageOf) g) {e} (he : e ∈ g) :
    ∃ st, Layout st (formatPackage w e.1 e.2) ∧ st.bindings.Perm (e.2.map fun n => convert (e.1, n)) := by
  rcases group_cases hn hg he with ⟨s, hs, rfl⟩ | h
  · simp only [specials, List.mem_cons, List.not_mem_nil, or_false] at hs
    rcases hs with rfl | rfl | rfl
    · refine ⟨.importAs py!"pandas" py!"pd", ?_, by decide⟩
      have : formatPackage w py!"pandas" [py!"pandas"] = py!"import pandas as pd" := by
        unfold formatPackage; simp; omega
      rw [this]; exact .alias _ _
    · refine ⟨.importAs py!"numpy.typing" py!"npt", ?_, by decide⟩
      have : formatPackage w py!"npt" [py!"npt"] = py!"import numpy.typing as npt" := by
        unfold formatPackage; simp; omega
      rw [this]; exact .alias _ _
    · refine ⟨.importAs py!"numpy" py!"np", ?_, by decide⟩
      have : formatPackage w py!"numpy" [py!"numpy"] = py!"import numpy as np" := by
        unfold formatPackage; simp; omega
      rw [this]; exact .alias _ _
  · have hne := hg.ne e he
    have hne' : sortStr e.2 ≠ [] := fun h0 => hne (by
      have := (sortStr_perm e.2).length_eq; rw [h0] at this; simpa using this.symm)
    refine ⟨.fromImport e.1 (sortStr e.2), ?_, ?_⟩
    · rw [formatPackage_plain hne fun n hn => (h n hn).2.2]
      split
      · exact .wrapped _ _ hne'
      · exact .oneLine _ _ hne'
    · refine ((sortStr_perm e.2).map _).trans (List.Perm.of_eq ?_)
      refine List.map_congr_left fun n hn' => ?_
      have h1 := (h n hn').2.2
      have : (e.1, n) ∉ specials := fun h' => h1 (List.mem_map.2 ⟨_, h', rfl⟩)
      simp only [specials, List.mem_cons, List.not_mem_nil, or_false, not_or] at this
      simp [convert, this]

inductive All₂ {α β} (R : α → β → Prop) : List α → List β → Prop
  | nil : All₂ R [] []
  | cons {a b l₁ l₂} : R a b → All₂ R l₁ l₂ → All₂ R (a :: l₁) (b :: l₂)

theorem block_of_layouts : ∀ {α} (l : List α) (text : α → Str) (R : ImportStmt → α → Prop),
    (∀ a ∈ l, ∃ st, Layout st (text a) ∧ R st a) → ∀ (e : Str), e ∈ [[], py!"\n"] →
    ∃ sts : List ImportStmt, All₂ R sts l ∧
      BlockText sts (match l.map text with | [] => [] | t :: ts => join py!"\n" ((t ++ e) :: ts))
  | _, [], _, _, _, _, _ => ⟨[], .nil, .nil⟩
  | _, [a], text, R, h, e, he => by
    obtain ⟨st, h1, h2⟩ := h a (by simp)
    exact ⟨[st], .cons h2 .nil, .one e h1 he⟩
  | _, a :: b :: r, text, R, h, e, he => by
    obtain ⟨st, h1, h2⟩ := h a (by simp)
    obtain ⟨sts, h3, h4⟩ := block_of_layouts (b :: r) text R (fun x hx => h x (by simp [List.mem_cons] at hx ⊢; exact .inr hx)) [] (by simp)
    refine ⟨st :: sts, .cons h2 h3, ?_⟩
    have hne : sts ≠ [] := by intro h0; subst h0; cases h3
    have := BlockText.cons e h1 he h4 hne
    simpa [join_cons_cons] using this

theorem perm_flatMap_all₂ {α β γ} {f : α → List γ} {g : β → List γ} : ∀ {l₁ : List α} {l₂ : List β},
    All₂ (fun a b => (f a).Perm (g b)) l₁ l₂ → (l₁.flatMap f).Perm (l₂.flatMap g)
  | _, _, .nil => .refl _
  | _, _, .cons h t => by
    rw [List.flatMap_cons, List.flatMap_cons]; exact h.append (perm_flatMap_all₂ t)

theorem map_bindingOf : ∀ {kws : List Str}, (∀ kw ∈ kws, (packageOf kw).isSome = true) →
    kws.map bindingOf = (kws.filterMap packageOf).map convert
  | [], _ => rfl
  | kw :: r, h => by
    have h1 := h kw (by simp)
    cases hk : packageOf kw with
    | none => simp [hk] at h1
    | some pn =>
      simp only [List.map_cons, List.filterMap_cons, hk, bindingOf_eq hk,
        map_bindingOf fun k hk' => h k (List.mem_cons_of_mem _ hk')]

/-- Length bounds for the parts of a wrapped import. -/
theorem table_lengths : ∀ x ∈ packageTable.map (·.2), x.1.length + 15 ≤ 32 ∧ x.2.length + 5 ≤ 32 ∧ '\n' ∉ x.1 ∧ '\n' ∉ x.2 := by
  decide

theorem splitChar_append {c : Char} : ∀ (a b : Str), splitChar c (a ++ c :: b) = splitChar c a ++ splitChar c b
  | [], b => by simp [splitChar]
  | d :: r, b => by
    simp only [List.cons_append, splitChar]
    by_cases h : (d == c) = true
    · simp only [h, if_true, splitChar_append r b, List.cons_append]
    · simp only [h, splitChar_append r b]
      cases hs : splitChar c r with
      | nil => exact absurd hs (splitChar_ne_nil c r)
      | cons w ws => simp

theorem table_plain : ∀ x ∈ packageTable.map (·.2), ' ' ∉ x.1 ∧ ' ' ∉ x.2 ∧ ',' ∉ x.2 := by decide

/-- Whatever holds of the opening line, the symbol lines and the closing line of a wrapped import holds of all its lines. -/
theorem lines_wrapped_all (P : Str → Prop) {p : Str} : ∀ (ns : List Str), ns ≠ [] → (∀ n ∈ ns, '\n' ∉ n ∧ P (py!"    " ++ n ++ py!",")) →
    P p → '\n' ∉ p → P py!")" →
    ∀ l ∈ splitChar '\n' (p ++ py!"\n    " ++ join py!",\n    " ns ++ py!",\n)"), P l
  | [n], _, h, hp, hp', hB => by
    intro l hl
    have hn := h n (by simp)
    have e : p ++ py!"\n    " ++ join py!",\n    " [n] ++ py!",\n)" = p ++ '\n' :: ((py!"    " ++ n ++ py!",") ++ '\n' :: py!")") := by
      simp
    rw [e, splitChar_append, splitChar_append, splitChar_free hp', splitChar_free, splitChar_free (by decide)] at hl
    · simp only [List.cons_append, List.nil_append, List.mem_cons, List.not_mem_nil, or_false] at hl
      rcases hl with rfl | rfl | rfl
      · exact hp
      · exact hn.2
      · exact hB
    · simp [hn.1]
  | n :: m :: r, _, h, hp, hp', hB => by
    intro l hl
    have hn := h n (by simp)
    have e : p ++ py!"\n    " ++ join py!",\n    " (n :: m :: r) ++ py!",\n)" =
        p ++ '\n' :: ((py!"    " ++ n ++ py!",") ++ py!"\n    " ++ join py!",\n    " (m :: r) ++ py!",\n)") := by
      simp [join_cons_cons]
    rw [e, splitChar_append, splitChar_free hp', List.mem_append] at hl
    rcases hl with hl | hl
    · simp at hl; subst hl; exact hp
    · exact lines_wrapped_all P (m :: r) (by simp) (fun x hx => h x (by simp at hx ⊢; exact .inr hx)) hn.2
        (by simp [hn.1]) hB l hl

end Verif
