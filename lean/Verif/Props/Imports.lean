import Verif.Lemmas.Imports
/-
C05–C09: the import block (`ImportManager.format`). The list argument is the iteration order of a Python set, so it is
duplicate-free and otherwise arbitrary.
-/
namespace Verif.Props
open Verif Verif.Spec

/-- A set of requested keywords that meets the hypotheses below and exercises every form of import. -/
def sampleKws : List Str := [py!"Union", py!"npt", py!"annotations", py!"list", py!"pandas", py!"TypeAlias"]

example : sampleKws.Nodup ∧ ∀ kw ∈ sampleKws, Known kw :=
  ⟨by decide, by
    intro kw h
    have : ∀ kw ∈ sampleKws, kw ∈ symbolTable.map (·.1) := by decide
    obtain ⟨x, hx, h⟩ := List.mem_map.1 (this kw h)
    exact ⟨x.2, by rw [← h]; exact hx⟩⟩

example : formatImports 90 sampleKws = .ok (py!"from __future__ import annotations\n\nimport numpy.typing as npt\nimport pandas as pd\nfrom typing import List, Union\nfrom typing_extensions import TypeAlias") := by
  decide +kernel

/-- **C09**: printing raises exactly when some requested keyword is unknown. -/
theorem imports_rejected_iff (w : Nat) (kws : List Str) :
    (∃ e, formatImports w kws = .error e) ↔ ∃ kw ∈ kws, ¬ Known kw := by
  constructor
  · rintro ⟨e, he⟩
    refine Classical.byContradiction fun hno => ?_
    have hall : ∀ kw ∈ kws, (packageOf kw).isSome = true := fun kw hk =>
      (known_iff kw).1 (Classical.byContradiction fun h => hno ⟨kw, hk, h⟩)
    obtain ⟨g, hg⟩ := groupImports_ok (acc := []) hall
    simp [formatImports, hg, Except.map] at he
  · rintro ⟨kw, hk, hu⟩
    cases hf : groupImports [] kws with
    | error e => exact ⟨e, by simp [formatImports, hf, Except.map]⟩
    | ok g =>
      have := (groupImports_good good_nil hf).2 kw hk
      exact absurd ((known_iff kw).2 this) hu

/-- The keyword named in the error is an unknown one that was requested. -/
theorem imports_error_names_culprit (w : Nat) (kws : List Str) (e : Str) (h : formatImports w kws = .error e) :
    e ∈ kws ∧ ¬ Known e := by
  have key : ∀ (kws : List Str) acc, groupImports acc kws = .error e → e ∈ kws ∧ ¬ Known e := by
    intro kws
    induction kws with
    | nil => intro acc h; simp [groupImports] at h
    | cons k r ih =>
      intro acc h
      simp only [groupImports] at h
      cases hk : packageOf k with
      | none =>
        simp [hk] at h; subst h
        refine ⟨by simp, fun hh => ?_⟩
        have := (known_iff k).1 hh
        simp [hk] at this
      | some pn =>
        simp [hk] at h
        have := ih _ h
        exact ⟨by simp [this.1], this.2⟩
  cases hf : groupImports [] kws with
  | error e' => simp [formatImports, hf, Except.map] at h; subst h; exact key kws [] hf
  | ok g => simp [formatImports, hf, Except.map] at h

example : formatImports 90 [py!"list", py!"foo"] = .error py!"foo" := by decide

/-- **C05**: the text does not depend on the order in which the set yields the keywords. -/
theorem imports_order_independent (w : Nat) (k₁ k₂ : List Str) (hn : k₁.Nodup) (hp : k₁.Perm k₂)
    (hk : ∀ kw ∈ k₁, Known kw) : formatImports w k₁ = formatImports w k₂ := by
  obtain ⟨g₁, h1⟩ := groupImports_ok (kws := k₁) (acc := []) (fun kw h => (known_iff kw).1 (hk kw h))
  obtain ⟨g₂, h2⟩ := groupImports_ok (kws := k₂) (acc := []) (fun kw h => (known_iff kw).1 (hk kw (hp.mem_iff.2 h)))
  have e1 := (groupImports_good good_nil h1).1
  have e2 := (groupImports_good good_nil h2).1
  simp only [List.nil_append] at e1 e2
  simp only [formatImports, h1, h2, Except.map, formatGroups_perm hn hp e1 e2]

example : formatImports 90 sampleKws = formatImports 90 sampleKws.reverse := by decide +kernel

/-- **C06**: for every width of at least 26 columns (the code always uses 90), the printed text is a sequence of import
statements whose bindings are exactly the requested ones, each once. -/
theorem imports_bind_requested (w : Nat) (hw : 26 ≤ w) (kws : List Str) (hn : kws.Nodup) (text : Str)
    (h : formatImports w kws = .ok text) :
    ∃ sts, BlockText sts text ∧ (sts.flatMap ImportStmt.bindings).Perm (kws.map bindingOf) := by
  cases hf : groupImports [] kws with
  | error e => simp [formatImports, hf, Except.map] at h
  | ok g =>
    simp only [formatImports, hf, Except.map, Except.ok.injEq] at h
    obtain ⟨hg, hsome⟩ := groupImports_good good_nil hf
    simp only [List.nil_append] at hg
    have hlay : ∀ e ∈ sortPackages g, ∃ st, Layout st (formatPackage w e.1 e.2) ∧
        st.bindings.Perm (e.2.map fun n => convert (e.1, n)) := fun e he =>
      package_layout w hw hn hg (mem_sortBy.1 he)
    have hperm : ((sortPackages g).flatMap fun e => e.2.map fun n => convert (e.1, n)).Perm (kws.map bindingOf) := by
      rw [map_bindingOf hsome]
      refine ((perm_sortBy _ g).flatMap_right _).trans ?_
      have := hg.perm.map convert
      simpa [flat, List.map_flatMap, List.map_map, Function.comp_def] using this
    have fin : ∀ e : Str, e ∈ [[], py!"\n"] → text = (match (sortPackages g).map (fun p => formatPackage w p.1 p.2) with
        | [] => [] | t :: ts => join py!"\n" ((t ++ e) :: ts)) →
        ∃ sts, BlockText sts text ∧ (sts.flatMap ImportStmt.bindings).Perm (kws.map bindingOf) := by
      intro e he ht
      obtain ⟨sts, h1, h2⟩ := block_of_layouts (sortPackages g) (fun p => formatPackage w p.1 p.2) _ hlay e he
      exact ⟨sts, ht ▸ h2, (perm_flatMap_all₂ h1).trans hperm⟩
    unfold formatGroups at h
    cases hm : (sortPackages g).map (fun p => formatPackage w p.1 p.2) with
    | nil => exact fin [] (by simp) (by rw [hm] at h ⊢; exact h.symm)
    | cons t ts =>
      rw [hm] at h
      simp only at h
      by_cases hc : contains py!"__future__" t = true
      · rw [if_pos hc] at h
        exact fin py!"\n" (by simp) (by rw [hm]; exact h.symm)
      · rw [if_neg hc] at h
        exact fin [] (by simp) (by rw [hm]; simpa using h.symm)

/-- The width matters: with a smaller width the alias imports are replaced by statements that bind something else. -/
theorem imports_bind_requested_small_width :
    formatImports 18 [py!"pandas"] = .ok py!"from pandas import (\n    pandas,\n)" := by decide

/-- **C07**: if the `__future__` import is requested, the text starts with it, on a line of its own, followed by the end
of the text or by a blank line. -/
theorem imports_future_first (w : Nat) (hw : 34 ≤ w) (kws : List Str) (hn : kws.Nodup) (text : Str)
    (h : formatImports w kws = .ok text) (hf : py!"annotations" ∈ kws) :
    ∃ rest, text = py!"from __future__ import annotations\n" ++ rest ∧ (rest = [] ∨ ∃ r, rest = '\n' :: r) := by
  cases hgr : groupImports [] kws with
  | error e => simp [formatImports, hgr, Except.map] at h
  | ok g =>
    simp only [formatImports, hgr, Except.map, Except.ok.injEq] at h
    obtain ⟨hg, hsome⟩ := groupImports_good good_nil hgr
    simp only [List.nil_append] at hg
    have hk : py!"__future__" ∈ g.map (·.1) := (hg.keys _).2 (List.mem_map.2
      ⟨(py!"__future__", py!"annotations"), List.mem_filterMap.2 ⟨_, hf, by decide⟩, rfl⟩)
    obtain ⟨e, he, hek⟩ := List.mem_map.1 hk
    have hnames : e = (py!"__future__", [py!"annotations"]) := by
      refine Prod.ext hek ?_
      rcases group_cases hn hg he with ⟨s, hs, h0⟩ | h0
      · have : ∀ s ∈ specials, s.1 ≠ py!"__future__" := by decide
        exact absurd (by rw [← hek, h0]) (this s hs)
      · have hall : ∀ n ∈ e.2, n = py!"annotations" := by
          intro n hn'
          have : ∀ x ∈ packageTable.map (·.2), x.1 = py!"__future__" → x.2 = py!"annotations" := by decide
          exact this _ (h0 n hn').2.1 hek
        have hp := hg.perm.map (·.2)
        refine nodup_all_eq ?_ (hg.ne e he) hall
        rw [hg.names e he]
        have h1 : ((kws.filterMap packageOf).filter (fun x => x.1 == e.1)).Nodup :=
          (nodup_filterMap_packageOf hn).sublist List.filter_sublist
        refine List.Pairwise.map _ ?_ (List.Pairwise.and_mem.1 h1)
        rintro a b ⟨ha, hb, hab⟩ h
        simp only [List.mem_filter, beq_iff_eq] at ha hb
        exact hab (Prod.ext (ha.2.trans hb.2.symm) h)
    have hsorted : (sortPackages g).Pairwise (fun a b => strLe a.1 b.1 = true) := pairwise_sortBy (le := fun (a b : Str × List Str) => strLe a.1 b.1)
      (fun a b => strLe_total _ _) (fun a b c => strLe_trans _ _ _) g
    have hmem : e ∈ sortPackages g := mem_sortBy.2 he
    have hmin : ∀ x ∈ sortPackages g, strLe py!"__future__" x.1 = true := by
      intro x hx
      have hx' := (hg.keys x.1).1 (List.mem_map.2 ⟨x, mem_sortBy.1 hx, rfl⟩)
      obtain ⟨pn, h1, h2⟩ := List.mem_map.1 hx'
      have : ∀ y ∈ packageTable.map (·.2), strLe py!"__future__" y.1 = true := by decide
      rw [← h2]; exact this _ (mem_pairs h1)
    cases hs : sortPackages g with
    | nil => rw [hs] at hmem; simp at hmem
    | cons x r =>
      have hx : x = e := by
        rw [hs] at hmem
        rcases List.mem_cons.1 hmem with h0 | h0
        · exact h0.symm
        · have h1 : strLe x.1 e.1 = true := by
            have := hs ▸ hsorted
            exact (List.pairwise_cons.1 this).1 e h0
          have h2 := hmin x (by rw [hs]; simp)
          rw [← hek] at h2
          exact eq_of_key_eq hg.nodup ((perm_sortBy _ g).mem_iff.1 (by
            show x ∈ sortPackages g; rw [hs]; simp)) he (strLe_antisymm _ _ h1 h2)
      subst hx
      have ht : formatPackage w x.1 x.2 = py!"from __future__ import annotations" := by
        rw [hnames]; unfold formatPackage; simp [sortStr, sortBy, insertBy]; omega
      unfold formatGroups at h
      rw [hs, List.map_cons, ht] at h
      simp only at h
      have hc : contains py!"__future__" py!"from __future__ import annotations" = true := by decide
      rw [if_pos hc] at h
      cases hr : r.map (fun p => formatPackage w p.1 p.2) with
      | nil => rw [hr] at h; exact ⟨[], by rw [← h]; rfl, .inl rfl⟩
      | cons t ts =>
        rw [hr, join_cons_cons] at h
        exact ⟨'\n' :: join py!"\n" (t :: ts), by rw [← h]; simp, .inr ⟨_, rfl⟩⟩

/-- **C08**: every physical line fits the configured width, or it is a line of a wrapped import: the opening line of one
package, a line with one symbol, or the closing parenthesis. Such lines cannot be broken further; they have at most 32
columns. In particular an import statement in one line always fits. -/
theorem imports_width (w : Nat) (kws : List Str) (hn : kws.Nodup) (text : Str)
    (h : formatImports w kws = .ok text) : ∀ l ∈ splitChar '\n' text, l.length ≤ w ∨ (WrapLine l ∧ l.length ≤ 32) := by
  cases hf : groupImports [] kws with
  | error e => simp [formatImports, hf, Except.map] at h
  | ok g =>
    simp only [formatImports, hf, Except.map, Except.ok.injEq] at h
    obtain ⟨hg, hsome⟩ := groupImports_good good_nil hf
    simp only [List.nil_append] at hg
    have hpkg : ∀ e ∈ g, ∀ l ∈ splitChar '\n' (formatPackage w e.1 e.2), l.length ≤ w ∨ (WrapLine l ∧ l.length ≤ 32) := by
      intro e he l hl
      rcases group_cases hn hg he with ⟨s, hs, rfl⟩ | h
      · have hsp : ∀ s ∈ specials, ∃ a b : Str, a.length ≤ 32 ∧ '\n' ∉ a ∧ formatPackage w s.1 [s.2] = (if a.length > w then
            (py!"from " ++ s.1 ++ py!" import (") ++ py!"\n    " ++ join py!",\n    " [s.2] ++ py!",\n)" else a) := by
          intro s hs
          simp only [specials, List.mem_cons, List.not_mem_nil, or_false] at hs
          rcases hs with rfl | rfl | rfl
          · exact ⟨py!"import pandas as pd", [], by decide, by decide, by unfold formatPackage; rfl⟩
          · exact ⟨py!"import numpy.typing as npt", [], by decide, by decide, by unfold formatPackage; rfl⟩
          · exact ⟨py!"import numpy as np", [], by decide, by decide, by unfold formatPackage; rfl⟩
        obtain ⟨a, _, ha, ha', heq⟩ := hsp s hs
        simp only at hl
        rw [heq] at hl
        have hsl : ∀ s ∈ specials, (py!"from " ++ s.1 ++ py!" import (").length ≤ 32 ∧ '\n' ∉ (py!"from " ++ s.1 ++ py!" import (") ∧
          s.2.length + 5 ≤ 32 ∧ '\n' ∉ s.2 ∧ ' ' ∉ s.1 ∧ ' ' ∉ s.2 ∧ ',' ∉ s.2 := by decide
        split at hl
        · have hs' := hsl s hs
          refine .inr (lines_wrapped_all (fun l => WrapLine l ∧ l.length ≤ 32) [s.2] (by simp) ?_ ⟨.opening _ hs'.2.2.2.2.1, hs'.1⟩ hs'.2.1
            ⟨.closing, by decide⟩ l hl)
          intro n hn; simp at hn; subst hn
          exact ⟨hs'.2.2.2.1, .symbol _ hs'.2.2.2.2.2.1 hs'.2.2.2.2.2.2, by simp; omega⟩
        · rw [splitChar_free ha'] at hl
          simp at hl; subst hl; exact .inl (by omega)
      · have hne := hg.ne e he
        rw [formatPackage_plain hne fun n hn => (h n hn).2.2] at hl
        have hfree : ∀ n ∈ sortStr e.2, n.length + 5 ≤ 32 ∧ '\n' ∉ n ∧ ' ' ∉ n ∧ ',' ∉ n := fun n hn' =>
          have := table_lengths _ (h n (mem_sortBy.1 hn')).2.1
          have hb := table_plain _ (h n (mem_sortBy.1 hn')).2.1; ⟨this.2.1, this.2.2.2, hb.2.1, hb.2.2⟩
        have hq := table_plain _ (h _ (headD_mem (d := []) hne)).2.1
        have hp : e.1.length + 15 ≤ 32 ∧ _ := table_lengths _ (h _ (headD_mem (d := []) hne)).2.1
        have hne' : sortStr e.2 ≠ [] := fun h0 => hne (by
          have := (sortStr_perm e.2).length_eq; rw [h0] at this; simpa using this.symm)
        split at hl
        · refine .inr (lines_wrapped_all (fun l => WrapLine l ∧ l.length ≤ 32) (p := py!"from " ++ e.1 ++ py!" import (") (sortStr e.2) hne' ?_
            ⟨.opening _ hq.1, by simp; omega⟩ (by simp [hp.2.2.1]) ⟨.closing, by decide⟩ l (by simpa using hl))
          intro n hn'
          have := hfree n hn'
          exact ⟨this.2.1, .symbol _ this.2.2.1 this.2.2.2, by simp; omega⟩
        · rw [splitChar_free] at hl
          · simp only [List.mem_cons, List.not_mem_nil, or_false] at hl; subst hl; exact .inl (by omega)
          · simp only [List.mem_append, not_or]
            refine ⟨⟨⟨by decide, hp.2.2.1⟩, by decide⟩, fun hm => ?_⟩
            rcases mem_join hm with h0 | ⟨x, hx, h0⟩
            · exact absurd h0 (by decide)
            · exact (hfree x hx).2.1 h0
    have hall : ∀ t ∈ (sortPackages g).map (fun p => formatPackage w p.1 p.2), ∀ l ∈ splitChar '\n' t, l.length ≤ w ∨ (WrapLine l ∧ l.length ≤ 32) := by
      intro t ht
      obtain ⟨e, he, rfl⟩ := List.mem_map.1 ht
      exact hpkg e (mem_sortBy.1 he)
    have hjoin : ∀ (ts : List Str), (∀ t ∈ ts, ∀ l ∈ splitChar '\n' t, l.length ≤ w ∨ (WrapLine l ∧ l.length ≤ 32)) →
        ∀ l ∈ splitChar '\n' (join py!"\n" ts), l.length ≤ w ∨ (WrapLine l ∧ l.length ≤ 32) := by
      intro ts
      induction ts with
      | nil => intro _ l hl; simp [splitChar] at hl; subst hl; simp
      | cons t r ih =>
        intro hts l hl
        cases r with
        | nil => exact hts t (by simp) l hl
        | cons t' r' =>
          rw [join_cons_cons, List.append_assoc] at hl
          have := splitChar_append (c := '\n') t (join py!"\n" (t' :: r'))
          rw [List.singleton_append, this, List.mem_append] at hl
          rcases hl with hl | hl
          · exact hts t (by simp) l hl
          · exact ih (fun x hx => hts x (by simp [List.mem_cons] at hx ⊢; exact .inr hx)) l hl
    subst h
    unfold formatGroups
    cases hm : (sortPackages g).map (fun p => formatPackage w p.1 p.2) with
    | nil => intro l hl; simp [splitChar] at hl; subst hl; simp
    | cons t ts =>
      rw [hm] at hall
      refine hjoin _ ?_
      intro x hx
      rcases List.mem_cons.1 hx with rfl | hx
      · split
        · intro l hl
          rw [splitChar_append (c := '\n') t [], List.mem_append] at hl
          rcases hl with hl | hl
          · exact hall t (by simp) l hl
          · simp [splitChar] at hl; subst hl; simp
        · exact hall t (by simp)
      · exact hall x (by simp [hx])

/-- **C08** for the width the generator uses. -/
theorem imports_width_default (kws : List Str) (hn : kws.Nodup) (text : Str) (h : formatImports 90 kws = .ok text) :
    ∀ l ∈ splitChar '\n' text, l.length ≤ 90 := fun l hl => by
  rcases imports_width 90 kws hn text h l hl with h | h <;> omega

/-- Four symbols of `typing` do not fit in 40 columns, and each gets a line; the first import fits. -/
example : ∃ text, formatImports 40 [py!"list", py!"Any", py!"Union", py!"Optional", py!"annotations"] = .ok text ∧
    py!"    Optional," ∈ splitChar '\n' text ∧ py!"from __future__ import annotations" ∈ splitChar '\n' text :=
  ⟨_, rfl, by decide, by decide⟩

end Verif.Props
