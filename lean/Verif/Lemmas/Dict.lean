import Verif.Lemmas.Abs
/-
Trees built for dictionaries.
-/
namespace Verif
open Verif.Spec

/-- The items that get a child: those without hidden keys. -/
def visibleItems (items : List (Key × Val)) : List (Key × Val) := items.filter (fun kv => !kv.1.hidden)

/-- Shape of a successfully built dictionary tree. -/
theorem build_frame {E : Env} {f : Nat} {root : Bool} {name : Str} {t : Ty} {i : FrameInfo} {ks : List Key} {vs : List Val} {n : Node}
    (h : build E (f + 1) root name (.map (.frame i) t ks vs) = .ok n) :
    ∃ kids, mapKids (build E f false) name (labelSuffix E.U) (ks.zip vs) = .ok kids ∧
      n = .mk { kind := .frame i, name, root, ty := t, slots := kids.map (fun kn => ⟨kn.1, 1⟩) } (kids.map (·.2)) := by
  simp only [build] at h
  by_cases hn : nameOk E.U name = true
  · rw [if_pos hn] at h
    unfold frameChildren at h
    cases hk : mapKids (build E f false) name (labelSuffix E.U) (ks.zip vs) with
    | error e => rw [hk] at h; cases h
    | ok kids => rw [hk] at h; cases h; exact ⟨kids, rfl, rfl⟩
  · rw [if_neg hn] at h; cases h

theorem build_dict {E : Env} {f : Nat} {root : Bool} {name : Str} {t : Ty} {ks : List Key} {vs : List Val} {n : Node}
    (h : build E (f + 1) root name (.map .dict t ks vs) = .ok n) :
    ∃ kids, mapKids (build E f false) name (keySuffix E.U) (visibleItems (dictData E.S (ks.zip vs))) = .ok kids ∧
      n = .mk ⟨.dict (dictData E.S (ks.zip vs)) (DMeta.ofData (dictData E.S (ks.zip vs))), name, root, t,
        (shareEqual E name kids).1⟩ (shareEqual E name kids).2 := by
  simp only [build, mapChildren] at h
  cases hm : mapKids (build E f false) name (keySuffix E.U)
      ((dictData E.S (ks.zip vs)).filter (fun kv => !kv.1.hidden)) with
  | error e => rw [hm] at h; cases h
  | ok kids =>
    rw [hm] at h
    refine ⟨kids, hm, ?_⟩
    injection h with h
    exact h.symm

theorem mapKids_keys {rec : Str → Val → Except Err Node} {parent : Str} {suffix : Key → Str} {items : List (Key × Val)}
    {kids : List (Key × Node)} (h : mapKids rec parent suffix items = .ok kids) : kids.map (·.1) = items.map (·.1) := by
  have := mapKids_ens (rec := rec) (parent := parent) (suffix := suffix) (R := fun _ _ _ => True) (Q := fun _ => True)
    (items := items) (by
      intro kv _
      unfold Ens
      split <;> trivial)
  rw [h] at this
  exact this.1

theorem out_mk {E : Env} {im : Str → List Str} {h : Hdr} {kids : List Node} :
    (Node.mk h kids).out E im = combine E im h (outList E im kids) := by rw [Node.out]

theorem outList_length {E : Env} {im : Str → List Str} (l : List Node) : (outList E im l).length = l.length := by
  rw [outList_eq_map]; simp

/-- The keys of the entries printed for string keys. -/
theorem rawEntries_keys {E : Env} {m : DMeta} : ∀ {ks : List Str} {os : List Out}, ks.length ≤ os.length →
    (rawEntries E m ((ks.map Key.str).zip os)).map (·.key) = ks
  | [], os, _ => by simp [rawEntries, textEntries]
  | k :: r, [], h => by simp at h
  | k :: r, o :: os, h => by
    have ih := rawEntries_keys (E := E) (m := m) (ks := r) (os := os) (by simpa using h)
    simp only [rawEntries, textEntries, List.map_cons, List.zip_cons_cons, List.filterMap_cons] at ih ⊢
    rw [ih]

theorem allStr_strs {ks : List Str} {vs : List Val} : allStr ((ks.map Key.str).zip vs) = true := by
  unfold allStr
  rw [List.all_eq_true]
  intro kv hkv
  obtain ⟨s, _, hs⟩ := List.mem_map.mp (List.of_mem_zip hkv).1
  rw [← hs]; rfl

theorem visible_keys_strs {ks : List Str} {vs : List Val} (hl : ks.length = vs.length) :
    (visibleItems ((ks.map Key.str).zip vs)).map (·.1) = (ks.filter (fun k => !startsWith k hiddenPrefix)).map Key.str := by
  unfold visibleItems
  induction ks generalizing vs with
  | nil => simp
  | cons k r ih =>
    cases vs with
    | nil => simp at hl
    | cons v vs =>
      have ih := ih (vs := vs) (by simpa using hl)
      have hh : (Key.str k).hidden = startsWith k hiddenPrefix := rfl
      simp only [List.map_cons, List.zip_cons_cons, List.filter_cons]
      by_cases hk : startsWith k hiddenPrefix = true
      · simp only [hh, hk, Bool.not_true, Bool.false_eq_true, if_false]; exact ih
      · simp only [hh, Bool.not_eq_true] at hk
        simp only [hh, hk, Bool.not_false, if_true, List.map_cons]; rw [ih]

/-- The declaration printed for a dictionary with string keys. -/
theorem typed_dict_raw {E : Env} {im : Str → List Str} {f : Nat} {root : Bool} {name : Str} {t : Ty} {ks : List Str} {vs : List Val} {n : Node}
    (hS : E.S.dict = .typedDict) (hl : ks.length = vs.length)
    (h : build E (f + 1) root name (.map .dict t (ks.map .str) vs) = .ok n) :
    ∃ entries, (n.out E im).top.text = recordText name (isFunctional E.U (DMeta.ofData ((ks.map Key.str).zip vs)))
        (recordDoc E (DMeta.ofData ((ks.map Key.str).zip vs)) ((ks.map Key.str).zip vs)) entries ∧
      entries.map (·.key) = ks.filter (fun k => !startsWith k hiddenPrefix) ∧
      ∀ e ∈ entries, e.doc = entryDoc (DMeta.ofData ((ks.map Key.str).zip vs)) e.key := by
  obtain ⟨kids, hk, rfl⟩ := build_dict h
  have hd : dictData E.S ((ks.map Key.str).zip vs) = (ks.map Key.str).zip vs := by simp [dictData, hS]
  rw [hd] at hk ⊢
  rw [out_mk]
  have hkeys := mapKids_keys hk
  rw [visible_keys_strs hl] at hkeys
  have hslots : (shareEqual E name kids).1.map (·.key) = (ks.filter (fun k => !startsWith k hiddenPrefix)).map Key.str := by
    rw [shareEqual_keys, hkeys]
  have hty : (DMeta.ofData ((ks.map Key.str).zip vs)).isTyped E.S = true := by
    simp [DMeta.isTyped, DMeta.ofData, allStr_strs, hS]
  refine ⟨rawEntries E (DMeta.ofData ((ks.map Key.str).zip vs)) (((shareEqual E name kids).1.map (·.key)).zip
    (outList E im (shareEqual E name kids).2)), ?_, ?_, ?_⟩
  · simp only [combine, topOf, hty, if_true]
    exact typed_raw
  · rw [hslots]
    apply rawEntries_keys
    rw [outList_length]
    have h1 := congrArg List.length hslots
    simp only [List.length_map] at h1
    rw [← shareEqual_length, h1]
    exact Nat.le_refl _
  · intro e he
    obtain ⟨x, _, rfl⟩ := List.mem_map.mp he
    rfl

theorem typed_dict_text {E : Env} {im : Str → List Str} {f : Nat} {root : Bool} {name : Str} {t : Ty} {ks : List Str} {vs : List Val} {n : Node}
    (hS : E.S.dict = .typedDict) (hl : ks.length = vs.length)
    (h : build E (f + 1) root name (.map .dict t (ks.map .str) vs) = .ok n) :
    ∃ entries, (n.out E im).top.text = recordText name (isFunctional E.U (DMeta.ofData ((ks.map Key.str).zip vs)))
        (recordDoc E (DMeta.ofData ((ks.map Key.str).zip vs)) ((ks.map Key.str).zip vs)) entries ∧
      entries.map (·.key) = ks.filter (fun k => !startsWith k hiddenPrefix) := by
  obtain ⟨es, h1, h2, _⟩ := typed_dict_raw (im := im) hS hl h
  exact ⟨es, h1, h2⟩

/-- Every declaration of a successfully rendered tree is among its strings; in particular the one of the root. -/
theorem root_text_mem {E : Env} {n : Node} {strs : List Str} (hr : n.hdr.root = true) (h : nodeStrings E n false = .ok strs) :
    (n.render E).top.text ∈ strs := by
  unfold nodeStrings at h
  dsimp only at h
  split at h
  · cases h
  · split at h
    · cases h
    · simp only [Bool.false_eq_true, if_false] at h
      injection h with h
      subst h
      unfold declTexts
      rw [mem_dedup]
      exact List.mem_map_of_mem (emitted_root hr)

theorem build_root {E : Env} {f : Nat} {root : Bool} {name : Str} {t : Ty} {ks : List Key} {vs : List Val} {n : Node}
    (h : build E (f + 1) root name (.map .dict t ks vs) = .ok n) : n.hdr.root = root := by
  obtain ⟨kids, _, rfl⟩ := build_dict h
  rfl

end Verif
