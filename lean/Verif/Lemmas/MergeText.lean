import Verif.Lemmas.Merge
/-
How sequences of dictionaries are rendered.
-/
namespace Verif
open Verif.Spec

theorem describes_same {es : List Entry} {ds es' : List Dct} (hne : ds ≠ []) (hne' : es' ≠ []) (h : Describes es ds)
    (ha : ∀ s, (∃ d ∈ ds, s ∈ shown d) ↔ ∃ d ∈ es', s ∈ shown d) (hc : ∀ s, (∀ d ∈ ds, s ∈ shown d) ↔ ∀ d ∈ es', s ∈ shown d) :
    Describes es es' := by
  refine ⟨h.1.trans (perm_of_nodup_mem (nodup_dedup _) (nodup_dedup _) ?_), ?_⟩
  · intro s
    show s ∈ allKeys ds ↔ s ∈ allKeys es'
    rw [mem_allKeys, mem_allKeys, ha]
  · intro e he
    rw [h.2 e he, mem_commonKeys hne, mem_commonKeys hne', hc]

theorem seqCon_fits {S : Strategies} {k : SeqKind} (hk : k ≠ .tuple) : containerFits k (seqCon S k) = true := by
  cases k with
  | tuple => exact absurd rfl hk
  | list => simp only [seqCon]; split <;> decide
  | set => simp only [seqCon]; decide
  | frozenset => simp only [seqCon]; decide
  | iterator => simp only [seqCon]; decide
  | series => simp only [seqCon]; decide

/-- How a sequence of dictionaries is rendered. -/
theorem dictSeq_abs {E : Env} (hE : E.Fair) (hS : E.S.dict = .typedDict) (hm0 : 0 < E.S.merge)
    {ds : List Dct} {f : Nat} {root : Bool} {name : Str} {k : SeqKind} {ty : Ty} {n : Node} (hk : k ≠ .tuple) (hne : ds ≠ [])
    (hd : ∀ d ∈ ds, IsDict d) (hl : limit E.S.checkMax (ds.map dictOf) = ds.map dictOf)
    (h : build E f root name (.seq k ty (ds.map dictOf)) = .ok n) :
    n.hdr.root = root ∧
    ∃ t, n.abs E = { (n.abs E) with name := name, body := .alias (.app (seqCon E.S k) t) } ∧
      (root = true → ⟨name, .alias (.app (seqCon E.S k) t)⟩ ∈ (n.abs E).emitted) ∧
      (OneRecord ((n.abs E).emitted.map TDecl.print) t ds ∨ SeparateRecords ((n.abs E).emitted.map TDecl.print) t ds) ∧
      (allKeys ds = [] → OneRecord ((n.abs E).emitted.map TDecl.print) t ds) ∧
      (Agree ds → E.S.merge ≤ percentSimilarity (commonKeys ds).length (allKeys ds).length →
        OneRecord ((n.abs E).emitted.map TDecl.print) t ds) ∧
      (Agree ds → ¬ (E.S.merge ≤ percentSimilarity (commonKeys ds).length (allKeys ds).length) →
        commonKeys ds ≠ allKeys ds → SeparateRecords ((n.abs E).emitted.map TDecl.print) t ds) := by
  cases f with
  | zero => cases h
  | succ f =>
    rw [build_seq] at h
    split at h
    case isFalse => cases h
    split at h
    case h_2 => cases h
    rename_i slots kids hc
    rw [if_neg (fun h => hk h.1)] at hc
    injection h with h
    subst h
    obtain ⟨hsl, hnd, hD, hfew, b, hb, hcase⟩ := dictSeq_children hE hS hm0 hne hd hl hc
    refine ⟨rfl, aAlias (iterate slots (absList E kids)), ?_, ?_⟩
    · cases k with
      | tuple => exact absurd rfl hk
      | _ => rfl
    have hit : iterate slots (absList E kids) = kids.map (fun n => n.abs E) := by
      rw [absList_eq_map]
      apply iterate_seq
      · simp [hsl]
      · rw [hsl]
        intro s hs
        obtain ⟨_, _, rfl⟩ := List.mem_map.mp hs
        simp [Slot.seq]
    -- every child is a record
    have hrec : ∀ k ∈ kids, (k.abs E).perm = true := by
      intro k hk
      by_cases hbt : b = true
      · rw [if_pos hbt] at hcase
        obtain ⟨n, rfl, hr⟩ := hcase
        simp only [List.mem_singleton] at hk
        subst hk
        exact (recNode_abs hS hr).1
      · rw [if_neg hbt] at hcase
        obtain ⟨d, hd', hr⟩ := hcase.1 k hk
        exact (recNode_abs hS (hr.recNode (hd d hd'))).1
    have hkne : kids ≠ [] := by
      rintro rfl
      by_cases hbt : b = true
      · rw [if_pos hbt] at hcase
        obtain ⟨n, e, _⟩ := hcase
        cases e
      · rw [if_neg hbt] at hcase
        cases ds with
        | nil => exact hne rfl
        | cons d r =>
          obtain ⟨k, hk, _⟩ := hcase.2 d (by simp)
          simp at hk
    have hemit : ∀ kid ∈ kids, ⟨kid.name, (kid.abs E).body⟩ ∈ ((Node.mk ⟨.seq k, name, root, ty, slots⟩ kids).abs E).emitted := by
      intro k hk
      simp only [Node.abs, aCombine, aEmit]
      have : (absList E kids).isEmpty = false := by
        rw [absList_eq_map]; cases kids with
        | nil => exact absurd rfl hkne
        | cons _ _ => rfl
      rw [this]
      simp only [Bool.false_eq_true, if_false]
      apply List.mem_append_left
      rw [List.mem_flatMap]
      refine ⟨k.abs E, ?_, ?_⟩
      · rw [hit]; exact List.mem_map_of_mem hk
      · rw [hrec k hk, if_pos rfl]
        simp [AOut.decl, abs_name]
    have hroot : root = true → ⟨name, .alias (.app (seqCon E.S k) (aAlias (iterate slots (absList E kids))))⟩ ∈
        ((Node.mk ⟨.seq k, name, root, ty, slots⟩ kids).abs E).emitted := by
      rintro rfl
      simp only [Node.abs, aCombine, aEmit]
      have : (absList E kids).isEmpty = false := by
        rw [absList_eq_map]; cases kids with
        | nil => exact absurd rfl hkne
        | cons _ _ => rfl
      rw [this]
      simp only [Bool.false_eq_true, if_false]
      apply List.mem_append_right
      cases k with
      | tuple => exact absurd rfl hk
      | _ => simp [permOf, aBody]
    obtain ⟨Xs, hXp, hXa⟩ := aAlias_names (kids := kids.map (fun n => n.abs E)) (by simpa using hkne)
      (by intro a ha; obtain ⟨k, hk, rfl⟩ := List.mem_map.mp ha; exact hrec k hk)
      (by rw [List.map_map]; simpa [Function.comp_def, abs_name] using hnd)
      (by intro a ha; obtain ⟨k, hk, rfl⟩ := List.mem_map.mp ha; rw [abs_name]; exact hD k hk)
    rw [List.map_map] at hXp
    have hXp : Xs.Perm (kids.map Node.name) := by simpa [Function.comp_def, abs_name] using hXp
    have hdescr : ∀ {ds' : List Dct} {k : Node}, RecNode E ds' k → ∃ f doc es, (k.abs E).body = .record f doc es ∧ Describes es ds' := by
      intro ds' k hr
      obtain ⟨f, doc, es, h1, h2, h3⟩ := (recNode_abs hS hr).2
      exact ⟨f, doc, es, h1, h2, fun e he => by rw [h3 e he, decide_eq_true_eq]⟩
    have one_of : ∀ {kid : Node}, kids = [kid] → RecNode E ds kid →
        OneRecord (((Node.mk ⟨.seq k, name, root, ty, slots⟩ kids).abs E).emitted.map TDecl.print)
          (aAlias (iterate slots (absList E kids))) ds := by
      intro k' hk1 hr
      obtain ⟨f, doc, es, h1, h2⟩ := hdescr hr
      have hX : Xs = [k'.name] := by rw [hk1] at hXp; simpa using hXp
      refine ⟨k'.name, f, doc, es, ?_, ?_, h2⟩
      · rw [hit, hXa, hX]; rfl
      · rw [← h1]; exact List.mem_map_of_mem (hemit k' (by rw [hk1]; simp))
    have hsame1 : ∀ {k' : Node} {d : Dct}, kids = [k'] → (∀ d' ∈ ds, ∀ s, s ∈ shown d' ↔ s ∈ shown d) → d ∈ ds → RecNode E [d] k' →
        RecNode E ds k' := by
      intro k' d hk1 hs hdm hr
      have ha : ∀ s, s ∈ allKeys [d] ↔ s ∈ allKeys ds := by
        intro s
        simp only [mem_allKeys, List.mem_singleton, exists_eq_left]
        constructor
        · intro h; exact ⟨d, hdm, h⟩
        · rintro ⟨e, he, h⟩; exact (hs e he s).mp h
      have hcm : ∀ s, s ∈ commonKeys [d] ↔ s ∈ commonKeys ds := by
        intro s
        rw [mem_commonKeys hne, mem_commonKeys (by simp)]
        simp only [List.mem_singleton, forall_eq]
        constructor
        · intro h e he; exact (hs e he s).mpr h
        · intro h; exact h d hdm
      refine ⟨?_, ?_, hr.len⟩
      · obtain ⟨data, m, h1, h2, h3⟩ := hr.info
        refine ⟨data, m, h1, h2, ?_⟩
        intro s hs'
        rw [h3 s ((ha s).mpr hs'), decide_eq_decide.mpr (hcm s)]
      · obtain ⟨K, h1, h2⟩ := hr.slots
        exact ⟨K, h1, h2.trans (perm_of_nodup_mem (nodup_dedup _) (nodup_dedup _) ha)⟩
    have sep_of : ¬ b = true → 2 ≤ kids.length →
        SeparateRecords (((Node.mk ⟨.seq k, name, root, ty, slots⟩ kids).abs E).emitted.map TDecl.print)
          (aAlias (iterate slots (absList E kids))) ds := by
      intro hbt h2
      rw [if_neg hbt] at hcase
      have hlen : Xs.length = kids.length := by rw [hXp.length_eq]; simp
      refine ⟨Xs, by omega, hXp.nodup_iff.mpr hnd, ?_, ?_, ?_⟩
      · rw [hit, hXa, unionOf_many (by simp; omega)]
      · intro X hX
        obtain ⟨k', hk', rfl⟩ := List.mem_map.mp (hXp.mem_iff.mp hX)
        obtain ⟨d, hd', hr⟩ := hcase.1 k' hk'
        obtain ⟨f, doc, es, h1, h2⟩ := hdescr (hr.recNode (hd d hd'))
        exact ⟨d, hd', f, doc, es, by rw [← h1]; exact List.mem_map_of_mem (hemit k' hk'), h2⟩
      · intro d hd'
        obtain ⟨k', hk', d', hd'', hr, hs⟩ := hcase.2 d hd'
        obtain ⟨f, doc, es, h1, h2⟩ := hdescr (hr.recNode (hd d' hd''))
        refine ⟨k'.name, hXp.mem_iff.mpr (List.mem_map_of_mem hk'), f, doc, es, by rw [← h1]; exact List.mem_map_of_mem (hemit k' hk'), ?_⟩
        exact describes_same (by simp) (by simp) h2 (by simp [hs]) (by simp [hs])
    have single : ¬ b = true → ∀ k', kids = [k'] → ∃ d ∈ ds, RecNode E [d] k' ∧ ∀ d' ∈ ds, ∀ s, s ∈ shown d' ↔ s ∈ shown d := by
      intro hbt k' hk1
      rw [if_neg hbt] at hcase
      obtain ⟨d, hd', hr⟩ := hcase.1 k' (by rw [hk1]; simp)
      refine ⟨d, hd', hr.recNode (hd d hd'), ?_⟩
      intro e he s
      obtain ⟨k'', hk'', e', _, hr', hs⟩ := hcase.2 e he
      rw [hk1] at hk''
      simp only [List.mem_singleton] at hk''
      subst hk''
      rw [hs]
      obtain ⟨m1, hm1, _, hg1, _⟩ := hr.info
      obtain ⟨m2, hm2, _, hg2, _⟩ := hr'.info
      rw [hm1] at hm2
      injection hm2 with hm2
      subst hm2
      have a1 := hg1.req s
      have a2 := hg2.req s
      rw [a1] at a2
      by_cases x1 : s ∈ shown d
      · by_cases x2 : s ∈ shown e'
        · simp [x1, x2]
        · rw [if_pos x1, if_neg x2] at a2; cases a2
      · by_cases x2 : s ∈ shown e'
        · rw [if_neg x1, if_pos x2] at a2; cases a2
        · simp [x1, x2]
    have len2 : (∃ k', kids = [k']) ∨ 2 ≤ kids.length := by
      match kids, hkne with
      | [k'], _ => exact .inl ⟨k', rfl⟩
      | _ :: _ :: _, _ => exact .inr (by simp)
    refine ⟨hroot, ?_, ?_, ?_, ?_⟩
    · by_cases hbt : b = true
      · have hcase' := hcase
        rw [if_pos hbt] at hcase'
        obtain ⟨k', e, hr⟩ := hcase'
        exact .inl (one_of e hr)
      · rcases len2 with ⟨k', e⟩ | h2
        · obtain ⟨d, hd', hr, hs⟩ := single hbt k' e
          exact .inl (one_of e (hsame1 e hs hd' hr))
        · exact .inr (sep_of hbt h2)
    · intro h0
      have h1 := hfew (fun d hd' => by
        rw [List.eq_nil_iff_forall_not_mem]
        intro s hs
        have : s ∈ allKeys ds := mem_allKeys.mpr ⟨d, hd', hs⟩
        rw [h0] at this
        simp at this)
      rcases len2 with ⟨k', e⟩ | h2
      · by_cases hbt : b = true
        · have hcase' := hcase
          rw [if_pos hbt] at hcase'
          obtain ⟨k', e, hr⟩ := hcase'
          exact one_of e hr
        · obtain ⟨d, hd', hr, hs⟩ := single hbt k' e
          exact one_of e (hsame1 e hs hd' hr)
      · omega
    · intro hag hp
      have hbt : b = true := by rw [hb hag]; simpa using hp
      rw [if_pos hbt] at hcase
      obtain ⟨k', e, hr⟩ := hcase
      exact one_of e hr
    · intro hag hp hct
      have hbt : ¬ b = true := by rw [hb hag]; simpa using hp
      rcases len2 with ⟨k', e⟩ | h2
      · obtain ⟨d, hd', hr, hs⟩ := single hbt k' e
        refine absurd ?_ hct
        unfold commonKeys
        rw [List.filter_eq_self]
        intro s hs'
        obtain ⟨d1, hd1, hs1⟩ := mem_allKeys.mp hs'
        simp only [List.all_eq_true, List.contains_iff_mem]
        intro d2 hd2
        exact (hs d2 hd2 s).mpr ((hs d1 hd1 s).mp hs1)
      · exact sep_of hbt h2

end Verif
