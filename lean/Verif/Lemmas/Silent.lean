import Verif.Lemmas.ClearTree
import Verif.Spec.Steady
/-
Trees that are described in place.
-/
namespace Verif
open Verif.Spec

/-- Kinds of nodes that do not force a declaration, for nodes of height at most `b`. -/
def silentKind (S : Strategies) (b : Nat) : NKind → Prop
  | .inst | .cls _ | .module | .io | .ndarray _ => True
  | .seq _ | .proxy => 1 ≤ b
  | .dict _ m => m.isTyped S = false ∧ 1 ≤ b
  | .func _ | .frame _ => False

mutual
/-- Nodes without declarations, of height at most `b`. -/
def Silent (S : Strategies) (b : Nat) : Node → Prop
  | .mk h kids => h.root = false ∧ silentKind S b h.kind ∧ SilentAll S (b - 1) kids
def SilentAll (S : Strategies) (b : Nat) : List Node → Prop
  | [] => True
  | k :: r => Silent S b k ∧ SilentAll S b r
end

theorem silentAll_iff {S : Strategies} {b : Nat} : ∀ {l : List Node}, SilentAll S b l ↔ ∀ k ∈ l, Silent S b k
  | [] => by simp [SilentAll]
  | k :: r => by simp [SilentAll, silentAll_iff (l := r)]

theorem inlineAll_iff {S : Strategies} {b : Nat} : ∀ {l : List Val}, InlineAll S b l ↔ ∀ v ∈ l, Inline S b v
  | [] => by simp [InlineAll]
  | k :: r => by simp [InlineAll, inlineAll_iff (l := r)]

mutual
theorem silent_rename {S : Strategies} {new : Str} {len : Nat} : ∀ (b c : Nat) (n : Node), Silent S b n → Silent S b (n.renameAux new len c)
  | b, c, .mk h kids, hn => by
    simp only [Silent, Node.renameAux] at hn ⊢
    exact ⟨hn.1, hn.2.1, silentAll_rename (b - 1) c h.slots kids hn.2.2⟩
theorem silentAll_rename {S : Strategies} {new : Str} {len : Nat} : ∀ (b c : Nat) (slots : List Slot) (l : List Node), SilentAll S b l →
    SilentAll S b (renameList new len c slots l)
  | _, _, _, [], _ => by simp [renameList, SilentAll]
  | b, c, [], k :: r, h => by
    simp only [renameList, SilentAll] at h ⊢
    exact ⟨silent_rename b c k h.1, silentAll_rename b c [] r h.2⟩
  | b, c, s :: ss, k :: r, h => by
    simp only [renameList, SilentAll] at h ⊢
    exact ⟨silent_rename b (c * s.mult) k h.1, silentAll_rename b c ss r h.2⟩
end

theorem silent_not_typed {S : Strategies} {b : Nat} {n : Node} (h : Silent S b n) : isTypedDict S n = false := by
  cases n with
  | mk hd kids =>
    simp only [Silent] at h
    cases hk : hd.kind with
    | dict d m =>
      rw [hk] at h
      simp only [isTypedDict, hk]
      exact h.2.1.1
    | _ => simp [isTypedDict, hk]

theorem silent_updateNode_any {S : Strategies} {b : Nat} {k c : Node} (hk : Silent S b k) : Silent S b (updateNode k c) := by
  cases k with
  | mk h1 k1 =>
    cases c with
    | mk h2 k2 =>
      simp only [updateNode]
      split
      · rename_i d m d' m' e1 e2
        simp only [Silent] at hk ⊢
        rw [e1] at hk
        refine ⟨hk.1, ⟨?_, hk.2.1.2⟩, hk.2.2⟩
        have h1 := hk.2.1.1
        simp only [DMeta.isTyped, Bool.and_eq_false_iff] at h1 ⊢
        rcases h1 with h1 | h1
        · refine .inl ?_
          rw [← Bool.not_eq_true, allStr, List.all_eq_true] at h1 ⊢
          intro h
          exact h1 (fun kv hkv => h kv (by simp [DMeta.update, hkv]))
        · exact .inr h1
      · exact hk

theorem inline_silent {E : Env} (hE : E.Fair) : ∀ (f b : Nat) {name : Str} {v : Val} {n : Node}, Steady E.S v → Inline E.S b v → v.depth < f →
    build E f false name v = .ok n → Silent E.S b n
  | 0, _, _, _, _, _, _, hf, _ => by omega
  | f + 1, b, name, v, n, hv, hi, hf, h => by
    obtain ⟨_, _, hk, hr⟩ := build_facts hE h hf
    have kidsOk : silentKind E.S b (kindOf E.S v) → SilentAll E.S (b - 1) n.kids → Silent E.S b n := by
      intro h1 h2
      cases n with
      | mk hd kids =>
        have hk : hd.kind = kindOf E.S v := hk
        exact ⟨hr, by rw [hk]; exact h1, h2⟩
    have leaf : ∀ {v : Val} {n : Node}, rich v = false → build E (f + 1) false name v = .ok n → SilentAll E.S (b - 1) n.kids := by
      intro v n h1 h2
      rw [build_plain h1 h2]
      trivial
    cases v with
    | inst t x => exact kidsOk trivial (leaf rfl h)
    | cls m n => exact kidsOk trivial (leaf rfl h)
    | module t => exact kidsOk trivial (leaf rfl h)
    | io t => exact kidsOk trivial (leaf rfl h)
    | ndarray t d => exact kidsOk trivial (leaf rfl h)
    | func fi => simp [Inline] at hi
    | seq k t es =>
      cases b with
      | zero => simp [Inline] at hi
      | succ b =>
        simp only [Inline, inlineAll_iff] at hi
        have hes := everyList_iff.mp hv.2
        have hd : ∀ e ∈ es, e.depth < f := by
          intro e he
          have := depth_le_depthList he
          simp only [Val.depth] at hf
          omega
        have spec : RecSpec E (build E f false) name es (Silent E.S b) (fun _ => True) := by
          refine ⟨?_, fun k c hk _ => silent_updateNode_any hk, ?_⟩
          · intro e he nm _
            unfold Ens
            split
            · rename_i n' hb
              exact inline_silent hE f b (hes e he) (hi e he) (hd e he) hb
            · trivial
          · intro ds hds _
            cases ds with
            | nil => exact trivial
            | cons d ds =>
              have := hds d (by simp)
              rw [silent_not_typed this.1] at this
              cases this.2
        refine kidsOk (by simp [kindOf, silentKind]) ?_
        rw [build_seq] at h
        split at h
        · split at h
          · rename_i slots kids hr'
            injection h with h
            subst h
            rw [silentAll_iff]
            by_cases hc : k = .tuple ∧ E.S.tuple = .fixed
            · rw [if_pos hc] at hr'
              have := tupleChildren_ens spec (fun k c _ hc => silent_rename _ _ _ hc)
              rw [hr'] at this
              exact this.1
            · rw [if_neg hc] at hr'
              have := setChildren_ens hE spec
              rw [hr'] at this
              exact this.1
          · cases h
        · cases h
    | map k t ks vs =>
      cases b with
      | zero => cases k <;> simp [Inline] at hi
      | succ b =>
        have maps : ∀ {items : List (Key × Val)} {kids : List (Key × Node)}, (∀ kv ∈ items, kv ∈ ks.zip vs) → InlineAll E.S b vs →
            mapKids (build E f false) name (keySuffix E.U) (visibleItems items) = .ok kids → SilentAll E.S b (shareEqual E name kids).2 := by
          intro items kids hsub hiv hk
          rw [silentAll_iff]
          have hvs := everyList_iff.mp hv.2
          have := mapKids_ens (rec := build E f false) (parent := name) (suffix := keySuffix E.U)
            (R := fun _ _ n => Silent E.S b n) (Q := fun _ => True) (items := visibleItems items) (by
              intro kv hkv
              have hz := hsub kv (List.mem_filter.mp hkv).1
              have hm := (List.of_mem_zip hz).2
              unfold Ens
              split
              · rename_i n' hb
                refine inline_silent hE f b (hvs _ hm) (inlineAll_iff.mp hiv _ hm) ?_ hb
                have := zip_depth hz
                simp only [Val.depth] at hf
                omega
              · trivial)
          rw [hk] at this
          refine shareEqual_all ?_ (fun n nm hn _ => silent_rename _ _ _ hn)
          intro kn hkn
          obtain ⟨_, _, h⟩ := this.2 kn hkn
          exact h
        cases k with
        | frame i => simp [Inline] at hi
        | dict =>
          simp only [Inline] at hi
          obtain ⟨kids, hkk, rfl⟩ := build_dict h
          refine kidsOk ⟨?_, by omega⟩ (maps (fun kv => dictData_subset) hi.2 hkk)
          have hl : ks.length = vs.length := hv.1.2
          have h1 := hi.1
          simp only [IsRecord, Classical.not_and_iff_not_or_not, Classical.not_forall] at h1
          simp only [DMeta.isTyped, DMeta.ofData, Bool.and_eq_false_iff, decide_eq_false_iff_not]
          rcases h1 with h1 | ⟨k, hk, hs⟩
          · exact .inr h1
          · by_cases hS : E.S.dict = .typedDict
            · refine .inl ?_
              rw [← Bool.not_eq_true, allStr, List.all_eq_true]
              intro h
              obtain ⟨v, hz⟩ := mem_zip_left hl hk
              have := h (k, v) (by simp only [dictData, hS, if_true]; exact hz)
              exact hs this
            · exact .inr hS
        | proxy =>
          simp only [Inline] at hi
          obtain ⟨kids, hkk, rfl⟩ := build_proxy h
          refine kidsOk (by simp [kindOf, silentKind]) (maps (fun kv => limit_subset) hi.2 hkk)

theorem record_not_inline {S : Strategies} {b : Nat} {v : Val} (h : IsRecord S v) : ¬ Inline S b v := by
  intro hi
  cases v with
  | map k t ks vs =>
    cases k with
    | dict =>
      cases b with
      | zero => simp [Inline] at hi
      | succ b =>
        simp only [Inline] at hi
        exact hi.1 h
    | _ => simp [IsRecord] at h
  | _ => simp [IsRecord] at h

end Verif
