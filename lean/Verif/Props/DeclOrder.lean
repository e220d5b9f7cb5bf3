import Verif.Lemmas.Unmerged
import Verif.Props.Determinism
import Verif.Props.Comments
import Verif.Props.Precise
/-
What the iteration order of Python sets decides on, in data without merging.
-/
namespace Verif.Props
open Verif Verif.Spec

theorem emits_texts {q : Prop} {o o' : Out} (h : OutEq q o o') : (declTexts o).Perm (declTexts o') := by
  unfold declTexts
  obtain ⟨mid, h1, h2, _⟩ := h.emitted
  apply dedup_perm_of_mem
  intro x
  rw [h1.map_eq (fun _ _ h => h.text)]
  exact (h2.map _).mem_iff

/-- The texts of trees that differ in the order of children. -/
theorem nodeStrings_order {q : Prop} {E E' : Env} {n n' : Node} (h : OutEq q (n.render E) (n'.render E')) :
    (∀ strs, nodeStrings E n false = .ok strs → ∃ strs', nodeStrings E' n' false = .ok strs' ∧ strs.Perm strs') ∧
    ∀ imports strs, nodeStrings E n true = .ok (imports :: strs) →
      ∃ strs', nodeStrings E' n' true = .ok (imports :: strs') ∧ strs.Perm strs' := by
  have hp := emits_texts h
  have hk : (allKws (n.render E)).Perm (allKws (n'.render E')) := by
    have := sim_allKws h
    unfold allKws at this ⊢
    simp only [mem_dedup] at this
    exact dedup_perm_of_mem this
  have hf : formatImports 90 (allKws (n.render E)) = formatImports 90 (allKws (n'.render E')) := by
    apply imports_order_independent 90 _ _ (nodup_dedup _) hk
    intro kw hkw
    exact (known_iff kw).2 (out_known (fun s => sigImports_known s) n kw hkw)
  have hempty : (declTexts (n.render E)).isEmpty = (declTexts (n'.render E')).isEmpty := by
    rw [Bool.eq_iff_iff, List.isEmpty_iff, List.isEmpty_iff]
    exact ⟨fun e => by rw [e] at hp; exact hp.symm.eq_nil, fun e => by rw [e] at hp; exact hp.eq_nil⟩
  cases h1 : firstFailure (n.render E).emitted with
  | some e => constructor <;> (intros; simp_all [nodeStrings])
  | none =>
    have h2 := sim_failures h h1
    cases he : (declTexts (n'.render E')).isEmpty with
    | true => constructor <;> (intros; simp_all [nodeStrings])
    | false =>
      constructor
      · intro strs hs
        simp only [nodeStrings, h1, h2, hempty, he, Bool.false_eq_true, if_false, Except.ok.injEq] at hs ⊢
        subst hs
        exact ⟨_, rfl, hp⟩
      · intro imports strs hs
        simp only [nodeStrings, h1, h2, hempty, he, Bool.false_eq_true, if_false, if_true] at hs ⊢
        rw [← hf]
        split at hs
        · rename_i im hi
          simp only [Except.ok.injEq, List.cons.injEq] at hs
          obtain ⟨rfl, rfl⟩ := hs
          exact ⟨_, rfl, hp⟩
        · cases hs

theorem fromData_order {E E' : Env} (hE : E.Fair) (hE' : E'.Fair) (hU : E'.U = E.U) (hS : E'.S = E.S) (hm : 0 < E.S.merge) {name : Str} {v : Val}
    (hv : Unmerged E.S v) {n : Node} (h : fromData E name v = .ok n) : ∃ n', fromData E' name v = .ok n' ∧ Sim False E.S n n' := by
  unfold fromData buildTree at h ⊢
  rw [hU]
  split at h
  · rename_i hn
    rw [if_pos hn]
    split at h
    · rename_i m hb
      injection h with h
      subst h
      obtain ⟨n', hb', hs⟩ := build_unmerged hE hE' hU hS hm _ true name v m hv (by omega) hb
      exact ⟨n', by rw [hb'], hs⟩
    · cases h
  · cases h

/-- **C93** for data in which no different dictionaries are merged: if one iteration order of Python sets yields a hint, all
orders yield the same declarations, perhaps in another order. Missing: sequences with dictionaries that are merged, for
which the claim is false. -/
theorem same_declarations_partial {E E' : Env} (hE : E.Fair) (hE' : E'.Fair) (hU : E'.U = E.U) (hS : E'.S = E.S)
    (hB : E'.isBuiltin = E.isBuiltin) (hR : E'.reprStr = E.reprStr) (hm : 0 < E.S.merge) (name : Str) (v : Val) (hv : Unmerged E.S v)
    (strs : List Str) (h : hintTexts E name v = some strs) : ∃ strs', hintTexts E' name v = some strs' ∧ strs.Perm strs' := by
  obtain ⟨n, hn, hs⟩ := hintTexts_some h
  obtain ⟨n', hn', hsim⟩ := fromData_order hE hE' hU hS hm hv hn
  obtain ⟨strs', hs', hp⟩ := (nodeStrings_order (sim_render hU hS hB hR hsim)).1 strs hs
  exact ⟨strs', by simp only [hintTexts, hn', hs'], hp⟩

/-- **C93**: the imports are the same under all orders. -/
theorem same_header_partial {E E' : Env} (hE : E.Fair) (hE' : E'.Fair) (hU : E'.U = E.U) (hS : E'.S = E.S)
    (hB : E'.isBuiltin = E.isBuiltin) (hR : E'.reprStr = E.reprStr) (hm : 0 < E.S.merge) (name : Str) (v : Val) (hv : Unmerged E.S v)
    (n : Node) (imports : Str) (strs : List Str) (hn : fromData E name v = .ok n) (hs : nodeStrings E n true = .ok (imports :: strs)) :
    ∃ n' strs', fromData E' name v = .ok n' ∧ nodeStrings E' n' true = .ok (imports :: strs') ∧ strs.Perm strs' := by
  obtain ⟨n', hn', hsim⟩ := fromData_order hE hE' hU hS hm hv hn
  obtain ⟨strs', hs', hp⟩ := (nodeStrings_order (sim_render hU hS hB hR hsim)).2 imports strs hs
  exact ⟨n', strs', hn', hs', hp⟩

theorem readAll_perm {α β : Type} {f : α → Option β} {l l' : List α} (h : l.Perm l') :
    ∀ {r}, readAll f l = some r → ∃ r', readAll f l' = some r' ∧ r.Perm r' := by
  induction h with
  | nil => intro r h; exact ⟨r, h, .refl _⟩
  | cons x _ ih =>
    intro r h
    simp only [readAll] at h ⊢
    split at h
    · rename_i b m hb hm
      injection h with h
      subst h
      obtain ⟨m', hm', hp⟩ := ih hm
      exact ⟨b :: m', by rw [hb, hm'], hp.cons _⟩
    · cases h
  | swap x y l =>
    intro r h
    cases hx : f x <;> cases hy : f y <;> cases hl : readAll f l <;> simp only [readAll, hx, hy, hl] at h ⊢ <;>
      first
      | cases h; done
      | (injection h with h; subst h; exact ⟨_, rfl, .swap ..⟩)
  | trans _ _ ih1 ih2 =>
    intro r h
    obtain ⟨r', h1, p1⟩ := ih1 h
    obtain ⟨r'', h2, p2⟩ := ih2 h1
    exact ⟨r'', h2, p1.trans p2⟩

theorem readText_perm {strs strs' : List Str} (h : strs.Perm strs') {Γ} (hr : readText strs = some Γ) :
    ∃ Γ', readText strs' = some Γ' ∧ Γ.Perm Γ' := by
  unfold readText at hr ⊢
  exact readAll_perm h hr

theorem admits_perm {Γ Γ' : List TDecl} (h : Γ.Perm Γ') {t : TExpr} {v : Val} (ha : Admits Γ t v) : Admits Γ' t v := by
  have hd : ∀ {n}, ¬ Declared Γ n → ¬ Declared Γ' n := by
    rintro n hn ⟨d, hd, e⟩
    exact hn ⟨d, h.mem_iff.mpr hd, e⟩
  have hD : ∀ {n b}, Defines Γ n b → Defines Γ' n b := by
    rintro n b ⟨h1, h2⟩
    exact ⟨h.mem_iff.mp h1, fun d hd => h2 d (h.mem_iff.mpr hd)⟩
  induction ha with
  | any v a => exact .any v (hd a)
  | object v a b => exact .object v (hd a) (hd b)
  | cls v a => exact .cls v (hd a)
  | promote v a b => exact .promote v (hd a) b
  | quoted v _ ih => exact .quoted v ih
  | alias a _ ih => exact .alias (hD a) ih
  | union a b _ ih => exact .union (hd a) b ih
  | app a b _ ih => exact .app (hd a) b ih
  | tuple a b _ ih => exact .tuple (hd a) b ih
  | tupleOf a _ ih => exact .tupleOf (hd a) ih
  | mapping a b _ _ ih1 ih2 => exact .mapping (hd a) b ih1 ih2
  | record a b c _ ih => exact .record (hD a) b c ih
  | anyFrame a => exact .anyFrame (hd a)
  | frame a b c d _ ih => exact .frame (hD a) (hd b) c d ih
  | typeOf a b c => exact .typeOf (hd a) (hd b) c
  | module a => exact .module (hd a)
  | file a => exact .file (hd a)
  | array a b => exact .array (hd a) (hd b)
  | callable a b c => exact .callable (hd a) (hd b) c
  | function a => exact .function (hd a)

/-- **C93**: hints that can be read describe the same values under all orders. -/
theorem order_same_values_partial {E E' : Env} (hE : E.Fair) (hE' : E'.Fair) (hU : E'.U = E.U) (hS : E'.S = E.S)
    (hB : E'.isBuiltin = E.isBuiltin) (hR : E'.reprStr = E.reprStr) (hm : 0 < E.S.merge) (name : Str) (v : Val) (hv : Unmerged E.S v)
    (Γ : List TDecl) (h : Hint E name v Γ) : ∃ Γ', Hint E' name v Γ' ∧ ∀ t w, Admits Γ t w ↔ Admits Γ' t w := by
  obtain ⟨n, strs, hn, hs, hr⟩ := h
  obtain ⟨n', hn', hsim⟩ := fromData_order hE hE' hU hS hm hv hn
  obtain ⟨strs', hs', hp⟩ := (nodeStrings_order (sim_render hU hS hB hR hsim)).1 strs hs
  obtain ⟨Γ', hr', hΓ⟩ := readText_perm hp hr
  exact ⟨Γ', ⟨n', strs', hn', hs', hr'⟩, fun t w => ⟨admits_perm hΓ, admits_perm hΓ.symm⟩⟩

/-- **C93** in full: whatever order yields a hint, any other yields one that describes the same values. -/
def OrderDecidesNothing : Prop :=
  ∀ (E E' : Env) (name : Str) (v : Val) (Γ : List TDecl), E.Fair → E'.Fair → E'.U = E.U → E'.S = E.S → E'.isBuiltin = E.isBuiltin →
    E'.reprStr = E.reprStr → Hint E name v Γ → ∃ Γ', Hint E' name v Γ' ∧ ∀ t w, Admits Γ t w ↔ Admits Γ' t w

/-- `{"a": 1, "b": [x]}` -/
def winningRecord (x : Val) : Val := dictOf [(py!"a", .inst .int none), (py!"b", .seq .list .list [x])]

/-- **C93** is false of dictionaries that are merged: in `[{"a": 1, "b": [1]}, {"a": 1, "b": ["x"]}]` the order of a set decides
which list describes the field `b`, thus which of the two dictionaries the hint describes. -/
theorem order_decides_fails : ¬ OrderDecidesNothing := by
  intro h
  obtain ⟨Γ, h1, h2⟩ := accepts_spec (E := revEnv {}) (name := py!"X")
    (v := .seq .list .list [winningRecord (.inst .int none), winningRecord (.inst .str none)])
    (w := .seq .list .list [winningRecord (.inst .int none)]) (by decide +kernel)
  obtain ⟨Δ, h3, h4⟩ := rejects_spec (E := exEnv {}) (name := py!"X")
    (v := .seq .list .list [winningRecord (.inst .int none), winningRecord (.inst .str none)])
    (w := .seq .list .list [winningRecord (.inst .int none)]) (by decide +kernel)
  obtain ⟨Γ', h5, h6⟩ := h _ (exEnv {}) _ _ Γ (revEnv_fair _) (exEnv_fair _) rfl rfl rfl rfl h1
  obtain ⟨n, strs, a1, a2, a3⟩ := h3
  obtain ⟨n', strs', b1, b2, b3⟩ := h5
  rw [a1] at b1
  injection b1 with b1
  subst b1
  rw [a2] at b2
  injection b2 with b2
  subst b2
  rw [a3] at b3
  injection b3 with b3
  subst b3
  exact h4 ((h6 _ _).mp h2)

/-- Two dictionaries that are not merged, and lists with declarations of their own. -/
def sampleUnmerged : Val :=
  .seq .list .list [dictOf [(py!"a", .inst .int none)], .seq .list .list [.seq .list .list [.inst .int none]],
    dictOf [(py!"b", .inst .str none)], .seq .list .list [.seq .list .list [.inst .str none]]]

theorem sampleUnmerged_ok : Unmerged {} sampleUnmerged := by
  have hd : ∀ a b : Key, a ≠ b → a.hidden = false → b.hidden = false → ∀ x y, Dissimilar {} (.map .dict .dict [a] [x]) (.map .dict .dict [b] [y]) := by
    intro a b h ha hb x y
    have e : (List.filter (fun k => decide (k = b)) (dedup [a])) = [] := by
      rw [List.filter_eq_nil_iff]
      intro k hk
      rw [mem_dedup, List.mem_singleton] at hk
      simp [hk, h]
    simp [Dissimilar, sharedFields, allFields, fieldsOf, ha, hb, e]
  have n : ∀ k t x, ¬ IsRecord {} (.seq k t x) := fun _ _ _ h => h
  refine ⟨?_, ⟨by simp, trivial, trivial⟩, ⟨?_, ⟨?_, trivial, trivial⟩, trivial⟩, ⟨by simp, trivial, trivial⟩, ⟨?_, ⟨?_, trivial, trivial⟩, trivial⟩, trivial⟩
  · intro _
    simp [limit, n]
    exact fun _ _ => .inl (hd _ _ (by decide) (by decide) (by decide) _ _)
  all_goals (intro _; simp [limit])

/-- The hypotheses of the theorems hold for the sample, whose declarations do come in different orders. -/
example : Unmerged {} sampleUnmerged ∧
    hintTexts (exEnv {}) py!"X" sampleUnmerged = some [py!"class XDict(TypedDict):\n    a: int", py!"XList: TypeAlias = List[List[int]]",
      py!"class XDict2(TypedDict):\n    b: str", py!"XList2: TypeAlias = List[List[str]]",
      py!"X: TypeAlias = List[Union[XDict, XDict2, XList, XList2]]"] ∧
    hintTexts (revEnv {}) py!"X" sampleUnmerged = some [py!"XList2: TypeAlias = List[List[str]]", py!"class XDict2(TypedDict):\n    b: str",
      py!"XList: TypeAlias = List[List[int]]", py!"class XDict(TypedDict):\n    a: int",
      py!"X: TypeAlias = List[Union[XDict, XDict2, XList, XList2]]"] :=
  ⟨sampleUnmerged_ok, by decide +kernel, by decide +kernel⟩
example : ∃ Γ, Hint (exEnv {}) py!"X" sampleUnmerged Γ ∧ Admits Γ (.name py!"X") sampleUnmerged := accepts_spec (by decide +kernel)

end Verif.Props
