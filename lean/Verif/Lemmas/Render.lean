import Verif.Lemmas.Total
namespace Verif
open Verif.Spec

section
variable {E : Env} {im : Str → List Str}

mutual
/-- Induction over the rendering of a tree whose headers satisfy `p`. -/
theorem out_ind {p : Hdr → Prop} {R : Out → Prop}
    (step : ∀ h kids, p h → (∀ k ∈ kids, R k) → R (combine E im h kids)) :
    ∀ {n : Node}, NodeAll p n → R (n.out E im)
  | .mk h kids => by
    simp only [NodeAll, Node.out]
    intro hh
    exact step h _ hh.1 (outList_ind step hh.2)
theorem outList_ind {p : Hdr → Prop} {R : Out → Prop}
    (step : ∀ h kids, p h → (∀ k ∈ kids, R k) → R (combine E im h kids)) :
    ∀ {l : List Node}, NodeAllList p l → ∀ k ∈ outList E im l, R k
  | [] => by simp [outList]
  | n :: r => by
    simp only [NodeAllList, outList, List.mem_cons]
    rintro hh k (rfl | hk)
    · exact out_ind step hh.1
    · exact outList_ind step hh.2 k hk
end

mutual
theorem nodeAll_true : ∀ (n : Node), NodeAll (fun _ => True) n
  | .mk h kids => by simp only [NodeAll]; exact ⟨trivial, nodeAllList_true kids⟩
theorem nodeAllList_true : ∀ (l : List Node), NodeAllList (fun _ => True) l
  | [] => trivial
  | n :: r => ⟨nodeAll_true n, nodeAllList_true r⟩
end

theorem outList_eq_map : ∀ l : List Node, outList E im l = l.map (fun n => n.out E im)
  | [] => rfl
  | n :: r => by simp [outList, outList_eq_map r]

theorem mem_iterate {α} {slots : List Slot} {kids : List α} {k : α} (h : k ∈ iterate slots kids) : k ∈ kids := by
  simp only [iterate, List.mem_map] at h
  obtain ⟨sk, hsk, rfl⟩ := h
  exact (List.of_mem_zip ((List.takeWhile_prefix _).subset hsk)).2

theorem mem_keyed {α} {slots : List Slot} {kids : List α} {kk : Key × α} (h : kk ∈ (slots.map (·.key)).zip kids) :
    kk.2 ∈ kids := (List.of_mem_zip h).2

/-- Lift a declaration property through `emitOf`. -/
theorem emitOf_all {D : Decl → Prop} {h : Hdr} {perm : Bool} {top : Decl} {kids : List Out} (ht : D top)
    (hk : ∀ k ∈ kids, D k.top ∧ ∀ d ∈ k.emitted, D d) : ∀ d ∈ emitOf h perm top kids, D d := by
  intro d hd
  unfold emitOf at hd
  split at hd
  · split at hd
    · simp only [List.mem_singleton] at hd; subst hd; exact ht
    · simp at hd
  · simp only [List.mem_append, List.mem_flatMap] at hd
    rcases hd with ⟨k, hk', hd | hd⟩ | hd
    · exact (hk k (mem_iterate hk')).2 d hd
    · split at hd
      · simp only [List.mem_singleton] at hd; subst hd; exact (hk k (mem_iterate hk')).1
      · simp at hd
    · split at hd
      · simp only [List.mem_singleton] at hd; subst hd; exact ht
      · simp at hd

/-! ### Known import keywords -/

/-- A keyword of the table. -/
abbrev KnownKw (kw : Str) : Prop := (packageOf kw).isSome = true

/-- All keywords of a list are known. -/
def KwsKnown (l : List Str) : Prop := ∀ kw ∈ l, KnownKw kw

theorem KwsKnown.append {a b : List Str} (ha : KwsKnown a) (hb : KwsKnown b) : KwsKnown (a ++ b) := by
  intro kw hk
  rcases List.mem_append.mp hk with h | h
  · exact ha kw h
  · exact hb kw h

theorem KwsKnown.cons {a : Str} {b : List Str} (ha : KnownKw a) (hb : KwsKnown b) : KwsKnown (a :: b) := by
  intro kw hk
  rcases List.mem_cons.mp hk with rfl | h
  · exact ha
  · exact hb kw h

theorem KwsKnown.nil : KwsKnown [] := by intro kw hk; simp at hk

theorem KwsKnown.flatMap {α} {l : List α} {f : α → List Str} (h : ∀ a ∈ l, KwsKnown (f a)) : KwsKnown (l.flatMap f) := by
  intro kw hk
  obtain ⟨a, ha, hk⟩ := List.mem_flatMap.mp hk
  exact h a ha kw hk

/-- Check a literal list of keywords. -/
macro "known" : tactic => `(tactic| first | decide +kernel | (dsimp only; decide +kernel))

theorem kwsKnown_of_all {l : List Str} (h : l.all (fun kw => (packageOf kw).isSome) = true) : KwsKnown l := by
  intro kw hk; exact List.all_eq_true.mp h kw hk

theorem refKws_known {k : Out} (h : KwsKnown k.top.kws) : KwsKnown (refKws k) := by
  unfold refKws; split
  · exact .nil
  · exact h

theorem childTypes_known {kids : List Out} {b : Bool} (h : ∀ k ∈ kids, KwsKnown k.top.kws) :
    KwsKnown (childTypes kids b).2 := by
  have h1 : KwsKnown (kids.flatMap refKws) := .flatMap (fun k hk => refKws_known (h k hk))
  unfold childTypes
  dsimp only
  split
  · exact h1.append (kwsKnown_of_all (by known))
  · exact h1

theorem formatTypes_known (ts : List Str) : KwsKnown (formatTypes ts).2 := by
  unfold formatTypes; split
  · exact .nil
  · exact kwsKnown_of_all (by known)

theorem aliasChildren_known {kids : List Out} (h : ∀ k ∈ kids, KwsKnown k.top.kws) : KwsKnown (aliasChildren kids).2 := by
  unfold aliasChildren
  exact (childTypes_known h).append (formatTypes_known _)

theorem tupleAliasChildren_known {S : Strategies} {kids : List Out} (h : ∀ k ∈ kids, KwsKnown k.top.kws) :
    KwsKnown (tupleAliasChildren S kids).2 := by
  unfold tupleAliasChildren
  split
  · dsimp only
    split
    · exact (childTypes_known h).append (kwsKnown_of_all (by known))
    · exact childTypes_known (b := false) h
  · dsimp only
    split
    · exact (childTypes_known h).append (kwsKnown_of_all (by known))
    · split
      · exact childTypes_known (b := true) h
      · exact (childTypes_known h).append (kwsKnown_of_all (by known))

theorem instTop_known {h : Hdr} : KwsKnown (instTop E h).2 := by
  unfold instTop
  dsimp only
  split
  · exact kwsKnown_of_all (by known)
  · split
    · exact kwsKnown_of_all (by known)
    · exact .nil

theorem funcTop_known (him : ∀ s, KwsKnown (im s)) {name : Str} {f : FuncInfo} : KwsKnown (funcTop im name f).kws := by
  unfold funcTop
  split
  · exact .nil
  · exact kwsKnown_of_all (by known)
  · split
    · exact kwsKnown_of_all (by known)
    · have hp : KnownKw py!"Protocol" := by decide +kernel
      dsimp only
      split
      · exact .cons hp (him _)
      · split
        · exact .cons hp (him _)
        · exact .cons hp (him _)
        · split
          · exact (KwsKnown.cons hp (him _)).append (kwsKnown_of_all (by known))
          · exact .cons hp (him _)

theorem mapTop_known {h : Hdr} {keys : List Key} {kids : List Out} (hk : ∀ k ∈ kids, KwsKnown k.top.kws) :
    KwsKnown (mapTop E h keys kids).2 := by
  unfold mapTop
  dsimp only
  refine KwsKnown.append (.append (.append (.append ?_ ?_) (formatTypes_known _)) (aliasChildren_known hk))
    (kwsKnown_of_all (by known))
  · refine .cons ?_ .nil
    split
    · decide +kernel
    · split <;> decide +kernel
  · split
    · exact childTypes_known hk
    · exact .nil

theorem entryType_known {m : DMeta} {key : Str} {kid : Out} (h : KwsKnown kid.top.kws) :
    KwsKnown (entryType E m key kid).2 := by
  have h0 : KwsKnown (if kid.perm then (toCamel E.U kid.name, []) else (withoutLvalue kid.top.text, kid.top.kws)).2 := by
    split
    · exact .nil
    · exact h
  unfold entryType
  dsimp only
  split
  · exact h0
  · rename_i required _
    have h1 : KwsKnown (if required = true then
        ((if kid.perm then (toCamel E.U kid.name, []) else (withoutLvalue kid.top.text, kid.top.kws)).1,
         (if kid.perm then (toCamel E.U kid.name, []) else (withoutLvalue kid.top.text, kid.top.kws)).2)
        else (py!"NotRequired[" ++ (if kid.perm then (toCamel E.U kid.name, ([] : List Str)) else (withoutLvalue kid.top.text, kid.top.kws)).1
          ++ py!"]", (if kid.perm then (toCamel E.U kid.name, []) else (withoutLvalue kid.top.text, kid.top.kws)).2 ++
            [py!"NotRequired"])).2 := by
      split
      · exact h0
      · exact h0.append (kwsKnown_of_all (by known))
    split
    · exact h1.append (kwsKnown_of_all (by known))
    · exact h1

theorem typedTop_known {h : Hdr} {data : List (Key × Val)} {m : DMeta} {kids : List (Key × Out)}
    (hk : ∀ kk ∈ kids, KwsKnown kk.2.top.kws) : KwsKnown (typedTop E h data m kids).2 := by
  unfold typedTop
  dsimp only
  refine .cons (by decide +kernel) (.flatMap ?_)
  intro e he
  obtain ⟨kk, hkk, he⟩ := List.mem_filterMap.mp he
  split at he
  · simp only [Option.some.injEq] at he
    subst he
    exact entryType_known (hk kk hkk)
  · cases he

theorem frameTop_known {h : Hdr} {kids : List (Key × Out)} (hk : ∀ kk ∈ kids, KwsKnown kk.2.top.kws) :
    KwsKnown (frameTop E h kids).2 := by
  unfold frameTop
  split
  · exact kwsKnown_of_all (by known)
  · dsimp only
    have : KwsKnown ([py!"pandas", py!"overload", py!"Union", py!"Literal", py!"npt", py!"tuple", py!"list", py!"Hashable",
      py!"numpy", py!"pd.Scalar"] ++ (kids.filter (fun kk => literalKey kk.1)).flatMap (fun kk => refKws kk.2)) := by
      refine KwsKnown.append (kwsKnown_of_all (by known)) (.flatMap ?_)
      intro kk hkk
      exact refKws_known (hk kk (List.mem_filter.mp hkk).1)
    split <;> exact this

theorem topOf_known (him : ∀ s, KwsKnown (im s)) {h : Hdr} {kids : List Out} (hk : ∀ k ∈ kids, KwsKnown k.top.kws) :
    KwsKnown (topOf E im h kids).kws := by
  have hi : ∀ k ∈ iterate h.slots kids, KwsKnown k.top.kws := fun k hk' => hk k (mem_iterate hk')
  have hkeyed : ∀ kk ∈ (h.slots.map (·.key)).zip kids, KwsKnown kk.2.top.kws := fun kk hkk => hk _ (mem_keyed hkk)
  unfold topOf
  dsimp only
  split
  · exact instTop_known
  · exact funcTop_known him
  · exact kwsKnown_of_all (by known)
  · exact kwsKnown_of_all (by known)
  · exact kwsKnown_of_all (by known)
  · exact kwsKnown_of_all (by known)
  · split <;> exact KwsKnown.append (kwsKnown_of_all (by known)) (aliasChildren_known hi)
  · exact KwsKnown.append (kwsKnown_of_all (by known)) (aliasChildren_known hi)
  · exact KwsKnown.append (kwsKnown_of_all (by known)) (aliasChildren_known hi)
  · exact KwsKnown.append (kwsKnown_of_all (by known)) (tupleAliasChildren_known hi)
  · exact KwsKnown.append (kwsKnown_of_all (by known)) (aliasChildren_known hi)
  · exact KwsKnown.append (kwsKnown_of_all (by known)) (aliasChildren_known hi)
  · rename_i data m _
    split
    · exact typedTop_known (h := h) (data := data) hkeyed
    · exact mapTop_known hi
  · exact mapTop_known hi
  · exact frameTop_known hkeyed

/-- Every keyword requested while a tree is rendered is known to the import printer. -/
theorem out_known (him : ∀ s, KwsKnown (im s)) (n : Node) : KwsKnown (allKws (n.out E im)) := by
  have : KwsKnown (n.out E im).top.kws ∧ ∀ d ∈ (n.out E im).emitted, KwsKnown d.kws := by
    refine out_ind (p := fun _ => True) (R := fun o => KwsKnown o.top.kws ∧ ∀ d ∈ o.emitted, KwsKnown d.kws) ?_
      (nodeAll_true n)
    intro h kids _ hk
    have ht := topOf_known (E := E) him (h := h) (fun k hk' => (hk k hk').1)
    exact ⟨ht, emitOf_all (D := fun d => KwsKnown d.kws) ht hk⟩
  intro kw hkw
  rw [allKws, mem_dedup, List.mem_flatMap] at hkw
  obtain ⟨d, hd, hkw⟩ := hkw
  exact this.2 d hd kw hkw

theorem sigImports_known {U : Uni} (s : Str) : KwsKnown (sigImports U s) := by
  have h : ∀ x, KwsKnown (importSymbols U x) := by
    intro x kw hk
    exact (List.mem_filter.mp hk).2
  unfold sigImports
  refine KwsKnown.append (.flatMap (fun a _ => h _)) ?_
  split
  · exact h _
  · exact .nil

/-! ### Failures -/

/-- A root node always has a declaration. -/
theorem permOf_root {S : Strategies} {h : Hdr} {height : Nat} (hr : h.root = true) : permOf S h height = true := by
  unfold permOf
  dsimp only
  split <;> simp [hr]

theorem emitted_root {n : Node} (hr : n.hdr.root = true) : (n.out E im).top ∈ (n.out E im).emitted := by
  cases n with
  | mk h kids =>
    have hr : h.root = true := hr
    simp only [Node.out, combine, emitOf, permOf_root hr, hr]
    split <;> simp

theorem declTexts_root_ne_nil {n : Node} (hr : n.hdr.root = true) : (declTexts (n.out E im)).isEmpty = false := by
  rw [List.isEmpty_eq_false_iff_exists_mem]
  exact ⟨(n.out E im).top.text, by
    rw [declTexts, mem_dedup]
    exact List.mem_map.mpr ⟨_, emitted_root hr, rfl⟩⟩

theorem firstFailure_none {l : List Decl} : firstFailure l = none ↔ ∀ d ∈ l, d.fails = none := by
  induction l with
  | nil => simp [firstFailure]
  | cons d r ih =>
    simp only [firstFailure, Option.or_eq_none_iff, ih, List.mem_cons, forall_eq_or_imp]

theorem funcTop_fails {name : Str} {f : FuncInfo} (h : FuncOk f) : (funcTop im name f).fails = none := by
  unfold funcTop
  split
  · rename_i hs; exact absurd hs h.1
  · rfl
  · rename_i args n hs
    split
    · rfl
    · rename_i hl
      dsimp only
      split
      · rfl
      · rename_i hc
        split
        · rename_i hu
          exact absurd hu (h.2 args n hs (by simpa using hl) (by simpa using hc))
        · rfl
        · split <;> rfl

theorem topOf_fails {h : Hdr} {kids : List Out} (hf : ∀ f, h.kind = .func f → FuncOk f) :
    (topOf E im h kids).fails = none := by
  unfold topOf
  dsimp only
  split <;> first | rfl | skip
  · rename_i f hk; exact funcTop_fails (hf f hk)
  · split <;> rfl
  · split <;> rfl

theorem out_fails {n : Node} (h : NodeAll (fun h => ∀ f, h.kind = .func f → FuncOk f) n) :
    firstFailure (n.out E im).emitted = none := by
  rw [firstFailure_none]
  have : (n.out E im).top.fails = none ∧ ∀ d ∈ (n.out E im).emitted, d.fails = none := by
    refine out_ind (R := fun o => o.top.fails = none ∧ ∀ d ∈ o.emitted, d.fails = none) ?_ h
    intro hd kids hp hk
    have ht := topOf_fails (E := E) (im := im) (kids := kids) hp
    exact ⟨ht, emitOf_all (D := fun d => d.fails = none) ht hk⟩
  exact this.2

end
end Verif
