import Verif.Spec.Shape
import Verif.Lemmas.Share
/-
Which values a structural hash stands for, and the proof that the tree built from tame data stands for all values of the
same shape.
-/
namespace Verif
open Verif.Spec

/-! ### Same shape is an equivalence -/

theorem SameShape.symm {v w : Val} (h : SameShape v w) : SameShape w v := by
  induction h with
  | inst => exact .inst
  | tuple hl _ ih =>
    refine .tuple hl.symm ?_
    rintro ⟨a, b⟩ hp
    refine ih (b, a) ?_
    rw [List.mem_iff_getElem] at hp ⊢
    obtain ⟨i, hi, e⟩ := hp
    simp only [List.length_zip] at hi
    refine ⟨i, by simp only [List.length_zip]; omega, ?_⟩
    simp only [List.getElem_zip, Prod.mk.injEq] at e ⊢
    exact ⟨e.2, e.1⟩
  | seq R hk _ h1 h2 ih => exact .seq (fun a b => R b a) hk (fun a b r => ih b a r) h2 h1
  | dict R l1 l2 _ h1 h2 ih => exact .dict (fun a b => R b a) l2 l1 (fun a b r => ih b a r) h2 h1

theorem SameShape.trans {u v w : Val} (h : SameShape u v) (h' : SameShape v w) : SameShape u w := by
  induction h generalizing w with
  | inst => cases h'; exact .inst
  | @tuple _ _ es es' hl _ ih =>
    cases h' with
    | tuple hl' h2 =>
      refine .tuple (hl.trans hl') ?_
      rintro ⟨a, c⟩ hp
      rw [List.mem_iff_getElem] at hp
      obtain ⟨i, hi, e⟩ := hp
      simp only [List.length_zip] at hi
      simp only [List.getElem_zip, Prod.mk.injEq] at e
      have hi' : i < es'.length := by omega
      refine ih (a, es'[i]) ?_ (h2 (es'[i], c) ?_)
      · rw [List.mem_iff_getElem]
        exact ⟨i, by simp only [List.length_zip]; omega, by simp [e.1]⟩
      · rw [List.mem_iff_getElem]
        exact ⟨i, by simp only [List.length_zip]; omega, by simp [e.2]⟩
    | seq R hk => exact absurd rfl hk
  | seq R hk _ h1 h2 ih =>
    cases h' with
    | tuple => exact absurd rfl hk
    | seq R' _ r' h1' h2' =>
      refine .seq (fun a c => ∃ b, R a b ∧ R' b c) hk ?_ ?_ ?_
      · rintro a c ⟨b, h3, h4⟩
        exact ih a b h3 (r' b c h4)
      · intro e he
        obtain ⟨e', he', hr⟩ := h1 e he
        obtain ⟨e'', he'', hr'⟩ := h1' e' he'
        exact ⟨e'', he'', e', hr, hr'⟩
      · intro e'' he''
        obtain ⟨e', he', hr'⟩ := h2' e'' he''
        obtain ⟨e, he, hr⟩ := h2 e' he'
        exact ⟨e, he, e', hr, hr'⟩
  | dict R l1 l2 _ h1 h2 ih =>
    cases h' with
    | dict R' l1' l2' r' h1' h2' =>
      refine .dict (fun a c => ∃ b, R a b ∧ R' b c) l1 l2' ?_ ?_ ?_
      · rintro a c ⟨b, h3, h4⟩
        exact ih a b h3 (r' b c h4)
      · intro kv hkv
        obtain ⟨e', he', hr⟩ := h1 kv hkv
        obtain ⟨e'', he'', hr'⟩ := h1' _ he'
        exact ⟨e'', he'', e', hr, hr'⟩
      · intro kv hkv
        obtain ⟨e', he', hr'⟩ := h2' kv hkv
        obtain ⟨e, he, hr⟩ := h2 _ he'
        exact ⟨e, he, e', hr, hr'⟩

/-! ### What a hash stands for -/

/-- Hashes of elements, as opposed to items of mappings. -/
def plainH : H → Prop
  | .mapping _ _ => False
  | .typed _ _ => False
  | _ => True

mutual
/-- The value `v` has the type that the hash describes, if `κ` is the kind of collections. -/
def Fits (κ : SeqKind) : H → Val → Prop
  | .ty t, v => Scalar v ∧ v.ty = t
  | .tup hs, v => ∃ ty es, v = .seq .tuple ty es ∧ FitsEach κ hs es
  | .set hs, v =>
    (∃ ty es, v = .seq κ ty es ∧ (∀ h ∈ hs, plainH h) ∧ ∀ e ∈ es, FitsSome κ hs e) ∨
    (∃ ty ks vs, v = .map .dict ty ks vs ∧ ks ≠ [] ∧ ks.length = vs.length ∧ (∀ kv ∈ ks.zip vs, FitsItem κ hs kv) ∧
      ∀ h ∈ hs, ∀ k h', h = .typed k h' → k ∈ ks)
  | _, _ => False
def FitsEach (κ : SeqKind) : List H → List Val → Prop
  | [], es => es = []
  | h :: r, es => ∃ e es', es = e :: es' ∧ Fits κ h e ∧ FitsEach κ r es'
def FitsSome (κ : SeqKind) : List H → Val → Prop
  | [], _ => False
  | h :: r, v => Fits κ h v ∨ FitsSome κ r v
def FitsItem (κ : SeqKind) : List H → Key × Val → Prop
  | [], _ => False
  | .typed k h :: r, kv => (k = kv.1 ∧ Fits κ h kv.2) ∨ FitsItem κ r kv
  | .mapping t h :: r, kv => (t = kv.1.ty ∧ Fits κ h kv.2) ∨ FitsItem κ r kv
  | _ :: r, kv => FitsItem κ r kv
end

/-- The hash of an item admits the item. -/
def ItemOk (κ : SeqKind) : H → Key × Val → Prop
  | .typed k h, kv => k = kv.1 ∧ Fits κ h kv.2
  | .mapping t h, kv => t = kv.1.ty ∧ Fits κ h kv.2
  | _, _ => False

theorem fitsSome_iff {κ : SeqKind} {v : Val} : ∀ {hs : List H}, FitsSome κ hs v ↔ ∃ h ∈ hs, Fits κ h v
  | [] => by simp [FitsSome]
  | h :: r => by simp [FitsSome, fitsSome_iff (hs := r)]

theorem fitsItem_iff {κ : SeqKind} {kv : Key × Val} : ∀ {hs : List H}, FitsItem κ hs kv ↔ ∃ h ∈ hs, ItemOk κ h kv
  | [] => by simp [FitsItem]
  | .typed k h :: r => by simp [FitsItem, ItemOk, fitsItem_iff (hs := r)]
  | .mapping t h :: r => by simp [FitsItem, ItemOk, fitsItem_iff (hs := r)]
  | .ty _ :: r => by simp [FitsItem, ItemOk, fitsItem_iff (hs := r)]
  | .str _ :: r => by simp [FitsItem, ItemOk, fitsItem_iff (hs := r)]
  | .set _ :: r => by simp [FitsItem, ItemOk, fitsItem_iff (hs := r)]
  | .tup _ :: r => by simp [FitsItem, ItemOk, fitsItem_iff (hs := r)]

theorem fitsEach_iff {κ : SeqKind} : ∀ {hs : List H} {es : List Val}, FitsEach κ hs es ↔ All₂ (Fits κ) hs es
  | [], es => by
    simp only [FitsEach]
    constructor
    · rintro rfl; exact .nil
    · rintro ⟨⟩; rfl
  | h :: r, es => by
    simp only [FitsEach]
    constructor
    · rintro ⟨e, es', rfl, h1, h2⟩; exact .cons h1 (fitsEach_iff.mp h2)
    · intro ha
      cases ha with
      | cons h1 h2 => exact ⟨_, _, rfl, h1, fitsEach_iff.mpr h2⟩

theorem plainH_eqv {x y : H} (h : H.eqv x y = true) (hx : plainH x) : plainH y := by
  cases x <;> cases y <;> first | trivial | (simp [H.eqv] at h) | exact hx.elim

/-- Equal hashes stand for the same values. -/
def Pres (κ : SeqKind) (x : H) : Prop := ∀ y, H.eqv x y = true → (∀ v, Fits κ x v → Fits κ y v) ∧ ∀ kv, ItemOk κ x kv → ItemOk κ y kv

mutual
theorem eqv_pres {κ : SeqKind} : ∀ x : H, Pres κ x
  | .ty a => by
    intro y h
    cases y <;> simp [H.eqv] at h
    subst h
    exact ⟨fun _ h => h, fun _ h => h⟩
  | .str a => by
    intro y h
    exact ⟨fun _ h => by simp [Fits] at h, fun _ h => h.elim⟩
  | .mapping t a => by
    intro y h
    cases y <;> simp [H.eqv] at h
    obtain ⟨rfl, h⟩ := h
    exact ⟨fun _ h => by simp [Fits] at h, fun kv hk => ⟨hk.1, ((eqv_pres (κ := κ) a) _ h).1 _ hk.2⟩⟩
  | .typed t a => by
    intro y h
    cases y <;> simp [H.eqv] at h
    obtain ⟨rfl, h⟩ := h
    exact ⟨fun _ h => by simp [Fits] at h, fun kv hk => ⟨hk.1, ((eqv_pres (κ := κ) a) _ h).1 _ hk.2⟩⟩
  | .tup a => by
    intro y h
    cases y with
    | tup b =>
      simp only [H.eqv] at h
      refine ⟨?_, fun _ h => h.elim⟩
      rintro v ⟨ty, es, rfl, hf⟩
      exact ⟨ty, es, rfl, eqvList_pres (κ := κ) a b es h hf⟩
    | _ => simp [H.eqv] at h
  | .set a => by
    intro y h
    cases y with
    | set b =>
      rw [eqv_set] at h
      obtain ⟨h1, h2⟩ := h
      have hp := eqvs_pres (κ := κ) a
      refine ⟨?_, fun _ h => h.elim⟩
      rintro v (⟨ty, es, rfl, hpl, hf⟩ | ⟨ty, ks, vs, rfl, hne, hl, hf, hk⟩)
      · refine .inl ⟨ty, es, rfl, ?_, ?_⟩
        · intro y hy
          obtain ⟨x, hx, he⟩ := h2 y hy
          exact plainH_eqv he (hpl x hx)
        · intro e he
          obtain ⟨x, hx, hfx⟩ := fitsSome_iff.mp (hf e he)
          obtain ⟨y, hy, hxy⟩ := h1 x hx
          exact fitsSome_iff.mpr ⟨y, hy, (hp x hx y hxy).1 e hfx⟩
      · refine .inr ⟨ty, ks, vs, rfl, hne, hl, ?_, ?_⟩
        · intro kv hkv
          obtain ⟨x, hx, hfx⟩ := fitsItem_iff.mp (hf kv hkv)
          obtain ⟨y, hy, hxy⟩ := h1 x hx
          exact fitsItem_iff.mpr ⟨y, hy, (hp x hx y hxy).2 kv hfx⟩
        · rintro y hy k h' rfl
          obtain ⟨x, hx, he⟩ := h2 _ hy
          cases x <;> simp [H.eqv] at he
          obtain ⟨rfl, _⟩ := he
          exact hk _ hx _ _ rfl
    | _ => simp [H.eqv] at h
theorem eqvs_pres {κ : SeqKind} : ∀ l : List H, ∀ x ∈ l, Pres κ x
  | [], x, h => by simp at h
  | a :: r, x, h => by
    rcases List.mem_cons.mp h with e | h
    · rw [e]; exact eqv_pres (κ := κ) a
    · exact eqvs_pres (κ := κ) r x h
theorem eqvList_pres {κ : SeqKind} : ∀ (a b : List H) (es : List Val), H.eqvList a b = true → FitsEach κ a es → FitsEach κ b es
  | [], [], es, _, hf => hf
  | [], _ :: _, _, h, _ => by simp [H.eqvList] at h
  | _ :: _, [], _, h, _ => by simp [H.eqvList] at h
  | x :: r, y :: s, es, h, hf => by
    simp only [H.eqvList, Bool.and_eq_true] at h
    obtain ⟨e, es', rfl, h1, h2⟩ := hf
    exact ⟨e, es', rfl, (eqv_pres (κ := κ) x y h.1).1 e h1, eqvList_pres (κ := κ) r s es' h.2 h2⟩
end

theorem nodeEq_fits {κ : SeqKind} {S : Strategies} {a b : Node} {v : Val} (h : nodeEq S a b = true)
    (hf : Fits κ (a.hash S) v) : Fits κ (b.hash S) v := by
  unfold nodeEq at h
  rw [Bool.and_eq_true] at h
  exact (eqv_pres _ _ h.2).1 v hf

/-! ### Well-formed trees of tame data -/

/-- Header of a node in the tree of tame data. -/
def TidyHdr (S : Strategies) (κ : SeqKind) (h : Hdr) : Prop :=
  match h.kind with
  | .inst => h.slots = []
  | .seq k => (k = κ ∨ (k = .tuple ∧ S.tuple = .fixed)) ∧ ∀ s ∈ h.slots, s.key ≠ .none
  | .dict data m => h.slots ≠ [] ∧ (h.slots.map (·.key)).Nodup ∧
      (∀ s ∈ h.slots, s.key ≠ .none ∧ s.key ∈ m.data.map (·.1)) ∧
      (∀ kv ∈ data, S.keyDoc = [] ∨ kv.1 ≠ .str S.keyDoc) ∧ (∀ kv ∈ m.data, kv.1.hidden = false) ∧
      h.ty.name ≠ py!"mappingproxy"
  | _ => False

mutual
/-- The tree of tame data. -/
def Tidy (S : Strategies) (κ : SeqKind) : Node → Prop
  | .mk h kids => TidyHdr S κ h ∧ h.slots.length = kids.length ∧ TidyList S κ kids
def TidyList (S : Strategies) (κ : SeqKind) : List Node → Prop
  | [] => True
  | k :: r => Tidy S κ k ∧ TidyList S κ r
end

theorem tidyList_iff {S : Strategies} {κ : SeqKind} : ∀ {l : List Node}, TidyList S κ l ↔ ∀ k ∈ l, Tidy S κ k
  | [] => by simp [TidyList]
  | k :: r => by simp [TidyList, tidyList_iff (l := r)]

theorem length_renameList {new : Str} {len c : Nat} : ∀ {slots : List Slot} {l : List Node},
    (renameList new len c slots l).length = l.length
  | [], [] => rfl
  | _ :: _, [] => rfl
  | [], k :: r => by simp [renameList, length_renameList (l := r)]
  | _ :: _, k :: r => by simp [renameList, length_renameList (l := r)]

mutual
theorem tidy_renameAux {S : Strategies} {κ : SeqKind} {new : Str} {len : Nat} : ∀ (c : Nat) (n : Node), Tidy S κ n →
    Tidy S κ (n.renameAux new len c)
  | c, .mk h kids, ht => by
    simp only [Node.renameAux, Tidy] at ht ⊢
    refine ⟨ht.1, by rw [length_renameList]; exact ht.2.1, tidyList_rename c h.slots kids ht.2.2⟩
theorem tidyList_rename {S : Strategies} {κ : SeqKind} {new : Str} {len : Nat} : ∀ (c : Nat) (slots : List Slot) (l : List Node),
    TidyList S κ l → TidyList S κ (renameList new len c slots l)
  | _, [], [], _ => trivial
  | _, _ :: _, [], _ => trivial
  | c, [], k :: r, h => ⟨tidy_renameAux c k h.1, tidyList_rename c [] r h.2⟩
  | c, s :: ss, k :: r, h => ⟨tidy_renameAux (c * s.mult) k h.1, tidyList_rename c ss r h.2⟩
end

theorem tidy_rename {S : Strategies} {κ : SeqKind} {new : Str} {n : Node} (h : Tidy S κ n) : Tidy S κ (n.rename new) :=
  tidy_renameAux 1 n h

end Verif
