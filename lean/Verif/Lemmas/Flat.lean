import Verif.Lemmas.Render
import Verif.Props.Names
import Verif.Spec.Types
/-
Construction and rendering of sequences of plain instances.
-/
namespace Verif
open Verif.Spec

theorem foldE_prefix {α β} {f : β → α → Except Err β} {Q : Err → Prop} (I : List α → β → Prop) :
    ∀ (l pre : List α) (b : β), I pre b →
      (∀ pre a b, a ∈ l → I pre b → Ens (f b a) (I (pre ++ [a])) Q) → Ens (foldE f b l) (I (pre ++ l)) Q
  | [], pre, b, hb, _ => by simpa [foldE, Ens] using hb
  | a :: r, pre, b, hb, step => by
    have h := step pre a b (by simp) hb
    simp only [foldE]
    cases hf : f b a with
    | error e => rw [hf] at h; exact h
    | ok b' =>
      rw [hf] at h
      have := foldE_prefix I r (pre ++ [a]) b' h (fun pre a b ha => step pre a b (by simp [ha]))
      simpa using this

/-! ### Text of an alias without its name -/

theorem withoutLvalue_eq {a r : Str} (h1 : '=' ∉ r) (h2 : ∀ c, r.head? = some c → isSpace c = false)
    (h3 : ∀ c, r.getLast? = some c → isSpace c = false) : withoutLvalue (a ++ py!" = " ++ r) = r := by
  have e : a ++ py!" = " ++ r = (a ++ py!" ") ++ '=' :: (' ' :: r) := by simp
  have h4 : '=' ∉ (' ' :: r) := by simp [h1]
  rw [withoutLvalue, e, splitChar_append, splitChar_free h4]
  simp only [List.getLastD_eq_getLast?, List.getLast?_append, List.getLast?_singleton, Option.some_or, Option.getD_some]
  rw [strip_space_cons, strip_eq_self h2 h3]

/-! ### Word characters -/

theorem word_char_ne {U : Uni} {c d : Char} (hc : U.isAlnum c = true ∨ c = '_') (hd : isAscii d = true)
    (h1 : d.isAlpha = false) (h2 : d.isDigit = false) (h3 : d ≠ '_') : c ≠ d := by
  rintro rfl
  rcases hc with h | h
  · rw [Uni.isAlnum, U.alpha_ascii c hd, U.numeric_ascii c hd, h1, h2] at h; cases h
  · exact h3 h

theorem word_not_mem {U : Uni} {s : Str} (hs : Word U s) {d : Char} (hd : isAscii d = true)
    (h1 : d.isAlpha = false) (h2 : d.isDigit = false) (h3 : d ≠ '_') : d ∉ s :=
  fun h => word_char_ne (hs d h) hd h1 h2 h3 rfl

theorem word_not_space {U : Uni} {s : Str} (hs : Word U s) {c : Char} (hc : c ∈ s) : isSpace c = false := by
  cases h : isSpace c with
  | false => rfl
  | true =>
    have h1 := U.space_alnum c h
    rcases hs c hc with h2 | rfl
    · rw [Uni.isAlnum, h1.1, h1.2] at h2; cases h2
    · revert h; decide

/-! ### Plain instances -/

/-- The node of a nested plain instance. -/
def instNode (name : Str) (t : Ty) : Node := .mk { kind := .inst, name, root := false, ty := t, slots := [] } []

theorem build_inst (E : Env) (f : Nat) (name : Str) (t : Ty) (x : Option Str) (hn : nameOk E.U name = true) :
    build E (f + 1) false name (.inst t x) = .ok (instNode name t) := by
  simp [build, hn, instNode, Val.ty]

theorem build_seq (E : Env) (f : Nat) (root : Bool) (name : Str) (k : SeqKind) (t : Ty) (es : List Val) :
    build E (f + 1) root name (.seq k t es) =
      if nameOk E.U name then
        match (if k = .tuple ∧ E.S.tuple = .fixed then tupleChildren E (build E f false) name es
          else setChildren E (build E f false) name es) with
        | .ok (slots, kids) => .ok (.mk ⟨.seq k, name, root, t, slots⟩ kids)
        | .error e => .error e
      else .error (.badName name) := rfl

/-- How a class is written. -/
def atom (E : Env) (t : Ty) : TExpr :=
  if t = .noneType then .object else if E.isBuiltin t.name then .name t.name else .quoted t.name

theorem atom_writes (E : Env) (t : Ty) : Writes (atom E t) t := by
  unfold atom
  split
  · rename_i h; exact h
  · split <;> rfl

theorem atom_admits (E : Env) {Γ : List TDecl} (hs : NoShadow Γ) (v : Val) (hv : ¬ Declared Γ v.ty.name) :
    Admits Γ (atom E v.ty) v := by
  unfold atom
  split
  · exact .object _ (hs _ (by decide)) (hs _ (by decide))
  · split
    · exact .cls v hv
    · exact .quoted v (.cls v hv)

theorem atom_noeq {E : Env} {t : Ty} (ht : Word E.U t.name) : '=' ∉ (atom E t).print := by
  have h := word_not_mem ht (d := '=') (by decide) (by decide) (by decide) (by decide)
  unfold atom
  split
  · decide
  · split
    · exact h
    · simp [TExpr.print, h]

theorem atom_head {E : Env} {t : Ty} (ht : Word E.U t.name) : ∀ c, (atom E t).print.head? = some c → isSpace c = false := by
  intro c
  unfold atom
  split
  · simp only [TExpr.print]; intro h; simp at h; subst h; decide
  · split
    · intro h; exact word_not_space ht (List.mem_of_mem_head? h)
    · simp only [TExpr.print]; intro h; simp at h; subst h; decide

theorem atom_last {E : Env} {t : Ty} (ht : Word E.U t.name) : ∀ c, (atom E t).print.getLast? = some c → isSpace c = false := by
  intro c
  unfold atom
  split
  · simp only [TExpr.print]; intro h; simp at h; subst h; decide
  · split
    · intro h; exact word_not_space ht (List.mem_of_mem_getLast? h)
    · simp only [TExpr.print]; intro h
      simp only [List.getLast?_append, List.getLast?_singleton, Option.some_or, Option.some.injEq] at h
      subst h; decide

/-- Different classes written alike have the same name. -/
theorem atom_print_inj {E : Env} {t u : Ty} (ht : Word E.U t.name) (hu : Word E.U u.name)
    (h : (atom E t).print = (atom E u).print) : atom E t = atom E u := by
  have hq : ∀ {w : Ty}, Word E.U w.name → '"' ∉ w.name := fun hw =>
    word_not_mem hw (by decide) (by decide) (by decide) (by decide)
  have hb : ∀ {w : Ty}, Word E.U w.name → '[' ∉ w.name := fun hw =>
    word_not_mem hw (by decide) (by decide) (by decide) (by decide)
  have key : ∀ {w : Ty}, Word E.U w.name → (atom E w = .object ∧ '[' ∈ (atom E w).print) ∨
      (atom E w = .name w.name ∧ '"' ∉ (atom E w).print ∧ '[' ∉ (atom E w).print) ∨
      (atom E w = .quoted w.name ∧ '"' ∈ (atom E w).print ∧ '[' ∉ (atom E w).print) := by
    intro w hw
    unfold atom
    split
    · exact .inl ⟨rfl, by decide⟩
    · split
      · exact .inr (.inl ⟨rfl, by simpa [TExpr.print] using hq hw, by simpa [TExpr.print] using hb hw⟩)
      · exact .inr (.inr ⟨rfl, by simp [TExpr.print], by simpa [TExpr.print] using hb hw⟩)
  rcases key ht with ⟨e1, a1⟩ | ⟨e1, a1, b1⟩ | ⟨e1, a1, b1⟩ <;> rcases key hu with ⟨e2, a2⟩ | ⟨e2, a2, b2⟩ | ⟨e2, a2, b2⟩
  · rw [e1, e2]
  · rw [h] at a1; exact absurd a1 b2
  · rw [h] at a1; exact absurd a1 b2
  · rw [h] at b1; exact absurd a2 b1
  · rw [e1, e2] at h ⊢; simp only [TExpr.print] at h; rw [h]
  · rw [h] at a1; exact absurd a2 a1
  · rw [h] at b1; exact absurd a2 b1
  · rw [h] at a1; exact absurd a1 a2
  · rw [e1, e2] at h ⊢
    simp only [TExpr.print, List.append_cancel_left_eq, List.append_cancel_right_eq] at h
    rw [h]

section
variable {E : Env} {im : Str → List Str}

theorem instNode_out {name : Str} {t : Ty} : (instNode name t).out E im =
    { name, height := 0, perm := false, top := ⟨(instTop E ⟨.inst, name, false, t, []⟩).1,
      (instTop E ⟨.inst, name, false, t, []⟩).2, none⟩, emitted := [] } := by
  simp [instNode, Node.out, outList, combine, emitOf, permOf, heightOf, topOf]

theorem instTop_text {name : Str} {t : Ty} : ∃ a, (instTop E ⟨.inst, name, false, t, []⟩).1 = a ++ py!" = " ++ (atom E t).print := by
  unfold instTop atom
  dsimp only
  by_cases h : t = .noneType
  · simp only [h, if_true]
    exact ⟨name ++ py!": TypeAlias", by simp [typeAlias, TExpr.print]⟩
  · simp only [h, if_false]
    refine ⟨name, ?_⟩
    rw [if_neg (by simp)]
    dsimp only
    split <;> simp [TExpr.print]

theorem instNode_ref {name : Str} {t : Ty} (ht : Word E.U t.name) : childRef ((instNode name t).out E im) = (atom E t).print := by
  rw [instNode_out]
  simp only [childRef, Bool.false_eq_true, if_false]
  obtain ⟨a, ha⟩ := instTop_text (E := E) (name := name) (t := t)
  rw [ha]
  exact withoutLvalue_eq (atom_noeq ht) (atom_head ht) (atom_last ht)

end

theorem nodeEq_inst {S : Strategies} {a b : Str} {t u : Ty} : nodeEq S (instNode a t) (instNode b u) = decide (t = u) := by
  simp [nodeEq, instNode, Node.hdr, NKind.tag, Node.hash, hashOf, H.eqv]

/-! ### Children of a sequence of plain instances -/

/-- The names for the elements of a sequence pass the name check. -/
def ElemNamesOk (E : Env) (parent : Str) (es : List Val) : Prop :=
  ∀ v ∈ es, ∀ name, (name = parent ++ E.U.capitalize v.ty.name ∨ ∃ k, name = parent ++ E.U.capitalize v.ty.name ++ natStr k) →
    nameOk E.U name = true

theorem setFold_scalar {E : Env} {f : Nat} {parent : Str} {es : List Val} (hs : ∀ v ∈ es, Scalar v)
    (hn : ElemNamesOk E parent es) :
    Ens (foldE (setStep E (build E (f + 1) false) parent) ([], []) es)
      (fun acc => (∀ k ∈ acc.1, ∃ nm, ∃ v ∈ es, k = instNode nm v.ty) ∧ (∀ v ∈ es, ∃ nm, instNode nm v.ty ∈ acc.1))
      (fun _ => False) := by
  have := foldE_prefix (f := setStep E (build E (f + 1) false) parent) (Q := fun _ => False)
    (fun pre acc => (∀ k ∈ acc.1, ∃ nm, ∃ v ∈ pre, k = instNode nm v.ty) ∧ (∀ v ∈ pre, ∃ nm, instNode nm v.ty ∈ acc.1))
    es [] ([], []) (by simp) ?_
  · simpa using this
  · intro pre a b ha ⟨hb1, hb2⟩
    obtain ⟨t, x, rfl⟩ : ∃ t x, a = .inst t x := by
      have := hs a ha
      cases a <;> simp only [Scalar] at this
      exact ⟨_, _, rfl⟩
    unfold setStep
    dsimp only
    rw [build_inst E f _ t x (hn _ ha _ (freshName_spec _ _))]
    simp only [bind, Except.bind]
    split
    · rename_i hany
      rw [if_neg (by simp [isTypedDict, instNode])]
      apply Ens.pure
      refine ⟨?_, ?_⟩
      · intro k hk
        obtain ⟨nm, v, hv, e⟩ := hb1 k hk
        exact ⟨nm, v, by simp [hv], e⟩
      · intro v hv
        simp only [List.mem_append, List.mem_singleton] at hv
        rcases hv with hv | rfl
        · exact hb2 v hv
        · rw [List.any_eq_true] at hany
          obtain ⟨k, hk, heq⟩ := hany
          obtain ⟨nm, w, hw, e⟩ := hb1 k hk
          subst e
          rw [nodeEq_inst, decide_eq_true_eq] at heq
          exact ⟨nm, by simp only [Val.ty]; rw [heq]; exact hk⟩
    · apply Ens.pure
      refine ⟨?_, ?_⟩
      · intro k hk
        simp only [List.mem_append, List.mem_singleton] at hk
        rcases hk with hk | rfl
        · obtain ⟨nm, v, hv, e⟩ := hb1 k hk
          exact ⟨nm, v, by simp [hv], e⟩
        · exact ⟨_, .inst t x, by simp, rfl⟩
      · intro v hv
        simp only [List.mem_append, List.mem_singleton] at hv
        rcases hv with hv | rfl
        · obtain ⟨nm, h⟩ := hb2 v hv
          exact ⟨nm, by simp [h]⟩
        · exact ⟨_, by simp only [List.mem_append, List.mem_singleton]; exact .inr rfl⟩

theorem setChildren_scalar {E : Env} (hE : E.Fair) (hm : 0 < E.S.merge) {f : Nat} {parent : Str} {es : List Val}
    (hs : ∀ v ∈ es, Scalar v) (hn : ElemNamesOk E parent es) (hl : limit E.S.checkMax es = es) :
    ∃ kids, setChildren E (build E (f + 1) false) parent es = .ok (kids.map (fun _ => Slot.seq 1), kids) ∧
      (∀ k ∈ kids, ∃ nm, ∃ v ∈ es, k = instNode nm v.ty) ∧ (∀ v ∈ es, ∃ nm, instNode nm v.ty ∈ kids) := by
  have h := setFold_scalar (f := f) hs hn
  unfold setChildren
  rw [hl]
  cases hf : foldE (setStep E (build E (f + 1) false) parent) ([], []) es with
  | error e => rw [hf] at h; exact h.elim
  | ok acc =>
    obtain ⟨kids, names⟩ := acc
    rw [hf] at h
    have hmem : ∀ i x, x ∈ E.order i kids ↔ x ∈ kids := fun i x => (hE i kids).mem_iff
    refine ⟨E.order 0 kids, ?_, ?_, ?_⟩
    · have hnil : (E.order 0 kids).filter (isTypedDict E.S) = [] := by
        rw [List.filter_eq_nil_iff]
        intro k hk
        obtain ⟨nm, v, _, rfl⟩ := h.1 k ((hmem _ _).mp hk)
        simp [isTypedDict, instNode]
      simp only [bind, Except.bind, hnil, shouldMerge_nil hm]
      rfl
    · intro k hk; exact h.1 k ((hmem _ _).mp hk)
    · intro v hv
      obtain ⟨nm, hk⟩ := h.2 v hv
      exact ⟨nm, (hmem _ _).mpr hk⟩

end Verif

namespace Verif
open Verif.Spec

/-! ### The element type -/

theorem printList_eq_map : ∀ ts : List TExpr, printList ts = ts.map TExpr.print
  | [] => rfl
  | t :: r => by simp [printList, printList_eq_map r]

theorem mem_uniqueTypes {x : Str} {ts : List Str} : x ∈ uniqueTypes ts ↔ x ∈ ts ∧ ¬ (x = py!"int" ∧ py!"float" ∈ ts) := by
  unfold uniqueTypes
  dsimp only
  have hmem : ∀ {y}, y ∈ sortStr (dedup ts) ↔ y ∈ ts := by
    intro y; rw [sortStr, mem_sortBy, mem_dedup]
  have hnd : (sortStr (dedup ts)).Nodup := (sortStr_perm _).nodup_iff.mpr (nodup_dedup ts)
  split
  · rename_i h
    simp only [Bool.and_eq_true, List.contains_iff_mem] at h
    rw [sortStr, mem_sortBy, hnd.mem_erase_iff, hmem]
    constructor
    · rintro ⟨h1, h2⟩; exact ⟨h2, fun h3 => h1 h3.1⟩
    · rintro ⟨h1, h2⟩; exact ⟨fun h3 => h2 ⟨h3, h.1⟩, h1⟩
  · rename_i h
    rw [hmem]
    constructor
    · intro h1
      refine ⟨h1, ?_⟩
      rintro ⟨rfl, h2⟩
      apply h
      simp only [Bool.and_eq_true, List.contains_iff_mem]
      exact ⟨h2, h1⟩
    · exact fun h1 => h1.1

/-- The list of types depends only on which types occur. -/
theorem uniqueTypes_congr {ts us : List Str} (h : ∀ x, x ∈ ts ↔ x ∈ us) : uniqueTypes ts = uniqueTypes us := by
  have hp : sortStr (dedup ts) = sortStr (dedup us) := sortStr_eq_of_perm (dedup_perm_of_mem h)
  have h1 : ∀ x, ts.contains x = us.contains x := by
    intro x
    rw [Bool.eq_iff_iff, List.contains_iff_mem, List.contains_iff_mem, h]
  unfold uniqueTypes
  rw [hp, h1, h1]

theorem uniqueTypes_ne_nil {ts : List Str} (h : ts ≠ []) : uniqueTypes ts ≠ [] := by
  by_cases hf : py!"float" ∈ ts
  · have : py!"float" ∈ uniqueTypes ts := mem_uniqueTypes.mpr ⟨hf, fun h => absurd h.1 (by decide)⟩
    exact List.ne_nil_of_mem this
  · obtain ⟨x, hx⟩ := List.exists_mem_of_ne_nil _ h
    exact List.ne_nil_of_mem (mem_uniqueTypes.mpr ⟨hx, fun h => hf h.2⟩)

theorem exists_preimages {α β} {f : α → β} {p : α → Prop} : ∀ {l : List β}, (∀ b ∈ l, ∃ a, p a ∧ f a = b) →
    ∃ as : List α, as.map f = l ∧ ∀ a ∈ as, p a
  | [], _ => ⟨[], rfl, by simp⟩
  | b :: r, h => by
    obtain ⟨as, h1, h2⟩ := exists_preimages (l := r) (fun b hb => h b (by simp [hb]))
    obtain ⟨a, ha, hab⟩ := h b (by simp)
    refine ⟨a :: as, by simp [h1, hab], ?_⟩
    intro x hx
    simp only [List.mem_cons] at hx
    rcases hx with rfl | hx
    · exact ha
    · exact h2 x hx

/-- A class that is written like a class of a given name. -/
theorem atom_eq_cls {E : Env} {t : Ty} {n : Str} (hn : '"' ∉ n) (hb : '[' ∉ n)
    (h : (atom E t).print = n) : atom E t = .name n ∧ t.name = n := by
  unfold atom at h ⊢
  split at h
  · exfalso; subst h; revert hb; decide
  · rename_i h1
    split at h
    · rename_i h2
      rw [if_neg h1, if_pos h2]
      simp only [TExpr.print] at h
      exact ⟨by rw [h], h⟩
    · exfalso; subst h; simp [TExpr.print] at hn

theorem unique_atoms {E : Env} {tys : List Ty} (hw : ∀ t ∈ tys, Word E.U t.name) :
    ∃ as : List TExpr, uniqueTypes (tys.map (fun t => (atom E t).print)) = as.map TExpr.print ∧
      (∀ a ∈ as, ∃ t ∈ tys, a = atom E t) ∧
      (∀ t ∈ tys, atom E t ∈ as ∨ (t.name = py!"int" ∧ .name py!"float" ∈ as)) := by
  obtain ⟨as, h1, h2⟩ := exists_preimages (f := TExpr.print) (p := fun a => ∃ t ∈ tys, a = atom E t)
    (l := uniqueTypes (tys.map (fun t => (atom E t).print))) (by
      intro b hb
      obtain ⟨t, ht, rfl⟩ := List.mem_map.mp (mem_uniqueTypes.mp hb).1
      exact ⟨_, ⟨t, ht, rfl⟩, rfl⟩)
  have hback : ∀ u ∈ tys, (atom E u).print ∈ as.map TExpr.print → atom E u ∈ as := by
    intro u hu h
    obtain ⟨a, ha, hp⟩ := List.mem_map.mp h
    obtain ⟨w, hww, rfl⟩ := h2 a ha
    rw [← atom_print_inj (hw w hww) (hw u hu) hp]
    exact ha
  refine ⟨as, h1.symm, h2, ?_⟩
  intro t ht
  by_cases hx : (atom E t).print = py!"int" ∧ py!"float" ∈ tys.map (fun t => (atom E t).print)
  · right
    refine ⟨(atom_eq_cls (by decide) (by decide) hx.1).2, ?_⟩
    obtain ⟨u, hu, hpu⟩ := List.mem_map.mp hx.2
    rw [← (atom_eq_cls (by decide) (by decide) hpu).1]
    apply hback u hu
    rw [h1, mem_uniqueTypes]
    refine ⟨List.mem_map.mpr ⟨u, hu, rfl⟩, ?_⟩
    rintro ⟨h3, _⟩
    rw [hpu] at h3; revert h3; decide
  · left
    apply hback t ht
    rw [h1, mem_uniqueTypes]
    exact ⟨List.mem_map.mpr ⟨t, ht, rfl⟩, hx⟩

theorem formatTypes_print {as : List TExpr} : (formatTypes (as.map TExpr.print)).1 = (unionOf as).print := by
  match as with
  | [] => rfl
  | [a] => rfl
  | a :: b :: r => simp [formatTypes, unionOf, TExpr.print, printList_eq_map]

theorem admits_unionOf {Γ : List TDecl} {ts : List TExpr} {t : TExpr} {v : Val} (hs : NoShadow Γ) (ht : t ∈ ts) (h : Admits Γ t v) :
    Admits Γ (unionOf ts) v := by
  match ts with
  | [] => simp at ht
  | [a] => simp only [List.mem_singleton] at ht; subst ht; exact h
  | a :: b :: r => exact .union (hs _ (by decide)) ht h

theorem childTypes_true {kids : List Out} (h : kids ≠ []) : (childTypes kids true).1 = uniqueTypes (kids.map childRef) := by
  unfold childTypes
  have : (kids.map childRef).isEmpty = false := by simpa using h
  simp [this]

theorem childTypes_false {kids : List Out} (h : kids ≠ []) : (childTypes kids false).1 = kids.map childRef := by
  unfold childTypes
  have : (kids.map childRef).isEmpty = false := by simpa using h
  simp [this]

theorem childTypes_nil {b : Bool} : (childTypes [] b).1 = [py!"Any"] := by cases b <;> rfl

theorem takeWhile_all {α} {p : α → Bool} : ∀ {l : List α}, (∀ x ∈ l, p x = true) → l.takeWhile p = l
  | [], _ => rfl
  | x :: r, h => by
    rw [List.takeWhile_cons, h x (by simp)]
    simp [takeWhile_all (l := r) (fun y hy => h y (by simp [hy]))]

theorem iterate_seq {α} : ∀ {slots : List Slot} {kids : List α}, slots.length = kids.length →
    (∀ s ∈ slots, s.key ≠ .none) → iterate slots kids = kids := by
  intro slots kids hl hs
  unfold iterate
  have : (slots.zip kids).takeWhile (fun sk => sk.1.key != .none) = slots.zip kids := by
    apply takeWhile_all
    intro x hx
    have := hs x.1 (List.of_mem_zip hx).1
    simpa using this
  rw [this, List.map_snd_zip (by omega)]

/-! ### Fixed tuples -/

theorem rename_inst {a b : Str} {t : Ty} : (instNode a t).rename b = instNode b t := by
  simp [instNode, Node.rename, Node.renameAux, renameTimes, renameList, Node.name, Node.hdr]

theorem tupleFold_scalar {E : Env} {f : Nat} {parent : Str} {es : List Val} (hs : ∀ v ∈ es, Scalar v)
    (hn : ElemNamesOk E parent es) :
    Ens (foldE (tupleStep E (build E (f + 1) false) parent) ([], []) es)
      (fun acc => (∀ k ∈ acc.1, ∃ nm t, k = instNode nm t) ∧ acc.1.map (fun k => k.hdr.ty) = es.map Val.ty)
      (fun _ => False) := by
  have := foldE_prefix (f := tupleStep E (build E (f + 1) false) parent) (Q := fun _ => False)
    (fun pre acc => (∀ k ∈ acc.1, ∃ nm t, k = instNode nm t) ∧ acc.1.map (fun k => k.hdr.ty) = pre.map Val.ty)
    es [] ([], []) (by simp) ?_
  · simpa using this
  · intro pre a b ha ⟨hb1, hb2⟩
    obtain ⟨t, x, rfl⟩ : ∃ t x, a = .inst t x := by
      have := hs a ha
      cases a <;> simp only [Scalar] at this
      exact ⟨_, _, rfl⟩
    unfold tupleStep
    dsimp only
    rw [build_inst E f _ t x (hn _ ha _ (freshName_spec _ _))]
    simp only [bind, Except.bind]
    split
    · apply Ens.pure
      refine ⟨?_, ?_⟩
      · intro k hk
        simp only [List.mem_append, List.mem_singleton] at hk
        rcases hk with hk | rfl
        · exact hb1 k hk
        · rw [rename_inst]; exact ⟨_, _, rfl⟩
      · rw [rename_inst, List.map_append, List.map_append, hb2]; rfl
    · apply Ens.pure
      refine ⟨?_, ?_⟩
      · intro k hk
        simp only [List.mem_append, List.mem_singleton] at hk
        rcases hk with hk | rfl
        · exact hb1 k hk
        · exact ⟨_, _, rfl⟩
      · rw [List.map_append, List.map_append, hb2]; rfl

theorem tupleChildren_scalar {E : Env} (hm : 0 < E.S.merge) {f : Nat} {parent : Str} {es : List Val}
    (hs : ∀ v ∈ es, Scalar v) (hn : ElemNamesOk E parent es) (hl : limit E.S.checkMax es = es) :
    ∃ kids, tupleChildren E (build E (f + 1) false) parent es = .ok (kids.map (fun _ => Slot.seq 1), kids) ∧
      (∀ k ∈ kids, ∃ nm t, k = instNode nm t) ∧ kids.map (fun k => k.hdr.ty) = es.map Val.ty := by
  have h := tupleFold_scalar (f := f) hs hn
  unfold tupleChildren
  rw [hl]
  cases hf : foldE (tupleStep E (build E (f + 1) false) parent) ([], []) es with
  | error e => rw [hf] at h; exact h.elim
  | ok acc =>
    obtain ⟨kids, names⟩ := acc
    rw [hf] at h
    refine ⟨kids, ?_, h.1, h.2⟩
    have hnil : kids.filter (isTypedDict E.S) = [] := by
      rw [List.filter_eq_nil_iff]
      intro k hk
      obtain ⟨nm, v, rfl⟩ := h.1 k hk
      simp [isTypedDict, instNode]
    simp only [bind, Except.bind, hnil, shouldMerge_nil hm]
    rfl

end Verif
