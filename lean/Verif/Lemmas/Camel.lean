import Verif.Lemmas.FitsBuild
import Verif.Lemmas.Reader
/-
Names of trees built from neat data: they are camel case and extend the class name.
-/
namespace Verif
open Verif.Spec

theorem asciiAlnum_iff {c : Char} : asciiAlnum c = true ↔ isAscii c = true ∧ c.isAlphanum = true := by
  simp [asciiAlnum]

theorem asciiAlnum_cases {P : Char → Prop} (h : ∀ n : Fin 128, (Char.ofNat n).isAlphanum = true → P (Char.ofNat n)) {c : Char}
    (hc : asciiAlnum c = true) : P c := by
  rw [asciiAlnum_iff] at hc
  have h3 : c.toNat < 128 := by simpa [isAscii] using hc.1
  have := h ⟨c.toNat, h3⟩ (by simpa [Char.ofNat_toNat] using hc.2)
  simpa [Char.ofNat_toNat] using this

theorem alnum_upper {c : Char} (h : asciiAlnum c = true) : asciiAlnum c.toUpper = true :=
  asciiAlnum_cases (P := fun c => asciiAlnum c.toUpper = true) (by decide +kernel) h

theorem alnum_lower {c : Char} (h : asciiAlnum c = true) : asciiAlnum c.toLower = true :=
  asciiAlnum_cases (P := fun c => asciiAlnum c.toLower = true) (by decide +kernel) h

theorem alnum_ident {c : Char} (h : asciiAlnum c = true) : identChar c = true :=
  asciiAlnum_cases (P := fun c => identChar c = true) (by decide +kernel) h

theorem alnum_dot {c : Char} (h : asciiAlnum c = true) : c ≠ '.' :=
  asciiAlnum_cases (P := fun c => c ≠ '.') (by decide +kernel) h

theorem alnum_uni {U : Uni} {c : Char} (ha : isAscii c = true) : U.isAlnum c = c.isAlphanum := by
  simp [Uni.isAlnum, U.alpha_ascii c ha, U.numeric_ascii c ha, Char.isAlphanum]

theorem alnum_digit {c : Char} (h : c.isDigit = true) : asciiAlnum c = true := by
  rw [asciiAlnum_iff]
  refine ⟨?_, by simp [Char.isAlphanum, h]⟩
  simp only [Char.isDigit, Bool.and_eq_true, decide_eq_true_eq, ge_iff_le] at h
  simp only [isAscii, decide_eq_true_eq]
  have h2 : c.toNat ≤ 57 := by
    have := UInt32.le_iff_toNat_le.mp h.2
    simpa using this
  omega

def Alnum (s : Str) : Prop := ∀ c ∈ s, asciiAlnum c = true

theorem Alnum.append {a b : Str} (ha : Alnum a) (hb : Alnum b) : Alnum (a ++ b) := by
  intro c hc
  rcases List.mem_append.mp hc with h | h
  · exact ha c h
  · exact hb c h

theorem Alnum.capitalize {U : Uni} {s : Str} (h : Alnum s) : Alnum (U.capitalize s) := by
  cases s with
  | nil => intro c hc; simp [Uni.capitalize] at hc
  | cons c r =>
    simp only [Uni.capitalize]
    have ha := asciiAlnum_iff.mp (h c (by simp))
    apply Alnum.append
    · rw [U.title_ascii c ha.1]
      intro d hd
      simp only [List.mem_singleton] at hd
      subst hd
      exact alnum_upper (h c (by simp))
    · intro d hd
      obtain ⟨x, hx, hd⟩ := List.mem_flatMap.mp hd
      have hx' := h x (by simp [hx])
      rw [U.lower_ascii x (asciiAlnum_iff.mp hx').1] at hd
      simp only [List.mem_singleton] at hd
      subst hd
      exact alnum_lower hx'

theorem alnum_recased {U : Uni} {xs ys : Str} (h : Recased U xs ys) (hx : Alnum xs) : Alnum ys := by
  induction h with
  | nil => exact hx
  | keep c _ ih =>
    intro d hd
    rcases List.mem_cons.mp hd with rfl | hd
    · exact hx _ (by simp)
    · exact ih (fun c hc => hx c (by simp [hc])) d hd
  | raise c _ ih =>
    have hc := hx c (by simp)
    rw [U.upper_ascii c (asciiAlnum_iff.mp hc).1]
    intro d hd
    rcases List.mem_append.mp hd with hd | hd
    · simp only [List.mem_singleton] at hd; subst hd; exact alnum_upper hc
    · exact ih (fun c hc => hx c (by simp [hc])) d hd

theorem alnum_toCamel {U : Uni} {s : Str} (h : ∀ c ∈ s, isAscii c = true) : Alnum (toCamel U s) := by
  refine alnum_recased (toCamel_recased U s) ?_
  intro c hc
  obtain ⟨h1, h2⟩ := List.mem_filter.mp hc
  have ha := h c (cutDigits_subset h1)
  rw [alnum_uni ha] at h2
  exact asciiAlnum_iff.mpr ⟨ha, h2⟩

theorem camelSlots_alnum {U : Uni} : ∀ {s : Str}, Alnum s → (camelSlots U false s).flatten = s
  | [], _ => by simp [camelSlots]
  | c :: r, h => by
    have hc := asciiAlnum_iff.mp (h c (by simp))
    rcases camelSlots_head U c r with ⟨_, e⟩ | ⟨e, _⟩
    · rw [e, List.flatten_cons, camelSlots_alnum (fun d hd => h d (by simp [hd]))]
      rfl
    · rw [alnum_uni hc.1, hc.2] at e; cases e

/-- Camel case leaves a name in camel case as it is. -/
theorem toCamel_camelName {U : Uni} {s : Str} (h : CamelName s) : toCamel U s = s := by
  obtain ⟨c, r, rfl, hu, ha⟩ := h
  have hc := asciiAlnum_iff.mp (ha c (by simp))
  have key : c.isDigit = false ∧ c.toUpper = c := by
    have := asciiAlnum_cases (P := fun c => c.isUpper = true → c.isDigit = false ∧ c.toUpper = c) (by decide +kernel) (ha c (by simp))
    exact this hu
  have hd : (c :: r).dropWhile U.isDecimal = c :: r := by
    rw [List.dropWhile_cons, U.decimal_ascii c hc.1, key.1]
    simp
  unfold toCamel
  simp only [hd, Nat.lt_irrefl, if_false]
  unfold camelBody
  rcases camelSlots_head U c r with ⟨_, e⟩ | ⟨e, _⟩
  · rw [e]
    simp only [Uni.upperStr, List.flatMap_cons, List.flatMap_nil, List.append_nil]
    rw [U.upper_ascii c hc.1, key.2, camelSlots_alnum (fun d hd => ha d (by simp [hd]))]
    rfl
  · rw [alnum_uni hc.1, hc.2] at e; cases e

theorem camelName_append {a b : Str} (ha : CamelName a) (hb : Alnum b) : CamelName (a ++ b) := by
  obtain ⟨c, r, rfl, hu, ha⟩ := ha
  exact ⟨c, r ++ b, rfl, hu, Alnum.append ha hb⟩

theorem alnum_natStr (k : Nat) : Alnum (natStr k) := fun _ hc => alnum_digit (isDigit_of_mem_natStr hc)

theorem camelName_alnum {s : Str} (h : CamelName s) : Alnum s := by
  obtain ⟨c, r, rfl, _, ha⟩ := h
  exact ha

theorem camelName_ident {s : Str} (h : CamelName s) : Ident s := by
  refine ⟨?_, fun c hc => alnum_ident (camelName_alnum h c hc)⟩
  obtain ⟨c, r, rfl, _⟩ := h
  simp

theorem camelName_class {s : Str} (h : CamelName s) : s ≠ py!"class" := by
  rintro rfl
  obtain ⟨c, r, e, hu, _⟩ := h
  injection e with e _
  subst e
  revert hu; decide

/-! ### The invariant -/

/-- Classes in the data. -/
def TyP (root : Str) (t : Ty) : Prop := NeatTy t ∧ ¬ root <+: t.name
/-- Keys in the data. -/
def KeyP (root : Str) (k : Key) : Prop := NeatKey k ∧ ¬ root <+: k.ty.name

def NameP (root s : Str) : Prop := CamelName s ∧ root <+: s

theorem NameP.append {root s t : Str} (h : NameP root s) (ht : Alnum t) : NameP root (s ++ t) :=
  ⟨camelName_append h.1 ht, h.2.trans (List.prefix_append s t)⟩

def NeatHdr (root : Str) (h : Hdr) : Prop :=
  NameP root h.name ∧ TyP root h.ty ∧ (∀ s ∈ h.slots, KeyP root s.key) ∧ ∀ n, h.kind = .cls n → ¬ root <+: n

/-- The data. -/
def DataP (root : Str) (v : Val) : Prop := ValAll (TyP root) (KeyP root) (fun _ => True) v ∧ Every (FreshClass root) v

theorem every_items {p : Val → Prop} (hp : ∀ k t ks vs, p (.map k t ks vs)) {items : List (Key × Val)} (h : ∀ kv ∈ items, Every p kv.2) :
    Every p (.dict items) := by
  refine ⟨hp _ _ _ _, everyList_iff.mpr ?_⟩
  intro v hv
  obtain ⟨kv, hkv, rfl⟩ := List.mem_map.mp hv
  exact h kv hkv

theorem NameP.renameTimes {root new : Str} {len : Nat} (hn : NameP root new) : ∀ (c : Nat) {s : Str}, NameP root s →
    NameP root (renameTimes new len c s)
  | 0, _, h => h
  | c + 1, s, h => by
    apply hn.renameTimes c
    exact hn.append (fun d hd => camelName_alnum h.1 d (List.mem_of_mem_drop hd))

theorem neat_inv {E : Env} {root : Str} (hstr : ¬ root <+: py!"str") (hdict : ¬ root <+: py!"dict") :
    Inv E (DataP root) (fun k v => KeyP root k ∧ DataP root v)
      (NameP root) (NeatHdr root) (fun _ => True) where
  seqElem h he := ⟨valAllList_iff.mp h.1.2 _ he, everyList_iff.mp h.2.2 _ he⟩
  mapEntry h hkv := ⟨h.1.2.1 _ (List.of_mem_zip hkv).1, valAllList_iff.mp h.1.2.2 _ (List.of_mem_zip hkv).2,
    everyList_iff.mp h.2.2 _ (List.of_mem_zip hkv).2⟩
  entry h := h.2
  dict h := ⟨valAll_dict ⟨⟨by decide, by decide⟩, hdict⟩ (fun kv hkv => ⟨(h kv hkv).1, (h kv hkv).2.1⟩),
    every_items (fun _ _ _ _ => trivial) (fun kv hkv => (h kv hkv).2.2)⟩
  nameElem hs hv := hs.append (Alnum.capitalize (valAll_ty hv.1).1.2)
  nameNum hs := hs.append (alnum_natStr _)
  nameKey := by
    intro s k v hs hk
    refine hs.append ?_
    have hk := hk.1.1
    cases k with
    | str t => exact alnum_toCamel (fun c hc => (hk c hc).1)
    | none => show Alnum (Key.none.ty.name); intro c hc; revert c; decide
    | other t r => exact hk.1.2
  nameLabel := by
    intro s k v hs hk
    refine hs.append ?_
    have hk := hk.1.1
    unfold labelSuffix
    dsimp only
    split
    · intro c hc; revert c; decide
    · apply alnum_toCamel
      cases k with
      | str t => exact fun c hc => (hk c hc).1
      | none => intro c hc; revert c; decide
      | other t r => exact hk.2
  nameTy hs hh := hs.append (Alnum.capitalize hh.2.1.1.2)
  rename hh hn := ⟨hn.renameTimes _ hh.1, hh.2.1, hh.2.2⟩
  hdr := by
    intro name v root' slots hn hv hsl
    refine ⟨hn, valAll_ty hv.1, ?_, ?_⟩
    · intro s hs
      rcases hsl s hs with h | ⟨w, h, _⟩
      · rw [h]; exact ⟨by intro c hc; simp at hc, hstr⟩
      · exact h
    · intro n hk
      cases v with
      | cls m c =>
        injection hk with hk
        subst hk
        exact hv.2
      | map k => cases k <;> cases hk
      | _ => cases hk
  merge hh _ _ := ⟨hh.1, hh.2.1, hh.2.2.1, fun n h => by cases h⟩
  bad _ _ _ := trivial
  sig _ _ := trivial
  noTrees _ := trivial

end Verif
