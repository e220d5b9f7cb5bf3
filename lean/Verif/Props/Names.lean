import Verif.Lemmas.Render
import Verif.Props.Imports
import Verif.Props.Utils
/-
C14 (invented names), C15 (name conversion), C16 (generation is total).
-/
namespace Verif.Props
open Verif Verif.Spec

/-! ### C15: name conversion -/

/-- **C15**: the converted name consists of the letters and digits of the key, in order, each unchanged or upper-cased;
everything else is dropped, and so is a leading run of digits unless the key consists of digits. -/
theorem camel_keeps_letters (U : Uni) (s : Str) : Recased U ((cutDigits U s).filter U.isAlnum) (toCamel U s) :=
  toCamel_recased U s

example : toCamel asciiUni py!"2nd user_id!" = py!"NdUserId" := by decide
example : (cutDigits asciiUni py!"2nd user_id!").filter asciiUni.isAlnum = py!"nduserid" := by decide

/-- **C15**: over ASCII the converted name consists of letters and digits only. -/
theorem camel_alnum (U : Uni) (s : Str) (hs : ∀ c ∈ s, isAscii c = true) : ∀ c ∈ toCamel U s, U.isAlnum c = true := by
  have h := toCamel_recased U s
  have hx : ∀ c ∈ (cutDigits U s).filter U.isAlnum, U.isAlnum c = true ∧ isAscii c = true := fun c hc =>
    ⟨(List.mem_filter.mp hc).2, hs c (cutDigits_subset (List.mem_filter.mp hc).1)⟩
  generalize (cutDigits U s).filter U.isAlnum = xs at h hx
  generalize toCamel U s = ys at h
  induction h with
  | nil => simp
  | keep c _ ih =>
    intro d hd
    simp only [List.mem_cons] at hd
    rcases hd with rfl | hd
    · exact (hx d (by simp)).1
    · exact ih (fun c hc => hx c (by simp [hc])) d hd
  | raise c _ ih =>
    intro d hd
    simp only [List.mem_append] at hd
    rcases hd with hd | hd
    · obtain ⟨h1, h2⟩ := hx c (by simp)
      have hw := (ascii_upper_word (U := U) h2 (.inl h1)).1 d hd
      rcases hw with hw | hw
      · exact hw
      · exfalso
        rw [U.upper_ascii c h2] at hd
        simp only [List.mem_singleton] at hd
        rw [hd] at hw
        have h3 : c.toNat < 128 := by simpa [isAscii] using h2
        have key : ∀ n : Fin 128, (Char.ofNat n).toUpper = '_' → Char.ofNat n = '_' := by decide +kernel
        have := key ⟨c.toNat, h3⟩ (by simpa [Char.ofNat_toNat] using hw)
        rw [Char.ofNat_toNat] at this
        subst this
        rw [Uni.isAlnum, U.alpha_ascii _ h2, U.numeric_ascii _ h2] at h1
        revert h1; decide
    · exact ih (fun c hc => hx c (by simp [hc])) d hd

/-- The claim that conversion leaves its own results unchanged. -/
def CamelIdempotent (U : Uni) : Prop := ∀ s, toCamel U (toCamel U s) = toCamel U s

/-- **C15**, negative part: the conversion is not idempotent. The key `_1a` becomes `1a`, which becomes `A`. -/
theorem camel_idempotent_fails : ¬ CamelIdempotent asciiUni := by
  intro h; exact absurd (h py!"_1a") (by decide)

theorem camelSlots_false_alnum (U : Uni) : ∀ {s : Str}, (∀ c ∈ s, U.isAlnum c = true) → (camelSlots U false s).flatten = s
  | [], _ => rfl
  | c :: r, h => by
    rcases camelSlots_head U c r with ⟨_, e⟩ | ⟨ha, _⟩
    · rw [e]
      simp [camelSlots_false_alnum U (s := r) (fun c hc => h c (by simp [hc]))]
    · rw [h c (by simp)] at ha; cases ha

/-- A name made of letters and digits that starts with an ASCII capital is left unchanged. -/
theorem camel_fixpoint (U : Uni) (c : Char) (r : Str) (hc : isAscii c = true) (hu : c.isUpper = true)
    (hr : ∀ d ∈ r, U.isAlnum d = true) : toCamel U (c :: r) = c :: r := by
  have key : ∀ n : Fin 128, (Char.ofNat n).isUpper = true → (Char.ofNat n).toUpper = Char.ofNat n ∧
      (Char.ofNat n).isDigit = false ∧ (Char.ofNat n).isAlpha = true := by decide +kernel
  have h3 : c.toNat < 128 := by simpa [isAscii] using hc
  have hk := key ⟨c.toNat, h3⟩ (by simpa [Char.ofNat_toNat] using hu)
  simp only [Char.ofNat_toNat] at hk
  obtain ⟨hup, hdig, halpha⟩ := hk
  have hnd : U.isDecimal c = false := by rw [U.decimal_ascii c hc, hdig]
  have hal : U.isAlnum c = true := by rw [Uni.isAlnum, U.alpha_ascii c hc, halpha]; rfl
  rw [toCamel_eq]
  have h1 : (c :: r).all U.isDecimal = false := by simp [hnd]
  rw [h1]
  simp only [Bool.false_eq_true, if_false]
  rw [List.dropWhile_cons]
  simp only [hnd, Bool.false_eq_true, if_false]
  unfold camelBody
  rcases camelSlots_head U c r with ⟨_, e⟩ | ⟨ha, _⟩
  · rw [e]
    simp [Uni.upperStr, U.upper_ascii c hc, hup, camelSlots_false_alnum U hr]
  · rw [hal] at ha; cases ha

/-- **C15**, idempotence where it holds: a conversion result that starts with an ASCII capital is left unchanged. -/
theorem camel_idempotent_partial (U : Uni) (s : Str) (hs : ∀ c ∈ s, isAscii c = true) (c : Char) (r : Str)
    (h : toCamel U s = c :: r) (hc : isAscii c = true) (hu : c.isUpper = true) : toCamel U (toCamel U s) = toCamel U s := by
  have hall := camel_alnum U s hs
  rw [h] at hall ⊢
  exact camel_fixpoint U c r hc hu (fun d hd => hall d (by simp [hd]))

example : ∃ c r, toCamel asciiUni py!"user id" = c :: r ∧ isAscii c = true ∧ c.isUpper = true := ⟨'U', py!"serId", by decide⟩

/-! ### C14, C16: names are valid, generation is total -/

/-- Every name in the tree passes the name check. -/
def NamesValid (U : Uni) (n : Node) : Prop := NodeAll (fun h => nameOk U h.name = true) n

/-- The claim of C14 for one interpreter: a tree is never rejected because of a name, and all its names are valid. -/
def NamesAlwaysValid (E : Env) : Prop :=
  ∀ name v, nameOk E.U name = true →
    (∀ s, fromData E name v ≠ .error (.build (.badName s))) ∧ ∀ n, fromData E name v = .ok n → NamesValid E.U n

/-- The claim of C16 for one interpreter. -/
def GenerationTotal (E : Env) : Prop :=
  ∀ name v imports, nameOk E.U name = true → ∃ text, generate E name v imports = .ok text

/-- The interpreter of the examples with one non-ASCII letter. -/
def caronEnv : Env := { exEnv {} with U := caronUni }

/-- **C14**, negative part: for the dictionary `{"ǰ": 1}` the generator invents the name `XJ̌`, whose combining mark it
then rejects. -/
theorem names_always_valid_fails : ¬ NamesAlwaysValid caronEnv := by
  intro h
  have h1 := (h py!"X" (.dict [(.str ['ǰ'], .inst .int none)]) (by decide +kernel)).1 ['X', 'J', '̌']
  exact h1 (by rfl)

/-- A function object without a readable signature (as `inspect.signature` raises for a `classmethod` object). -/
def unreadable : FuncInfo := { ty := ⟨py!"classmethod", 1⟩, isLambda := false, sig := .typeError, source := .unavailable }

/-- A function whose signature has no return annotation and whose source is not available (built-in functions, functions
typed into the interactive interpreter). -/
def sourceless : FuncInfo := { ty := .function, isLambda := false, sig := .ok py!"(x, /)" 1, source := .unavailable }

/-- **C16**, negative part: generation raises for `[f]` where `f` has no inspectable signature. -/
theorem generation_total_fails : ¬ GenerationTotal (exEnv {}) := by
  intro h
  obtain ⟨t, ht⟩ := h py!"X" (.seq .list .list [.func unreadable]) false (by decide +kernel)
  have : generate (exEnv {}) py!"X" (.seq .list .list [.func unreadable]) false = .error (.inl (.build .signature)) := by rfl
  rw [this] at ht; cases ht

/-- **C16**, negative part: generation raises for a function whose source cannot be read. -/
theorem generation_total_fails_sourceless :
    generate (exEnv {}) py!"X" (.func sourceless) false = .error (.inr (.node .source)) := by decide +kernel

section
variable (E : Env)

theorem word_of_nameOk {U : Uni} {s : Str} (h : nameOk U s = true) : Word U s := by
  intro c hc
  exact (((nameOk_iff U s).1 h).2.1 c hc).symm

/-- Names that extend the class name by letters, digits and underscores. -/
def Extends (U : Uni) (pfx s : Str) : Prop := pfx <+: s ∧ Word U s

theorem Extends.append {U : Uni} {pfx s w : Str} (h : Extends U pfx s) (hw : Word U w) : Extends U pfx (s ++ w) :=
  ⟨h.1.trans (List.prefix_append s w), Verif.Word.append h.2 hw⟩

theorem Extends.nameOk {U : Uni} {pfx s : Str} (hp : nameOk U pfx = true) (h : Extends U pfx s) : nameOk U s = true := by
  obtain ⟨⟨w, rfl⟩, h2⟩ := h
  exact nameOk_append hp (fun c hc => h2 c (by simp [hc]))

theorem Extends.renameTimes {U : Uni} {pfx new : Str} {len : Nat} (hn : Extends U pfx new) :
    ∀ {c s}, Extends U pfx s → Extends U pfx (renameTimes new len c s)
  | 0, _, h => h
  | c + 1, s, h => by
    simp only [Verif.renameTimes]
    exact Extends.renameTimes hn (hn.append (fun c hc => h.2 c (List.mem_of_mem_drop hc)))

theorem ascii_word {U : Uni} {s : Str} (h : ∀ c ∈ s, isAscii c = true ∧ (c.isAlphanum = true ∨ c = '_')) :
    Word U s ∧ CaseSafe U s := by
  refine ⟨?_, caseSafe_ascii (fun c hc => (h c hc).1)⟩
  intro c hc
  obtain ⟨h1, h2⟩ := h c hc
  rcases h2 with h2 | h2
  · left
    simp only [Char.isAlphanum, Bool.or_eq_true] at h2
    simp only [Uni.isAlnum, U.alpha_ascii c h1, U.numeric_ascii c h1, Bool.or_eq_true]
    exact h2
  · exact .inr h2

theorem tyOk_ascii {U : Uni} {t : Ty} (h : t.name.all (fun c => isAscii c && (c.isAlphanum || c == '_')) = true) :
    TyOk U t := by
  apply ascii_word
  intro c hc
  have := List.all_eq_true.mp h c hc
  simp only [Bool.and_eq_true, Bool.or_eq_true, beq_iff_eq] at this
  exact this

theorem wspace_word {U : Uni} : Word U py!"WSpace" := (ascii_word (U := U) (by
  intro c hc
  have : py!"WSpace".all (fun c => isAscii c && (c.isAlphanum || c == '_')) = true := by decide
  have := List.all_eq_true.mp this c hc
  simp only [Bool.and_eq_true, Bool.or_eq_true, beq_iff_eq] at this
  exact this)).1

/-- The construction invariant behind C14 and C16. -/
theorem ordinary_inv {pfx : Str} (hp : nameOk E.U pfx = true) (hm : 0 < E.S.merge) :
    Inv E (Ordinary E.U) (fun k v => KeyOk E.U k ∧ Ordinary E.U v) (Extends E.U pfx)
      (fun h => Extends E.U pfx h.name ∧ TyOk E.U h.ty ∧ ∀ f, h.kind = .func f → FuncOk f) (fun _ => False) where
  seqElem h he := valAllList_iff.mp h.2 _ he
  mapEntry h hkv := ⟨h.2.1 _ (List.of_mem_zip hkv).1, valAllList_iff.mp h.2.2 _ (List.of_mem_zip hkv).2⟩
  entry h := h.2
  dict h := valAll_dict (tyOk_ascii (by decide)) h
  nameElem hs hv := hs.append (by
    have := valAll_ty hv
    exact Verif.Word.capitalize this.1 this.2)
  nameNum hs := hs.append (Verif.Word.natStr _)
  nameKey := by
    intro s k v hs hk
    refine hs.append ?_
    cases k with
    | str x => exact toCamel_word hk.1
    | none => exact (tyOk_ascii (U := E.U) (t := .noneType) (by decide)).1
    | other t r => exact hk.1.1.1
  nameLabel := by
    intro s k v hs hk
    refine hs.append ?_
    have h : CaseSafe E.U (labelStr k) := by
      cases k with
      | str x => exact hk.1
      | none => exact (tyOk_ascii (U := E.U) (t := ⟨py!"None", 0⟩) (by decide)).2
      | other t r => exact hk.1.2
    unfold labelSuffix
    dsimp only
    split
    · exact wspace_word
    · exact toCamel_word h
  nameTy hs hh := hs.append (Verif.Word.capitalize hh.2.1.1 hh.2.1.2)
  rename hh hn := ⟨hn.renameTimes hh.1, hh.2⟩
  hdr := by
    intro name v root slots hn hv _
    refine ⟨hn, valAll_ty hv, ?_⟩
    intro f hf
    have hf : kindOf E.S v = .func f := hf
    cases v with
    | func g => simp only [kindOf, NKind.func.injEq] at hf; subst hf; exact hv.2
    | map k t ks vs => cases k <;> simp [kindOf] at hf
    | _ => simp [kindOf] at hf
  merge hh _ _ := ⟨hh.1, hh.2.1, by simp⟩
  bad hn _ hb := by rw [hn.nameOk hp] at hb; cases hb
  sig hv hf := hv.2.1 hf
  noTrees h := h hm

/-- **C14**: for ordinary data (class names are words, and changing the case of the letters in keys and class names yields
letters again — in particular for all ASCII data) no invented name is ever rejected, and every name in the tree passes
the name check and extends the class name. Missing: keys with letters such as `ǰ`, for which the claim is false. -/
theorem names_always_valid_partial (hE : E.Fair) (hm : 0 < E.S.merge) (name : Str) (v : Val) (hn : nameOk E.U name = true)
    (hv : Ordinary E.U v) :
    ∃ n, fromData E name v = .ok n ∧ NodeAll (fun h => name <+: h.name ∧ nameOk E.U h.name = true) n := by
  have h := build_ens hE (ordinary_inv E hn hm) (v.depth + 1) true name v ⟨List.prefix_rfl, word_of_nameOk hn⟩ hv (by omega)
  cases hb : build E (v.depth + 1) true name v with
  | error e => rw [hb] at h; exact h.elim
  | ok n =>
    rw [hb] at h
    refine ⟨n, by simp [fromData, hn, buildTree, hb], ?_⟩
    exact nodeAll_imp (fun h hh => ⟨hh.1.1, hh.1.nameOk hn⟩) h.1.1

/-- **C16**: generation from ordinary data always returns a text, for every set-iteration order. Missing: functions whose
signature or source is unavailable and keys with letters such as `ǰ`, for which the claim is false. -/
theorem generation_total_partial (hE : E.Fair) (hm : 0 < E.S.merge) (name : Str) (v : Val) (imports : Bool)
    (hn : nameOk E.U name = true) (hv : Ordinary E.U v) : ∃ text, generate E name v imports = .ok text := by
  have h := build_ens hE (ordinary_inv E hn hm) (v.depth + 1) true name v ⟨List.prefix_rfl, word_of_nameOk hn⟩ hv (by omega)
  cases hb : build E (v.depth + 1) true name v with
  | error e => rw [hb] at h; exact h.elim
  | ok n =>
    rw [hb] at h
    have hf : firstFailure (n.render E).emitted = none := out_fails (nodeAll_imp (fun h hh => hh.2.2) h.1.1)
    have hk : ∃ s, formatImports 90 (allKws (n.render E)) = .ok s := by
      cases hfi : formatImports 90 (allKws (n.render E)) with
      | ok s => exact ⟨s, rfl⟩
      | error e =>
        obtain ⟨kw, hkw, hun⟩ := (imports_rejected_iff 90 _).1 ⟨e, hfi⟩
        exact absurd ((known_iff kw).2 (out_known (fun s => sigImports_known s) n kw hkw)) hun
    obtain ⟨s, hs⟩ := hk
    simp only [generate, fromData, hn, if_true, buildTree, hb, toString', nodeStrings, hf, hs]
    have hne : (declTexts (n.render E)).isEmpty = false := declTexts_root_ne_nil h.2.2.2.2
    rw [hne]
    cases imports
    · exact ⟨_, rfl⟩
    · exact ⟨_, rfl⟩

end

/-- The recursion of the model is never cut short: construction terminates by itself within the nesting depth of the data,
also where it merges dictionaries and builds the merged one anew. -/
theorem construction_terminates (E : Env) (hE : E.Fair) (name : Str) (v : Val) : buildTree E name v ≠ .error .fuel := by
  have I : Inv E (fun _ => True) (fun _ _ => True) (fun _ => True) (fun _ => True) (fun e => e ≠ .fuel) := by
    constructor <;> intros <;> first | trivial | simp
  have h := build_ens hE I (v.depth + 1) true name v trivial trivial (by omega)
  intro hb
  unfold buildTree at hb
  rw [hb] at h
  exact h rfl

theorem freshSuffix_fresh (base : Str) (names : List Str) : ∀ fuel c,
    (∃ k, c ≤ k ∧ k ≤ c + fuel ∧ base ++ natStr k ∉ names) → freshSuffix base names fuel c ∉ names
  | 0, c, ⟨k, h1, h2, h3⟩ => by
    have : k = c := by omega
    subst this; exact h3
  | fuel + 1, c, ⟨k, h1, h2, h3⟩ => by
    simp only [freshSuffix]
    split
    · rename_i hc
      refine freshSuffix_fresh base names fuel (c + 1) ⟨k, ?_, by omega, h3⟩
      have : k ≠ c := by rintro rfl; exact h3 (by simpa using hc)
      omega
    · rename_i hc; simpa using hc

/-- The numeric suffix search of the generator finds an unused name: siblings of a list, set or tuple that are not equal
get different names. -/
theorem fresh_name_unused (base : Str) (names : List Str) : freshName base names ∉ names := by
  unfold freshName
  split
  · apply freshSuffix_fresh
    refine Classical.byContradiction fun hno => ?_
    have hall : ∀ k, k ∈ List.range (names.length + 1) → base ++ natStr (k + 2) ∈ names := by
      intro k hk
      rw [List.mem_range] at hk
      refine Classical.byContradiction fun h => hno ⟨k + 2, by omega, by omega, h⟩
    have hnd : ((List.range (names.length + 1)).map (fun k => base ++ natStr (k + 2))).Nodup := by
      rw [List.nodup_iff_pairwise_ne, List.pairwise_map]
      refine List.Pairwise.imp ?_ (List.nodup_iff_pairwise_ne.mp List.nodup_range)
      intro a b hab h
      have := natStr_inj (List.append_cancel_left h)
      omega
    have hsub : ((List.range (names.length + 1)).map (fun k => base ++ natStr (k + 2))) ⊆ names := by
      intro x hx
      obtain ⟨k, hk, rfl⟩ := List.mem_map.mp hx
      exact hall k hk
    have := length_le_of_nodup_subset hnd hsub
    simp at this
    omega
  · rename_i hc; simpa using hc

example : freshName py!"XList" [py!"XList", py!"XList2"] = py!"XList3" := by decide +kernel

/-- All ASCII data without functions is ordinary, whatever the interpreter's Unicode tables are. -/
theorem ordinary_ascii (U : Uni) (v : Val)
    (h : ValAll (fun t => ∀ c ∈ t.name, isAscii c = true ∧ (c.isAlphanum = true ∨ c = '_'))
      (fun k => match k with
        | .str s => ∀ c ∈ s, isAscii c = true
        | .none => True
        | .other t r => (∀ c ∈ t.name, isAscii c = true ∧ (c.isAlphanum = true ∨ c = '_')) ∧ ∀ c ∈ r, isAscii c = true)
      FuncOk v) : Ordinary U v := by
  refine valAll_imp ?_ ?_ (fun _ h => h) h
  · intro t ht; exact ascii_word ht
  · intro k hk
    cases k with
    | str s => exact caseSafe_ascii hk
    | none => trivial
    | other t r => exact ⟨ascii_word hk.1, caseSafe_ascii hk.2⟩

/-- A value exercising nesting, awkward keys, sharing and merging. -/
def sampleVal : Val := .dict
  [(.str py!"user id", .seq .list .list [.dict [(.str py!"a", .inst .int none)], .dict [(.str py!"a", .inst .int none), (.str py!"b", .inst .noneType none)]]),
   (.str py!"1st-thing!", .seq .tuple .tuple [.inst .str (some py!"x"), .seq .set .set [.inst .float none]])]

example : (exEnv {}).Fair := ⟨fun _ _ => List.Perm.refl _, fun _ _ => rfl⟩
example : Ordinary asciiUni sampleVal := by
  apply ordinary_ascii
  simp only [sampleVal, Val.dict, ValAll, ValAllList, List.map_cons, List.map_nil, List.mem_cons, List.not_mem_nil, or_false,
    forall_eq_or_imp, forall_eq]
  decide
example : (match generate (exEnv {}) py!"X" sampleVal true with | .ok t => t.length | .error _ => 0) = 375 := by
  decide +kernel

end Verif.Props
