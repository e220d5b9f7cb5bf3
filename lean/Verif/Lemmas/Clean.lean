import Verif.Lemmas.Dict
import Verif.Props.Names
/-
Trees built from regular values: their text is the printed form of abstract declarations.
-/
namespace Verif
open Verif.Spec Verif.Props

theorem everyList_iff {p : Val → Prop} : ∀ {l : List Val}, EveryList p l ↔ ∀ v ∈ l, Every p v
  | [] => by simp [EveryList]
  | v :: l => by simp [EveryList, everyList_iff (l := l)]

theorem every_self {p : Val → Prop} : ∀ {v : Val}, Every p v → p v
  | .inst _ _, h | .cls _ _, h | .module _, h | .io _, h | .ndarray _ _, h | .func _, h => h
  | .seq _ _ _, h => h.1
  | .map _ _ _ _, h => h.1

theorem eq_not_word {U : Uni} {s : Str} (h : Word U s) : '=' ∉ s := by
  intro hc
  rcases h '=' hc with h | h
  · simp only [Uni.isAlnum, U.alpha_ascii '=' (by decide), U.numeric_ascii '=' (by decide)] at h
    revert h; decide
  · revert h; decide

theorem key_ty_noeq {U : Uni} {k : Key} (h : KeyOk U k) : '=' ∉ k.ty.name := by
  cases k with
  | str s => show '=' ∉ py!"str"; decide
  | none => decide
  | other t r => exact eq_not_word h.1.1

/-- Header property of trees built from regular values under a class name. -/
def RegHdr (E : Env) (pfx : Str) (h : Hdr) : Prop :=
  Extends E.U pfx h.name ∧ TyOk E.U h.ty ∧ CleanHdr E h

theorem regular_inv {E : Env} {pfx : Str} (hp : nameOk E.U pfx = true) (hm : 0 < E.S.merge) :
    Inv E (Regular E.U) (fun k v => KeyOk E.U k ∧ Regular E.U v) (Extends E.U pfx) (RegHdr E pfx) (fun _ => False) where
  seqElem h he := ⟨valAllList_iff.mp h.1.2 _ he, everyList_iff.mp h.2.2 _ he⟩
  mapEntry h hkv := ⟨h.1.2.1 _ (List.of_mem_zip hkv).1, valAllList_iff.mp h.1.2.2 _ (List.of_mem_zip hkv).2,
    everyList_iff.mp h.2.2 _ (List.of_mem_zip hkv).2⟩
  entry h := h.2
  dict h := by
    refine ⟨valAll_dict (tyOk_ascii (by decide)) (fun kv hkv => ⟨(h kv hkv).1, (h kv hkv).2.1⟩), trivial, ?_⟩
    rw [everyList_iff]
    intro v hv
    obtain ⟨kv, hkv, rfl⟩ := List.mem_map.mp hv
    exact (h kv hkv).2.2
  nameElem hs hv := (ordinary_inv E hp hm).nameElem hs hv.1
  nameNum hs := (ordinary_inv E hp hm).nameNum hs
  nameKey hs hk := (ordinary_inv E hp hm).nameKey hs ⟨hk.1, hk.2.1⟩
  nameLabel hs hk := (ordinary_inv E hp hm).nameLabel hs ⟨hk.1, hk.2.1⟩
  nameTy hs hh := hs.append (Verif.Word.capitalize hh.2.1.1 hh.2.1.2)
  rename := by
    intro h new len c hh hn
    have h1 := hn.renameTimes (len := len) (c := c) hh.1
    exact ⟨h1, hh.2.1, eq_not_word h1.2, hh.2.2.2⟩
  hdr := by
    intro name v root slots hn hv hsl
    refine ⟨hn, valAll_ty hv.1, eq_not_word hn.2, (valAll_ty hv.1).1, ?_, ?_⟩
    · intro s hs
      rcases hsl s hs with h | ⟨w, h, _⟩
      · rw [h]; decide
      · exact key_ty_noeq h
    · have hpr := every_self hv.2
      cases v with
      | map k t ks vs =>
        cases k with
        | frame i => exact .inl hpr
        | dict => trivial
        | proxy => trivial
      | func f => exact hv.1.2
      | cls m n => exact hpr
      | ndarray t d => exact hpr
      | inst _ _ => trivial
      | module _ => trivial
      | io _ => trivial
      | seq _ _ _ => trivial
  merge hh _ _ := ⟨hh.1, hh.2.1, hh.2.2.1, hh.2.2.2.1, hh.2.2.2.2.1, trivial⟩
  bad hn _ hb := by rw [hn.nameOk hp] at hb; cases hb
  sig hv hf := hv.1.2.1 hf
  noTrees h := h hm

/-- Declarations with pairwise different texts, in order of first occurrence. -/
def dedupDecls : List TDecl → List TDecl
  | [] => []
  | d :: r => d :: (dedupDecls r).filter (fun e => decide (e.print ≠ d.print))

theorem dedupDecls_print : ∀ (l : List TDecl), (dedupDecls l).map TDecl.print = dedup (l.map TDecl.print)
  | [] => rfl
  | d :: r => by
    simp only [dedupDecls, List.map_cons, dedup, ← dedupDecls_print r, List.filter_map, Function.comp_def]

theorem dedupDecls_sub : ∀ {l : List TDecl}, (dedupDecls l).Sublist l
  | [] => .slnil
  | d :: r => (List.filter_sublist.trans dedupDecls_sub).cons_cons d

theorem dedupDecls_mem {l : List TDecl} {d : TDecl} (h : d ∈ dedupDecls l) : d ∈ l := dedupDecls_sub.subset h

theorem mem_dedupDecls : ∀ {l : List TDecl} {d : TDecl}, d ∈ l → ∃ e ∈ dedupDecls l, e.print = d.print
  | [], _, h => by simp at h
  | x :: r, d, h => by
    by_cases hx : d.print = x.print
    · exact ⟨x, by simp [dedupDecls], hx.symm⟩
    · rcases List.mem_cons.mp h with rfl | h
      · exact absurd rfl hx
      · obtain ⟨e, he, hp⟩ := mem_dedupDecls h
        exact ⟨e, by simp [dedupDecls, he, hp, hx], hp⟩

/-- A tree built from a regular value. -/
theorem regular_build {E : Env} (hE : E.Fair) (hm : 0 < E.S.merge) {name : Str} {v : Val} {n : Node}
    (hv : Regular E.U v) (hn : fromData E name v = .ok n) :
    nameOk E.U name = true ∧ build E (v.depth + 1) true name v = .ok n ∧ NodeAll (RegHdr E name) n ∧ n.hdr.root = true ∧
      n.name = name ∧ n.hdr.kind = kindOf E.S v := by
  unfold fromData at hn
  by_cases hk : nameOk E.U name = true
  · rw [if_pos hk] at hn
    have h := build_ens hE (regular_inv hk hm) (v.depth + 1) true name v ⟨List.prefix_rfl, word_of_nameOk hk⟩ hv (by omega)
    unfold buildTree at hn
    cases hb : build E (v.depth + 1) true name v with
    | error e => rw [hb] at hn; cases hn
    | ok m =>
      rw [hb] at hn h
      injection hn with hn
      subst hn
      exact ⟨hk, rfl, h.1.1, h.2.2.2.2, h.2.1, h.2.2.2.1⟩
  · rw [if_neg hk] at hn; cases hn

/-- The declarations of a tree built from a regular value. -/
theorem regular_strings {E : Env} (hE : E.Fair) (hm : 0 < E.S.merge) {name : Str} {v : Val} {n : Node}
    (hv : Regular E.U v) (hn : fromData E name v = .ok n) :
    nodeStrings E n false = .ok ((dedupDecls (n.abs E).emitted).map TDecl.print) := by
  obtain ⟨_, _, h1, h2, _, _⟩ := regular_build hE hm hv hn
  have hc : Corr (n.render E) (n.abs E) := out_corr (nodeAll_imp (fun _ h => h.2.2) h1)
  have hf : firstFailure (n.render E).emitted = none := out_fails (nodeAll_imp (fun h hh f hf => by
    have := hh.2.2.2.2.2
    rw [hf] at this
    exact this) h1)
  have hne : (declTexts (n.render E)).isEmpty = false := declTexts_root_ne_nil h2
  unfold nodeStrings
  simp only [hf, hne, Bool.false_eq_true, if_false]
  rw [declTexts, hc.emitted, dedupDecls_print]

/-- Regular data can always be rendered. -/
theorem regular_total {E : Env} (hE : E.Fair) (hm : 0 < E.S.merge) {name : Str} {v : Val} (hk : nameOk E.U name = true)
    (hv : Regular E.U v) : ∃ n, fromData E name v = .ok n := by
  obtain ⟨n, h, _⟩ := names_always_valid_partial E hE hm name v hk hv.1
  exact ⟨n, h⟩

/-! ### A checker for examples -/

def plainTy (t : Ty) : Bool := t.name.all (fun c => isAscii c && (c.isAlphanum || c == '_'))

def plainKey : Key → Bool
  | .str s => s.all isAscii
  | .none => true
  | .other t r => plainTy t && r.all isAscii

mutual
/-- Data without functions, classes, arrays and frames, all in ASCII. -/
def plainVal : Val → Bool
  | .inst t _ => plainTy t
  | .module t => plainTy t
  | .io t => plainTy t
  | .seq _ t es => plainTy t && plainVals es
  | .map .dict t ks vs => plainTy t && ks.all plainKey && plainVals vs
  | .map .proxy t ks vs => plainTy t && ks.all plainKey && plainVals vs
  | .map (.frame i) t ks vs => i.literalLabels && plainTy t && ks.all plainKey && plainVals vs
  | _ => false
def plainVals : List Val → Bool
  | [] => true
  | v :: l => plainVal v && plainVals l
end

theorem plainKey_ok {U : Uni} {k : Key} (h : plainKey k = true) : KeyOk U k := by
  cases k with
  | str s => exact caseSafe_ascii (by simpa [plainKey] using h)
  | none => trivial
  | other t r =>
    simp only [plainKey, Bool.and_eq_true, List.all_eq_true] at h
    exact ⟨tyOk_ascii h.1, caseSafe_ascii h.2⟩

mutual
theorem plain_regular {U : Uni} : ∀ {v : Val}, plainVal v = true → Regular U v
  | .inst t x, h => ⟨tyOk_ascii h, trivial⟩
  | .module t, h => ⟨tyOk_ascii h, trivial⟩
  | .io t, h => ⟨tyOk_ascii h, trivial⟩
  | .cls _ _, h => by simp [plainVal] at h
  | .func _, h => by simp [plainVal] at h
  | .ndarray _ _, h => by simp [plainVal] at h
  | .seq k t es, h => by
    simp only [plainVal, Bool.and_eq_true] at h
    have ih := plains_regular (U := U) h.2
    exact ⟨⟨tyOk_ascii h.1, ih.1⟩, trivial, ih.2⟩
  | .map .dict t ks vs, h => by
    simp only [plainVal, Bool.and_eq_true, List.all_eq_true] at h
    have ih := plains_regular (U := U) h.2
    exact ⟨⟨tyOk_ascii h.1.1, fun k hk => plainKey_ok (h.1.2 k hk), ih.1⟩, trivial, ih.2⟩
  | .map .proxy t ks vs, h => by
    simp only [plainVal, Bool.and_eq_true, List.all_eq_true] at h
    have ih := plains_regular (U := U) h.2
    exact ⟨⟨tyOk_ascii h.1.1, fun k hk => plainKey_ok (h.1.2 k hk), ih.1⟩, trivial, ih.2⟩
  | .map (.frame _) t ks vs, h => by
    simp only [plainVal, Bool.and_eq_true, List.all_eq_true] at h
    have ih := plains_regular (U := U) h.2
    exact ⟨⟨tyOk_ascii h.1.1.2, fun k hk => plainKey_ok (h.1.2 k hk), ih.1⟩, h.1.1.1, ih.2⟩
theorem plains_regular {U : Uni} : ∀ {l : List Val}, plainVals l = true → ValAllList (TyOk U) (KeyOk U) FuncOk l ∧ EveryList Printable l
  | [], _ => ⟨trivial, trivial⟩
  | v :: l, h => by
    simp only [plainVals, Bool.and_eq_true] at h
    have h1 := plain_regular (U := U) h.1
    have h2 := plains_regular (U := U) h.2
    exact ⟨⟨h1.1, h2.1⟩, h1.2, h2.2⟩
end

end Verif
