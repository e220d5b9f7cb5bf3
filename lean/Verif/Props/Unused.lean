import Verif.Lemmas.Unused
import Verif.Spec.Frames
import Verif.Props.Symbols
import Verif.Lemmas.Quotes
import Verif.Lemmas.Columns
/-
C72: the import block of a generated text contains nothing that the declarations do not use.
-/
namespace Verif.Props
open Verif Verif.Spec

/-- C72, the full statement: every library symbol that is a word of the import block is a word of a declaration. -/
def NoUnusedImports (E : Env) : Prop := ∀ (name : Str) (v : Val) (n : Node) (block : Str) (decls : List Str), Regular E.U v →
  fromData E name v = .ok n → nodeStrings E n true = .ok (block :: decls) → ∀ x ∈ librarySymbols, x ∈ lexemes block → ∃ d ∈ decls, x ∈ lexemes d

/-- The texts generated for a value. -/
def fullText (E : Env) (name : Str) (v : Val) : Option (List Str) :=
  match fromData E name v with
  | .ok n => (match nodeStrings E n true with
    | .ok l => some l
    | .error _ => none)
  | .error _ => none

theorem fullText_some {E : Env} {name : Str} {v : Val} {l : List Str} (h : fullText E name v = some l) :
    ∃ n, fromData E name v = .ok n ∧ nodeStrings E n true = .ok l := by
  unfold fullText at h
  split at h
  · rename_i n hn
    split at h
    · rename_i l' hl
      injection h with h
      subst h
      exact ⟨n, hn, hl⟩
    · cases h
  · cases h

/-- A dictionary with a list that is described inside the class of the dictionary. -/
def inlineData : Val := .dict [(.str py!"kids", .seq .list .list [.inst .str none])]

/-- The text for it. -/
theorem inline_text : fullText (exEnv {}) py!"Cfg" inlineData =
    some [py!"from typing import List, TypedDict\nfrom typing_extensions import TypeAlias",
      py!"class Cfg(TypedDict):\n    kids: List[str]"] := by decide +kernel

/-- It is false: a collection that is described in place still requests `TypeAlias`. -/
theorem no_unused_imports_fails : ¬ NoUnusedImports (exEnv {}) := by
  intro h
  obtain ⟨n, hb, e⟩ := fullText_some inline_text
  obtain ⟨d, hd, hx⟩ := h _ _ n _ _ (plain_regular (by decide +kernel)) hb e py!"TypeAlias" (by decide) (by decide +kernel)
  clear h hb e
  revert d
  decide +kernel

/-- The same for the annotation `list` of a function, for which `List` is imported. -/
theorem no_unused_imports_fails_function :
    fullText (exEnv {}) py!"Run" (.func { ty := ⟨py!"function", 90⟩, isLambda := false, sig := .ok py!"(a: list) -> int" 1, source := .ret true }) =
    some [py!"from typing import List, Protocol", py!"class Run(Protocol):\n    def __call__(a: list) -> int: ..."] := by decide +kernel

section
variable {E : Env}

/-- The words of an import block that name library symbols are bound by it. -/
theorem layout_words {st : ImportStmt} {t : Str} (h : Layout st t) (hb : ∀ b ∈ st.bindings, ∃ e ∈ symbolTable, b = e.2) {x : Str}
    (hx : x ∈ librarySymbols) (hw : x ∈ lexemes t) : ∃ m, (m, x) ∈ st.bindings := by
  have noMod : ∀ m n, (m, n) ∈ st.bindings → x ∉ lexemes m := by
    intro m n hmn
    obtain ⟨e, he, hE⟩ := hb _ hmn
    have all : ∀ e ∈ symbolTable, ∀ x ∈ librarySymbols, x ∉ lexemes e.2.1 := by decide +kernel
    have := all e he x hx
    rw [← hE] at this
    exact this
  have sym : ∀ m n, (m, n) ∈ st.bindings → lexemes n = [n] := by
    intro m n hmn
    obtain ⟨e, he, hE⟩ := hb _ hmn
    have all : ∀ e ∈ symbolTable, lexemes e.2.2 = [e.2.2] := by decide +kernel
    have := all e he
    rw [← hE] at this
    exact this
  have kw : ∀ y ∈ [py!"from", py!"import", py!"as"], y ≠ x := by
    rintro y hy rfl
    have : ∀ y ∈ [py!"from", py!"import", py!"as"], y ∉ librarySymbols := by decide
    exact this y hy hx
  cases h with
  | oneLine m ns hne =>
    obtain ⟨n, r, hr⟩ := List.exists_cons_of_ne_nil hne
    have hm := noMod m n (by simp [ImportStmt.bindings, hr])
    have e : py!"from " ++ m ++ py!" import " ++ join py!", " ns = py!"from" ++ ' ' :: (m ++ ' ' :: (py!"import" ++ ' ' :: join py!", " ns)) := by simp
    rw [e, lexemes_sep (by decide), lexemes_sep (by decide), lexemes_sep (by decide), show lexemes py!"from" = [py!"from"] by decide,
      show lexemes py!"import" = [py!"import"] by decide] at hw
    simp only [List.mem_append, List.mem_singleton] at hw
    rcases hw with h | h | h | h
    · exact absurd h.symm (kw _ (by simp))
    · exact absurd h hm
    · exact absurd h.symm (kw _ (by simp))
    · obtain ⟨s, hs, hxs⟩ := mem_lexemes_commas.mp h
      have hb' : (m, s) ∈ ImportStmt.bindings (.fromImport m ns) := List.mem_map.mpr ⟨s, hs, rfl⟩
      rw [sym m s hb', List.mem_singleton] at hxs
      subst hxs
      exact ⟨m, hb'⟩
  | wrapped m ns hne =>
    obtain ⟨n, r, hr⟩ := List.exists_cons_of_ne_nil hne
    have hm := noMod m n (by simp [ImportStmt.bindings, hr])
    have e : py!"from " ++ m ++ py!" import (\n    " ++ join py!",\n    " ns ++ py!",\n)" =
        py!"from" ++ ' ' :: (m ++ ' ' :: (py!"import" ++ ' ' :: (py!"(\n   " ++ ' ' :: (join py!",\n    " ns ++ ',' :: py!"\n)")))) := by simp
    rw [e, lexemes_sep (by decide), lexemes_sep (by decide), lexemes_sep (by decide), lexemes_sep (by decide), lexemes_sep (by decide),
      show lexemes py!"from" = [py!"from"] by decide,
      show lexemes py!"import" = [py!"import"] by decide, show lexemes py!"(\n   " = [] by decide, show lexemes py!"\n)" = [] by decide] at hw
    simp only [List.mem_append, List.mem_singleton, List.nil_append, List.append_nil] at hw
    rcases hw with h | h | h | h
    · exact absurd h.symm (kw _ (by simp))
    · exact absurd h hm
    · exact absurd h.symm (kw _ (by simp))
    · obtain ⟨s, hs, hxs⟩ := (mem_lexemes_join (c := ',') (sep := py!"\n    ") (by decide) (fun t => by
        simp only [List.cons_append, List.nil_append]
        repeat rw [lexemes_cons (by decide)])).mp h
      have hb' : (m, s) ∈ ImportStmt.bindings (.fromImport m ns) := List.mem_map.mpr ⟨s, hs, rfl⟩
      rw [sym m s hb', List.mem_singleton] at hxs
      subst hxs
      exact ⟨m, hb'⟩
  | alias m a =>
    have hb' : (m, a) ∈ ImportStmt.bindings (.importAs m a) := by simp [ImportStmt.bindings]
    have hm := noMod m a hb'
    have e : py!"import " ++ m ++ py!" as " ++ a = py!"import" ++ ' ' :: (m ++ ' ' :: (py!"as" ++ ' ' :: a)) := by simp
    rw [e, lexemes_sep (by decide), lexemes_sep (by decide), lexemes_sep (by decide), show lexemes py!"import" = [py!"import"] by decide,
      show lexemes py!"as" = [py!"as"] by decide, sym m a hb'] at hw
    simp only [List.mem_append, List.mem_singleton] at hw
    rcases hw with h | h | h | h
    · exact absurd h.symm (kw _ (by simp))
    · exact absurd h hm
    · exact absurd h.symm (kw _ (by simp))
    · subst h; exact ⟨m, hb'⟩

theorem block_words {sts : List ImportStmt} {block : Str} (h : BlockText sts block)
    (hb : ∀ b ∈ sts.flatMap ImportStmt.bindings, ∃ e ∈ symbolTable, b = e.2) {x : Str}
    (hx : x ∈ librarySymbols) (hw : x ∈ lexemes block) : ∃ m, (m, x) ∈ sts.flatMap ImportStmt.bindings := by
  have hend : ∀ (t e : Str), e ∈ [[], py!"\n"] → lexemes (t ++ e) = lexemes t := by
    intro t e he
    simp only [List.mem_cons, List.not_mem_nil, or_false] at he
    rcases he with rfl | rfl
    · simp
    · exact lexemes_last (by decide) t
  induction h with
  | nil => simp [lexemes_nil] at hw
  | one e hl he =>
    rw [hend _ _ he] at hw
    simpa using layout_words hl (fun b h => hb b (by simpa using h)) hx hw
  | @cons st t sts r e hl he _ _ ih =>
    rw [show t ++ e ++ py!"\n" ++ r = (t ++ e) ++ '\n' :: r by simp, lexemes_sep (by decide), hend _ _ he] at hw
    simp only [List.flatMap_cons, List.mem_append] at hb ⊢
    rcases List.mem_append.mp hw with hw | hw
    · obtain ⟨m, hm⟩ := layout_words hl (fun b h => hb b (.inl h)) hx hw
      exact ⟨m, .inl hm⟩
    · obtain ⟨m, hm⟩ := ih (fun b h => hb b (.inr h)) hw
      exact ⟨m, .inr hm⟩

/-- The signatures of functions mention no name under which something of another name is imported. -/
def QuietFuncs (E : Env) (v : Val) : Prop := ValAll (fun _ => True) (fun _ => True)
  (fun f => f.isLambda = false → ∀ args n, f.sig = .ok args n → QuietSig E.U args) v

/-- The value is described by an alias: neither by a class for its keys nor by one for its calls or columns. -/
def AliasRoot (S : Strategies) : Val → Prop
  | .func f => f.isLambda = true
  | .map .dict _ _ _ => S.dict ≠ .typedDict
  | .map (.frame _) _ _ _ => False
  | _ => True

theorem literalKey_of {E : Env} {k : Key} (h : literalOf E.reprStr k ≠ none) : literalKey k = true := by
  cases k with
  | none => exact absurd rfl h
  | str s => rfl
  | other t r =>
    simp only [literalOf] at h
    split at h
    · rename_i ht
      simp only [literalKey, Bool.or_eq_true, decide_eq_true_eq]
      exact ht
    · exact absurd rfl h

theorem quiet_inv : Inv E (QuietFuncs E) (fun _ v => QuietFuncs E v) (fun _ => True) (QuietHdr false (sigImports E.U)) (fun _ => True) where
  seqElem h he := valAllList_iff.mp h.2 _ he
  mapEntry h hkv := valAllList_iff.mp h.2.2 _ (List.of_mem_zip hkv).2
  entry h := h
  dict h := valAll_dict trivial (fun kv hkv => ⟨trivial, h kv hkv⟩)
  nameElem _ _ := trivial
  nameNum _ := trivial
  nameKey _ _ := trivial
  nameLabel _ _ := trivial
  nameTy _ _ := trivial
  rename hh _ := hh
  hdr := by
    intro name v root slots _ hv hsl
    unfold QuietHdr
    cases v with
    | map k t ks vs =>
      cases k with
      | frame i => intro h; cases h
      | _ => trivial
    | func f =>
      intro hl args n hs
      have hq : QuietSig E.U args := hv.2 hl args n hs
      exact ⟨hq.opening, fun kw hkw => sigImports_words hq hkw⟩
    | _ => trivial
  merge hh _ _ := trivial
  bad _ _ _ := trivial
  sig _ _ := trivial
  noTrees _ := trivial

theorem nodeAll_self {p : Hdr → Prop} {h : Hdr} {kids : List Node} (hn : NodeAll p (.mk h kids)) : p h := hn.1

theorem aliasRoot_body {h : Hdr} {v : Val} {kids : List AOut} (hk : h.kind = kindOf E.S v) (ha : AliasRoot E.S v) (hc : CleanHdr E h) :
    ∃ t, aBody E h kids = .alias t := by
  unfold aBody
  rw [hk]
  cases v with
  | func f =>
    have hf : FuncOk f := by
      have := hc.2.2.2
      rw [hk] at this
      exact this
    simp only [kindOf, funcBody]
    cases hs : f.sig with
    | typeError => exact absurd hs hf.1
    | valueError => exact ⟨_, rfl⟩
    | ok args n =>
      have hl : f.isLambda = true := ha
      exact ⟨.callable n, by simp only [hl, if_true]⟩
  | seq k t es => cases k <;> exact ⟨_, rfl⟩
  | map k t ks vs =>
    cases k with
    | dict =>
      have hd : E.S.dict ≠ .typedDict := ha
      refine ⟨mapExpr E h (iterate h.slots kids), ?_⟩
      simp only [kindOf]
      rw [if_neg]
      unfold DMeta.isTyped
      simp [hd]
    | proxy => exact ⟨_, rfl⟩
    | frame i => exact absurd ha id
  | _ => exact ⟨_, rfl⟩

/-- C72. Every library symbol in the import block is used by a declaration, if the signatures of functions mention none of the
names of `namedOtherwise`; for `TypeAlias` the value has to be described by an alias itself. -/
theorem no_unused_imports_partial (hE : E.Fair) (hm : 0 < E.S.merge) {name : Str} {v : Val} {n : Node} {block : Str} {decls : List Str}
    (hv : Regular E.U v) (hr : Every ReadFrame v) (hq : QuietFuncs E v) (hb : fromData E name v = .ok n) (ht : nodeStrings E n true = .ok (block :: decls))
    {x : Str} (hx : x ∈ librarySymbols) (hw : x ∈ lexemes block) (hann : x ≠ py!"annotations")
    (hta : x = py!"TypeAlias" → AliasRoot E.S v) : ∃ d ∈ decls, x ∈ lexemes d := by
  obtain ⟨_, hbuild, hreg, hroot, _, hkind⟩ := regular_build hE hm hv hb
  have hq0 : NodeAll (QuietHdr true (sigImports E.U)) n := by
    have h := build_ens hE quiet_inv (v.depth + 1) true name v trivial hq (Nat.lt_succ_self _)
    rw [hbuild] at h
    refine nodeAll_imp ?_ (nodeAll_and n h.1.1 (keyed_build hE _ (read_labels hv hr) (Nat.lt_succ_self _) hbuild))
    rintro h ⟨h1, h2⟩
    unfold QuietHdr at h1 ⊢
    unfold KeyedHdr at h2
    split at h1
    · rename_i hk
      rw [hk] at h2
      exact fun _ => h2
    · exact h1
    · trivial
  have hshow := out_shows (im := sigImports E.U) (nodeAll_imp (fun h hh => ⟨hh.1, hh.2.2.2⟩) (nodeAll_and n hq0 hreg))
  have hf : firstFailure (n.render E).emitted = none := out_fails (nodeAll_imp (fun h hh f hf => by
    have := hh.2.2.2.2.2
    rw [hf] at this
    exact this) hreg)
  have hne : (declTexts (n.render E)).isEmpty = false := declTexts_root_ne_nil hroot
  unfold nodeStrings at ht
  simp only [hf, hne, Bool.false_eq_true, if_false, if_true] at ht
  cases hfi : formatImports 90 (allKws (n.render E)) with
  | error e => rw [hfi] at ht; cases ht
  | ok s =>
    rw [hfi] at ht
    simp only [Except.ok.injEq, List.cons.injEq] at ht
    obtain ⟨rfl, rfl⟩ := ht
    obtain ⟨sts, hsts, hperm⟩ := imports_bind_requested 90 (by decide) _ (nodup_dedup _) _ hfi
    have hknown : ∀ kw ∈ allKws (n.render E), Known kw := fun kw hkw =>
      (known_iff kw).mpr (out_known (fun s => sigImports_known s) n kw hkw)
    obtain ⟨m, hm⟩ := block_words hsts (by
      intro b hb
      obtain ⟨kw, hkw, rfl⟩ := List.mem_map.mp (hperm.mem_iff.mp hb)
      obtain ⟨b, hb⟩ := hknown kw hkw
      unfold bindingOf
      cases hf : symbolTable.find? (fun e => e.1 == kw) with
      | none =>
        have := List.find?_eq_none.mp hf _ hb
        simp at this
      | some e => exact ⟨e, List.mem_of_find?_eq_some hf, rfl⟩) hx hw
    obtain ⟨kw, hkw, he⟩ := List.mem_map.mp (hperm.mem_iff.mp hm)
    have hsym : symOf kw = x := by unfold symOf; rw [he]
    by_cases hal : x = py!"TypeAlias"
    · refine ⟨(n.render E).top.text, mem_dedup.mpr (List.mem_map_of_mem (emitted_root hroot)), ?_⟩
      have htext : (n.render E).top.text = (n.abs E).decl.print := hshow.corr.top (by
        cases n with
        | mk h kids => exact permOf_root hroot)
      rw [htext]
      cases n with
      | mk h kids =>
        have hkind : h.kind = kindOf E.S v := hkind
        obtain ⟨t, ht⟩ := aliasRoot_body (kids := absList E kids) hkind (hta hal) (nodeAll_self hreg).2.2
        have : ((Node.mk h kids).abs E).decl = ⟨h.name, .alias t⟩ := by
          rw [Node.abs, ← ht]; rfl
        rw [this, hal]
        simp only [TDecl.print]
        rw [lexemes_alias]
        exact List.mem_append_right _ (by simp)
    · obtain ⟨d, hd, hkd⟩ := List.mem_flatMap.mp (mem_dedup.mp hkw)
      rcases hshow.emitted d hd kw hkd with hs | hs
      · exfalso
        rw [hsym] at hs
        rcases hs with h | h | ⟨h1, h2⟩
        · exact hal h
        · exact hann h
        · cases h1
      · rw [hsym] at hs
        exact ⟨d.text, mem_dedup.mpr (List.mem_map_of_mem hd), hs⟩

end
/-- A list of two functions and an optional number. -/
def usedData : Val := .seq .list .list
  [.func { ty := ⟨py!"function", 90⟩, isLambda := false, sig := .ok py!"(a: List[int], b: 'Iterator')" 2, source := .ret true }, .inst .noneType none, .inst .int none]

/-- The hypotheses hold for it, for all symbols of its block: `List`, `Iterator`, `Protocol`, `Any`, `Optional`, `Union` and `TypeAlias`. -/
example : ∃ n block decls, fromData (exEnv {}) py!"Cfg" usedData = .ok n ∧ nodeStrings (exEnv {}) n true = .ok (block :: decls) ∧
    (∀ x ∈ [py!"List", py!"Iterator", py!"Protocol", py!"Any", py!"Optional", py!"Union", py!"TypeAlias"], x ∈ lexemes block) ∧
    ∀ x ∈ librarySymbols, x ≠ py!"annotations" → x ∈ lexemes block → ∃ d ∈ decls, x ∈ lexemes d := by
  have e : ∃ l, fullText (exEnv {}) py!"Cfg" usedData = some l := by
    rw [← Option.isSome_iff_exists]
    decide +kernel
  obtain ⟨l, hl⟩ := e
  obtain ⟨n, h1, h2⟩ := fullText_some hl
  have hne : (match fullText (exEnv {}) py!"Cfg" usedData with
      | some (b :: _) => [py!"List", py!"Iterator", py!"Protocol", py!"Any", py!"Optional", py!"Union", py!"TypeAlias"].all (fun x => (lexemes b).contains x)
      | _ => false) = true := by decide +kernel
  rw [hl] at hne
  cases l with
  | nil => cases hne
  | cons block decls =>
    refine ⟨n, block, decls, h1, h2, ?_, ?_⟩
    · intro x hx
      have := List.all_eq_true.mp hne x hx
      simpa using this
    · intro x hx ha hw
      refine no_unused_imports_partial ⟨fun _ _ => List.Perm.refl _, fun _ _ => rfl⟩ (by decide) ?_ ?_ ?_ h1 h2 hx hw ha (fun _ => trivial)
      · have hf : FuncOk { ty := ⟨py!"function", 90⟩, isLambda := false, sig := .ok py!"(a: List[int], b: 'Iterator')" 2, source := .ret true } :=
          ⟨by simp, by simp⟩
        exact ⟨⟨tyOk_ascii (by decide), ⟨tyOk_ascii (by decide), hf⟩, tyOk_ascii (by decide), tyOk_ascii (by decide), trivial⟩,
          ⟨trivial, trivial, trivial, trivial, trivial⟩⟩
      · exact ⟨trivial, trivial, trivial, trivial, trivial⟩
      · refine ⟨trivial, ⟨trivial, ?_⟩, trivial, trivial, trivial⟩
        intro _ args n hs
        injection hs with hs _
        subst hs
        refine ⟨rfl, fun c hc => .inl ?_, ?_, by decide +kernel⟩
        · revert c; decide
        · intro l r e
          have h := (contains_iff_infix py!"):" py!"(a: List[int], b: 'Iterator')").mpr ⟨l, r, by rw [List.append_assoc]; exact e.symm⟩
          exact absurd h (by decide)

end Verif.Props
