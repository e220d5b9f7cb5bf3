import Verif.Lemmas.Symbols
import Verif.Lemmas.Clean
import Verif.Lemmas.Camel
import Verif.Spec.Tree
import Verif.Props.Imports
import Verif.Lemmas.Render
/-
C37: every library symbol that a generated declaration uses is imported by the same text.
-/
namespace Verif.Props
open Verif Verif.Spec

section
variable {E : Env}

/-- No key has a class named like a library symbol, and no class object a name with a bracket. -/
def PlainClasses (v : Val) : Prop :=
  ValAll (fun _ => True) (fun k => Foreign k.ty.name) (fun _ => True) v ∧
  Every (fun w => match w with
    | .cls _ n => '[' ∉ n
    | _ => True) v

/-- The part of `ForeignHdr` that does not concern the name. -/
def ForeignHdr₀ (E : Env) (h : Hdr) : Prop :=
  (∀ s ∈ h.slots, Foreign s.key.ty.name) ∧
  match h.kind with
  | .cls n => '[' ∉ n
  | _ => True

theorem symbols_inv : Inv E PlainClasses (fun k v => Foreign k.ty.name ∧ PlainClasses v) (fun _ => True) (ForeignHdr₀ E) (fun _ => True) where
  seqElem h he := ⟨valAllList_iff.mp h.1.2 _ he, everyList_iff.mp h.2.2 _ he⟩
  mapEntry h hkv := ⟨h.1.2.1 _ (List.of_mem_zip hkv).1, valAllList_iff.mp h.1.2.2 _ (List.of_mem_zip hkv).2,
    everyList_iff.mp h.2.2 _ (List.of_mem_zip hkv).2⟩
  entry h := h.2
  dict h := by
    refine ⟨valAll_dict trivial (fun kv hkv => ⟨(h kv hkv).1, (h kv hkv).2.1⟩), trivial, ?_⟩
    rw [everyList_iff]
    intro v hv
    obtain ⟨kv, hkv, rfl⟩ := List.mem_map.mp hv
    exact (h kv hkv).2.2
  nameElem _ _ := trivial
  nameNum _ := trivial
  nameKey _ _ := trivial
  nameLabel _ _ := trivial
  nameTy _ _ := trivial
  rename hh _ := hh
  hdr := by
    intro name v root slots _ hv hsl
    refine ⟨?_, ?_⟩
    · intro s hs
      rcases hsl s hs with h | ⟨w, h, _⟩
      · rw [h]; exact foreign
      · exact h
    · have hpr := every_self hv.2
      cases v with
      | map k t ks vs => cases k <;> trivial
      | cls m n => exact hpr
      | _ => trivial
  merge hh _ _ := ⟨hh.1, trivial⟩
  bad _ _ _ := trivial
  sig _ _ := trivial
  noTrees _ := trivial

mutual
theorem nodeAll_names {p : Str → Prop} : ∀ (n : Node), (∀ x ∈ allNames n, p x) → NodeAll (fun h => p h.name) n
  | .mk h kids, hp => by
    simp only [allNames, List.mem_cons] at hp
    exact ⟨hp _ (.inl rfl), nodeAllList_names kids (fun x hx => hp x (.inr hx))⟩
theorem nodeAllList_names {p : Str → Prop} : ∀ (l : List Node), (∀ x ∈ allNamesList l, p x) → NodeAllList (fun h => p h.name) l
  | [], _ => trivial
  | n :: r, hp => by
    simp only [allNamesList, List.mem_append] at hp
    exact ⟨nodeAll_names n (fun x hx => hp x (.inl hx)), nodeAllList_names r (fun x hx => hp x (.inr hx))⟩
end

/-- C37. The text consists of an import block and printed declarations, and every library symbol that a declaration uses is
bound by the import block. No name of a builtin class, of a class of a key or of a node of the tree may itself be a library
symbol. The annotations in the signatures of functions are the subject of C40. -/
theorem symbols_imported_partial (hE : E.Fair) (hm : 0 < E.S.merge) (hB : ∀ x, E.isBuiltin x = true → Foreign x) {name : Str} {v : Val} {n : Node}
    (hv : Regular E.U v) (hc : PlainClasses v) (hb : fromData E name v = .ok n)
    (hnames : ∀ x ∈ allNames n, Foreign x ∧ Foreign (toCamel E.U x)) :
    ∃ (block : Str) (sts : List ImportStmt) (Γ : List TDecl), nodeStrings E n true = .ok (block :: Γ.map TDecl.print) ∧ BlockText sts block ∧
      ∀ d ∈ Γ, ∀ x ∈ declSymbols d, x ∈ librarySymbols → ∃ m, (m, x) ∈ sts.flatMap ImportStmt.bindings := by
  obtain ⟨_, hbuild, hreg, hroot, _, _⟩ := regular_build hE hm hv hb
  have hf0 : NodeAll (ForeignHdr₀ E) n := by
    have h := build_ens hE symbols_inv (v.depth + 1) true name v trivial hc (Nat.lt_succ_self _)
    rw [hbuild] at h
    exact h.1.1
  have hall : NodeAll (fun h => ForeignHdr E h ∧ CleanHdr E h) n := by
    refine nodeAll_imp (fun h hh => ⟨⟨hh.1, hB _, hh.2.1.1, ?_⟩, hh.2.2.2.2⟩) (nodeAll_and n (nodeAll_names n hnames) (nodeAll_and n hf0 hreg))
    have := hh.2.1.2
    revert this
    cases h.kind <;> intro this
    case cls c => exact ⟨hB c, this⟩
    all_goals trivial
  have hask := out_asks (im := sigImports E.U) hall
  have hf : firstFailure (n.render E).emitted = none := out_fails (nodeAll_imp (fun h hh f hf => by
    have := hh.2.2.2.2.2
    rw [hf] at this
    exact this) hreg)
  have hne : (declTexts (n.render E)).isEmpty = false := declTexts_root_ne_nil hroot
  obtain ⟨block, hblock⟩ : ∃ s, formatImports 90 (allKws (n.render E)) = .ok s := by
    cases hfi : formatImports 90 (allKws (n.render E)) with
    | ok s => exact ⟨s, rfl⟩
    | error e =>
      obtain ⟨kw, hkw, hun⟩ := (imports_rejected_iff 90 _).1 ⟨e, hfi⟩
      exact absurd ((known_iff kw).2 (out_known (fun s => sigImports_known s) n kw hkw)) hun
  obtain ⟨sts, hsts, hperm⟩ := imports_bind_requested 90 (by decide) _ (nodup_dedup _) _ hblock
  refine ⟨block, sts, dedupDecls (n.abs E).emitted, ?_, hsts, ?_⟩
  · unfold nodeStrings
    simp only [hf, hne, Bool.false_eq_true, if_false, if_true, hblock]
    rw [declTexts, show (n.render E).emitted.map (·.text) = _ from hask.corr.emitted, dedupDecls_print]
  · intro d hd x hx hlib
    obtain ⟨o, ho, hr⟩ := hask.emitted.mem_right d (dedupDecls_mem hd)
    rcases hr x hx with ⟨kw, hkw, hbind⟩ | h
    · refine ⟨(bindingOf kw).1, hperm.mem_iff.mpr (List.mem_map.mpr ⟨kw, ?_, Prod.ext rfl hbind⟩)⟩
      exact mem_dedup.mpr (List.mem_flatMap.mpr ⟨o, ho, hkw⟩)
    · exact absurd hlib h

theorem foreign_of_prefix {name x : Str} (hf : ∀ y ∈ librarySymbols, ¬ name <+: y) (hp : name <+: x) (hx : CamelName x) :
    Foreign x := by
  unfold Foreign symbolOf
  split
  · rename_i h
    have := startsWith_iff.mp h
    obtain ⟨r, rfl⟩ := this
    obtain ⟨c, t, e, hu, _⟩ := hx
    injection e with e _
    subst e
    revert hu; decide
  · exact fun h => hf x h hp

mutual
theorem names_nodeAll {p : Str → Prop} : ∀ (n : Node), NodeAll (fun h => p h.name) n → ∀ x ∈ allNames n, p x
  | .mk h kids, hn, x, hx => by
    simp only [allNames, List.mem_cons] at hx
    rcases hx with rfl | hx
    · exact hn.1
    · exact names_nodeAllList kids hn.2 x hx
theorem names_nodeAllList {p : Str → Prop} : ∀ (l : List Node), NodeAllList (fun h => p h.name) l → ∀ x ∈ allNamesList l, p x
  | n :: r, hl, x, hx => by
    simp only [allNamesList, List.mem_append] at hx
    rcases hx with hx | hx
    · exact names_nodeAll n hl.1 x hx
    · exact names_nodeAllList r hl.2 x hx
end

/-- C37 in terms of the class name alone: a name in camel case with which no library symbol begins. -/
theorem symbols_imported_named_partial (hE : E.Fair) (hm : 0 < E.S.merge) (hB : ∀ x, E.isBuiltin x = true → Foreign x)
    (hstr : E.isBuiltin py!"str" = true) {name : Str} {v : Val} {n : Node}
    (hv : Regular E.U v) (hk : ValAll NeatTy (BuiltinKey E) (fun _ => True) v)
    (hc : Every (fun w => match w with
      | .cls _ n => '[' ∉ n
      | _ => True) v)
    (hn : CamelName name) (hf : ∀ y ∈ librarySymbols, ¬ name <+: y) (hb : fromData E name v = .ok n) :
    ∃ (block : Str) (sts : List ImportStmt) (Γ : List TDecl), nodeStrings E n true = .ok (block :: Γ.map TDecl.print) ∧ BlockText sts block ∧
      ∀ d ∈ Γ, ∀ x ∈ declSymbols d, x ∈ librarySymbols → ∃ m, (m, x) ∈ sts.flatMap ImportStmt.bindings := by
  refine symbols_imported_partial hE hm hB hv ⟨valAll_imp (fun _ _ => trivial) (fun k h => hB _ h.2.2) (fun _ _ => trivial) hk, hc⟩ hb ?_
  obtain ⟨_, hbuild, hreg, _⟩ := regular_build hE hm hv hb
  refine names_nodeAll n (nodeAll_imp (fun h hh => ?_) (nodeAll_and n hreg (scope_hdrs hE hstr hn hk hbuild (Nat.lt_succ_self _))))
  have h1 : Foreign h.name := foreign_of_prefix hf hh.1.1.1 hh.2.1
  exact ⟨h1, by rw [toCamel_camelName hh.2.1]; exact h1⟩

end

/-- Data with a list, a tuple and an optional value. -/
def symbolsData : Val := .dict [(.str py!"a", .seq .list .list [.inst .int none, .inst .noneType none]),
    (.str py!"b", .seq .tuple .tuple [.inst .float none])]

/-- The hypotheses hold for it under the name `Cfg`. -/
example : ∃ n, fromData (exEnv {}) py!"Cfg" symbolsData = .ok n ∧
    ∃ (block : Str) (sts : List ImportStmt) (Γ : List TDecl),
      nodeStrings (exEnv {}) n true = .ok (block :: Γ.map TDecl.print) ∧ BlockText sts block ∧
      ∀ d ∈ Γ, ∀ x ∈ declSymbols d, x ∈ librarySymbols → ∃ m, (m, x) ∈ sts.flatMap ImportStmt.bindings := by
  have h : (match fromData (exEnv {}) py!"Cfg" symbolsData with | .ok _ => true | .error _ => false) = true := by decide +kernel
  cases hb : fromData (exEnv {}) py!"Cfg" symbolsData with
  | error e => rw [hb] at h; cases h
  | ok n =>
    refine ⟨n, rfl, symbols_imported_named_partial ⟨fun _ _ => List.Perm.refl _, fun _ _ => rfl⟩ (by decide) ?_ (by decide) (plain_regular (by decide +kernel)) ?_ ?_
      ⟨'C', py!"fg", rfl, by decide, by decide⟩ (by decide +kernel) hb⟩
    · intro x hb
      have hx : x ∈ [py!"int", py!"float", py!"str", py!"bool", py!"bytes", py!"complex", py!"range", py!"slice",
        py!"object", py!"list", py!"dict", py!"set", py!"tuple", py!"frozenset", py!"type"] := by simpa [exEnv] using hb
      clear hb
      revert x
      unfold Foreign
      decide +kernel
    · simp [symbolsData, ValAll, ValAllList, Val.dict, NeatTy, BuiltinKey, NeatKey]
      decide +kernel
    · simp [symbolsData, Every, EveryList, Val.dict]

/-! ### Classes called like a library symbol -/

theorem infix_join {sep : Str} {x : Str} : ∀ {l : List Str}, x ∈ l → x <:+: join sep l
  | [y], h => by rw [List.mem_singleton.mp h]; exact List.infix_rfl
  | y :: z :: r, h => by
    show x <:+: y ++ sep ++ join sep (z :: r)
    rcases List.mem_cons.mp h with rfl | h
    · exact ⟨[], sep ++ join sep (z :: r), by simp⟩
    · exact (infix_join h).trans (List.suffix_append _ _).isInfix

/-- The symbols that a block of imports binds occur in its text. -/
theorem bindings_occur {sts : List ImportStmt} {text : Str} (h : BlockText sts text) : ∀ {m x : Str},
    (m, x) ∈ sts.flatMap ImportStmt.bindings → x <:+: text := by
  have lay : ∀ {st t} {m x : Str}, Layout st t → (m, x) ∈ st.bindings → x <:+: t := by
    intro st t m x hl hx
    cases hl with
    | oneLine m' ns _ =>
      obtain ⟨y, hy, e⟩ := List.mem_map.mp hx
      injection e with _ e
      subst e
      exact (infix_join hy).trans (List.suffix_append _ _).isInfix
    | wrapped m' ns _ =>
      obtain ⟨y, hy, e⟩ := List.mem_map.mp hx
      injection e with _ e
      subst e
      refine (infix_join (sep := py!",\n    ") hy).trans ((List.suffix_append _ _).isInfix.trans (List.prefix_append _ _).isInfix)
    | alias m' a =>
      simp only [ImportStmt.bindings, List.mem_singleton, Prod.mk.injEq] at hx
      rw [hx.2]
      exact (List.suffix_append _ _).isInfix
  induction h with
  | nil => intro m x hx; simp at hx
  | one e hl _ =>
    intro m x hx
    simp only [List.flatMap_cons, List.flatMap_nil, List.append_nil] at hx
    exact (lay hl hx).trans (List.prefix_append _ _).isInfix
  | cons e hl _ _ _ ih =>
    intro m x hx
    rw [List.flatMap_cons, List.mem_append] at hx
    rcases hx with hx | hx
    · refine (lay hl hx).trans ?_
      rw [List.append_assoc, List.append_assoc]
      exact (List.prefix_append _ _).isInfix
    · exact (ih hx).trans (List.suffix_append _ _).isInfix

/-- **C37** is false as stated: a dictionary with keys of a class of the user that is called `Sequence` gives
`Dict[Sequence, int]`, and nothing imports `Sequence`. -/
theorem symbols_imported_fails : ∃ v n block rest Γ, fromData (exEnv {}) py!"X" v = .ok n ∧
    nodeStrings (exEnv {}) n true = .ok (block :: rest) ∧ readText rest = some Γ ∧
    ∃ d ∈ Γ, ∃ x ∈ declSymbols d, x ∈ librarySymbols ∧
      ∀ sts, BlockText sts block → ¬ ∃ m, (m, x) ∈ sts.flatMap ImportStmt.bindings := by
  have h : ((fromData (exEnv {}) py!"X" (.map .dict .dict [.other ⟨py!"Sequence", 1⟩ py!"x"] [.inst .int none])).toOption.bind
      (fun n => (nodeStrings (exEnv {}) n true).toOption)) =
      some [py!"from typing import Dict\nfrom typing_extensions import TypeAlias", py!"X: TypeAlias = Dict[Sequence, int]"] := by
    decide +kernel
  cases hb : fromData (exEnv {}) py!"X" (.map .dict .dict [.other ⟨py!"Sequence", 1⟩ py!"x"] [.inst .int none]) with
  | error e => rw [hb] at h; cases h
  | ok n =>
    rw [hb] at h
    cases hs : nodeStrings (exEnv {}) n true with
    | error e => simp [Except.toOption, hs] at h
    | ok strs =>
      simp only [Except.toOption, hs, Option.bind_some, Option.some.injEq] at h
      subst h
      refine ⟨_, n, _, _, [⟨py!"X", .alias (.mapping py!"Dict" (.name py!"Sequence") (.name py!"int"))⟩], hb, hs, by simp [readText, readAll, readDecl, stripPrefix]; rfl, _,
        List.mem_singleton_self _, py!"Sequence", by decide +kernel, by decide +kernel, ?_⟩
      rintro sts hsts ⟨m, hm⟩
      exact absurd (bindings_occur hsts hm) (by decide +kernel)

end Verif.Props
