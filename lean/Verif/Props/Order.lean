import Verif.Lemmas.ClearCheck
import Verif.Props.Sound
/-
C18, C19 and C20: which names the generated text declares, and in which order.
-/
namespace Verif.Props
open Verif Verif.Spec

/-! ### The requested name is declared last -/

/-- What **C19** says of the declarations in a text: the last one declares `name`, and no other does. -/
def DeclaredLast (name : Str) (strs : List Str) : Prop :=
  ∃ init last, strs = init ++ [last] ∧ declName last = name ∧ ∀ s ∈ init, declName s ≠ name

/-- **C19** (partial). The last declaration declares the requested name, and only that one does. Missing: data with keys
that contribute nothing to names, such as the empty string, where it fails, and the
keyword `class` as requested name. -/
theorem requested_name_last_partial {E : Env} (hE : E.Fair) (hm : 0 < E.S.merge) {name : Str} {v : Val} (hv : Regular E.U v)
    (hn : Named v) (hcl : name ≠ py!"class") {n : Node} (hb : fromData E name v = .ok n) :
    ∃ strs, nodeStrings E n false = .ok strs ∧ DeclaredLast name strs := by
  obtain ⟨h1, h2, h3, h4, h5, _⟩ := regular_build hE hm hv hb
  refine ⟨_, regular_strings hE hm hv hb, ?_⟩
  obtain ⟨l, hl, hk⟩ := root_emitted (E := E) h4
  have hw : ∀ {d : TDecl}, d ∈ (n.abs E).decls → ∀ x ∈ d.name, identChar x = true := by
    intro d hd
    obtain ⟨h, hh, e⟩ := decls_names n h3 d hd
    rw [e]
    exact word_ident hh.1.2
  have hlast : declName (n.abs E).decl.print = name := by
    have hnm : (n.abs E).decl.name = name := by rw [← h5]; exact abs_name
    rw [← hnm]
    refine declName_print (hw (List.mem_append_left _ (by rw [hl]; simp))) (by rw [hnm]; exact hcl)
  have hne : ∀ d ∈ l, declName d.print ≠ name := by
    intro d hd
    obtain ⟨k, hkm, hdk⟩ := hk d hd
    obtain ⟨h, hh, e⟩ := decls_names k (longer_kids hE hn (by omega) h2 k hkm) d hdk
    have hlen := hh.1.2
    rw [← e] at hlen
    by_cases hc : d.name = py!"class"
    · rcases declName_class_print hc with h | h <;> rw [h]
      · exact Ne.symm hcl
      · intro e
        rw [← e] at h1
        revert h1
        simp [nameOk]
    · rw [declName_print (hw (List.mem_append_left _ (by rw [hl]; exact List.mem_append_left _ hd))) hc]
      intro e
      rw [e] at hlen
      omega
  refine ⟨(dedupDecls l).map TDecl.print, (n.abs E).decl.print, ?_, hlast, ?_⟩
  · rw [hl, dedupDecls_snoc, List.map_append]
    · rfl
    · intro e he hp
      exact hne e he (by rw [hp]; exact hlast)
  · intro s hs
    obtain ⟨d, hd, rfl⟩ := List.mem_map.mp hs
    exact hne d (dedupDecls_mem hd)

/-- `{"": {"": {"": 1}, "b": {"c": 1}}, "b": {"d": 1}}` -/
def emptyKeys : Val :=
  let one : Val := .inst .int none
  let d : List (Str × Val) → Val := fun l => dictOf l
  d [(py!"", d [(py!"", d [(py!"", one)]), (py!"b", d [(py!"c", one)])]), (py!"b", d [(py!"d", one)])]

theorem emptyKeys_text : declsOf (exEnv {}) py!"X" emptyKeys =
    [recordText py!"X" true none [⟨py!"", py!"int", none⟩],
     recordText py!"XB" false none [⟨py!"c", py!"int", none⟩],
     recordText py!"X" true none [⟨py!"", py!"X", none⟩, ⟨py!"b", py!"XB", none⟩],
     recordText py!"XB" false none [⟨py!"d", py!"int", none⟩]] := by decide +kernel

/-- **C19** is false as stated: the declaration of the class coincides with an earlier one and is dropped, and the last
declaration is that of `XB`. -/
theorem requested_name_last_fails : ¬ ∀ (name : Str) (v : Val) n strs, fromData (exEnv {}) name v = .ok n →
    nodeStrings (exEnv {}) n false = .ok strs → DeclaredLast name strs := by
  intro h
  have ht : (match fromData (exEnv {}) py!"X" emptyKeys with
      | .ok n => (match nodeStrings (exEnv {}) n false with
        | .ok strs => decide (strs.getLast?.map declName = some py!"XB")
        | .error _ => false)
      | .error _ => false) = true := by decide +kernel
  split at ht
  · rename_i n hn
    split at ht
    · rename_i strs hs
      obtain ⟨init, last, rfl, hl, _⟩ := h _ _ n strs hn hs
      have := of_decide_eq_true ht
      simp only [List.getLast?_append, List.getLast?_singleton, Option.some_or, Option.map_some, hl, Option.some.injEq] at this
      exact absurd this (by decide)
    · cases ht
  · cases ht

/-- A value that meets the hypotheses, with keys of several classes. -/
def sampleNamed : Val :=
  .map .dict .dict [.str py!"name", .str py!"tags"] [.inst .str none,
    .seq .list .list [.map .dict .dict [.other .int py!"1"] [.seq .set .set [.inst .int none]]]]

theorem sampleNamed_ok : Named sampleNamed ∧ Regular (exEnv {}).U sampleNamed := by
  refine ⟨?_, plain_regular (by decide +kernel)⟩
  simp only [Named, sampleNamed, ValAll, ValAllList]
  simp only [List.mem_cons, List.not_mem_nil, or_false, forall_eq_or_imp, forall_eq, and_true]
  unfold HasLetter
  decide

example : ∃ n strs, fromData (exEnv {}) py!"X" sampleNamed = .ok n ∧ nodeStrings (exEnv {}) n false = .ok strs ∧ 3 ≤ strs.length ∧
    DeclaredLast py!"X" strs := by
  have ht : (match fromData (exEnv {}) py!"X" sampleNamed with
      | .ok n => (match nodeStrings (exEnv {}) n false with
        | .ok strs => decide (3 ≤ strs.length)
        | .error _ => false)
      | .error _ => false) = true := by decide +kernel
  split at ht
  · rename_i n hn
    obtain ⟨strs, h1, h2⟩ := requested_name_last_partial (exEnv_fair {}) (by decide) sampleNamed_ok.2 sampleNamed_ok.1 (by decide) hn
    rw [h1] at ht
    exact ⟨n, strs, hn, h1, of_decide_eq_true ht, h2⟩
  · cases ht

/-! ### One definition per name -/

/-- What **C20** says of the declarations in a text: no name is declared twice with different definitions. -/
def OneDefinition (strs : List Str) : Prop := ∀ s ∈ strs, ∀ t ∈ strs, declName s = declName t → s = t

/-- **C20** is false as stated: `{"a b": {"x": 1}, "aB": {"y": 1}}` declares `XAB` twice. -/
theorem one_definition_fails : ¬ ∀ (name : Str) (v : Val) n strs, fromData (exEnv {}) name v = .ok n →
    nodeStrings (exEnv {}) n false = .ok strs → OneDefinition strs := by
  intro h
  have ht : (match fromData (exEnv {}) py!"X" (dictOf [(py!"a b", dictOf [(py!"x", .inst .int none)]), (py!"aB", dictOf [(py!"y", .inst .int none)])]) with
      | .ok n => (match nodeStrings (exEnv {}) n false with
        | .ok strs => decide (recordText py!"XAB" false none [⟨py!"x", py!"int", none⟩] ∈ strs ∧
            recordText py!"XAB" false none [⟨py!"y", py!"int", none⟩] ∈ strs)
        | .error _ => false)
      | .error _ => false) = true := by decide +kernel
  split at ht
  · rename_i n hn
    split at ht
    · rename_i strs hs
      obtain ⟨h1, h2⟩ := of_decide_eq_true ht
      exact absurd (h _ _ n strs hn hs _ h1 _ h2 (by decide +kernel)) (by decide)
    · cases ht
  · cases ht

/-- `{"configuration": c, "other": c}` with `c = {"a": [[1]], "b": [[1]]}` -/
def sharedTwice : Val :=
  let l : List Val → Val := fun es => .seq .list .list es
  let c := dictOf [(py!"a", l [l [.inst .int none]]), (py!"b", l [l [.inst .int none]])]
  dictOf [(py!"configuration", c), (py!"other", c)]

/-- **C20** also fails without any clash between keys: equal values inside equal values are renamed once for every place they
occur at, by cutting off as many letters as the old name had, and an alias ends up with the name of the class around it. -/
theorem one_definition_fails_shared : ¬ ∀ (name : Str) n strs, fromData (exEnv {}) name sharedTwice = .ok n →
    nodeStrings (exEnv {}) n false = .ok strs → OneDefinition strs := by
  intro h
  have ht : (match fromData (exEnv {}) py!"X" sharedTwice with
      | .ok n => (match nodeStrings (exEnv {}) n false with
        | .ok strs => decide (∃ s ∈ strs, ∃ t ∈ strs, s ≠ t ∧ declName s = py!"XDict" ∧ declName t = py!"XDict")
        | .error _ => false)
      | .error _ => false) = true := by decide +kernel
  split at ht
  · rename_i n hn
    split at ht
    · rename_i strs hs
      obtain ⟨s, h1, t, h2, h3, h4, h5⟩ := of_decide_eq_true ht
      exact h3 (h _ n strs hn hs _ h1 _ h2 (h4.trans h5.symm))
    · cases ht
  · cases ht

/-- **C20** (partial). In data whose names are clear, of any size and depth, every name is declared once: the keys of every
mapping must contribute differently to names, and nothing that is equal may contain equal values at two keys. Frames are included. Missing:
keys that do not begin with an ASCII letter, classes whose names do not consist of ASCII letters and digits, and tuples of
fixed size with several dictionaries or elements that may be alike. Without these conditions it fails, see above. -/
theorem one_definition_partial {E : Env} (hE : E.Fair) (hm : 0 < E.S.merge) {name : Str} {v : Val} (hv : Regular E.U v)
    (hs : ClearNames E.S v) (hl : ValAll LetterFirst (fun _ => True) (fun _ => True) v) (hc : CamelName name)
    {n : Node} (hb : fromData E name v = .ok n) :
    ∃ strs, nodeStrings E n false = .ok strs ∧ OneDefinition strs ∧ (strs.map declName).Nodup := by
  obtain ⟨h1, h2, h3, h4, h5, _⟩ := regular_build hE hm hv hb
  have hu := nameTree_unique (E := E) n (clear_build hE hm _ hs hl (by omega) h2).1
  have hw : ∀ {d : TDecl}, d ∈ (n.abs E).emitted → declName d.print = d.name := by
    intro d hd
    obtain ⟨h, hh, e⟩ := decls_names n h3 d (List.mem_append_left _ hd)
    refine declName_print ?_ ?_
    · rw [e]; exact word_ident hh.1.2
    · obtain ⟨s, _, e'⟩ := hu.tail d (List.mem_append_left _ hd)
      rw [e', abs_name, h5]
      obtain ⟨c, r, rfl, hu', _⟩ := hc
      intro e''
      injection e'' with e'' _
      subst e''
      revert hu'; decide
  have one : ∀ d ∈ (n.abs E).emitted, ∀ e ∈ (n.abs E).emitted, declName d.print = declName e.print → d.print = e.print := by
    intro d hd e he h
    rw [hw hd, hw he] at h
    rw [hu.one d (List.mem_append_left _ hd) e (List.mem_append_left _ he) h]
  refine ⟨_, regular_strings hE hm hv hb, ?_, ?_⟩
  · intro s hs t ht h
    obtain ⟨d, hd, rfl⟩ := List.mem_map.mp hs
    obtain ⟨e, he, rfl⟩ := List.mem_map.mp ht
    exact one d (dedupDecls_mem hd) e (dedupDecls_mem he) h
  · rw [dedupDecls_print]
    refine nodup_map_of_inj ?_ (nodup_dedup _)
    intro s hs t ht h
    obtain ⟨d, hd, rfl⟩ := List.mem_map.mp (mem_dedup.mp hs)
    obtain ⟨e, he, rfl⟩ := List.mem_map.mp (mem_dedup.mp ht)
    exact one d hd e he h

/-- Sequences, sets, iterators and series, nested in any way, have clear names. -/
theorem clearNames_sequences {S : Strategies} : ∀ (v : Val), OnlySequences S v → ClearNames S v
  | .inst .., _ => by simp [ClearNames, Every, WellKeyed, KeysApart, Unlike, family]
  | .cls .., _ => by simp [ClearNames, Every, WellKeyed, KeysApart, Unlike, family]
  | .func _, _ => by simp [ClearNames, Every, WellKeyed, KeysApart, Unlike, family]
  | .module _, _ => by simp [ClearNames, Every, WellKeyed, KeysApart, Unlike, family]
  | .io _, _ => by simp [ClearNames, Every, WellKeyed, KeysApart, Unlike, family]
  | .ndarray .., _ => by simp [ClearNames, Every, WellKeyed, KeysApart, Unlike, family]
  | .map .., h => absurd h.1 (by simp)
  | .seq k t es, h => by
    have hf : family (.seq k t es) = [] := by
      simp only [family, List.flatMap_eq_nil_iff]
      intro e he
      have := every_self (everyList_iff.mp h.2 e he)
      cases e <;> first | rfl | exact absurd this (by simp)
    refine ⟨⟨?_, by simp [KeysApart, hf], .inl (by simp [Unlike, hf])⟩, clearNames_list es h.2⟩
    have h1 := h.1
    cases k <;> simp_all [WellKeyed]
where
  clearNames_list {S : Strategies} : ∀ (es : List Val), EveryList (fun w => match w with
      | .map .. => False
      | .seq .tuple _ _ => S.tuple = .anySize
      | _ => True) es → EveryList (fun w => WellKeyed S w ∧ KeysApart (family w) ∧
        (Unlike S (family w) ∨ ClassesApart (family w) ∧ ∀ x ∈ family w, Every (fun u => Unlike S (family u)) x.2)) es
    | [], _ => trivial
    | e :: r, h => ⟨clearNames_sequences e h.1, clearNames_list r h.2⟩

/-- `[[[1], ["a"]], {frozenset({1})}]` -/
def sampleNested : Val :=
  let l : List Val → Val := fun es => .seq .list .list es
  l [l [l [.inst .int none], l [.inst .str none]], .seq .set .set [.seq .frozenset .frozenset [.inst .int none]]]

example : OnlySequences (exEnv {}).S sampleNested ∧ ValAll LetterFirst (fun _ => True) (fun _ => True) sampleNested ∧
    CamelName py!"Config" ∧ Regular (exEnv {}).U sampleNested ∧ (match fromData (exEnv {}) py!"Config" sampleNested with
      | .ok n => (match nodeStrings (exEnv {}) n false with
        | .ok strs => strs.map declName == [py!"ConfigList", py!"ConfigSet", py!"Config"]
        | .error _ => false)
      | .error _ => false) = true := by
  have hl : ∀ t ∈ [Ty.list, Ty.set, Ty.frozenset, Ty.int, Ty.str], LetterFirst t := by
    intro t ht
    simp only [List.mem_cons, List.not_mem_nil, or_false] at ht
    rcases ht with rfl | rfl | rfl | rfl | rfl <;> exact ⟨_, _, rfl, by decide, by decide⟩
  refine ⟨?_, ?_, ⟨'C', py!"onfig", rfl, by decide, by decide⟩, plain_regular (by decide +kernel), by decide +kernel⟩
  · simp [OnlySequences, sampleNested, Every, EveryList]
  · simp only [sampleNested, ValAll, ValAllList, hl _ (by simp : Ty.list ∈ _), hl _ (by simp : Ty.set ∈ _), hl _ (by simp : Ty.frozenset ∈ _), hl _ (by simp : Ty.int ∈ _),
      hl _ (by simp : Ty.str ∈ _), and_true]

/-- `{"server": {"hosts": ["a"], "ports": [1]}, "admins": {"hosts": ["b"], "ports": [2]},
"users": [{"name": "x", "roles": {"r"}}, {"name": "y", "limits": (1, [2])}]}`: nested
dictionaries, two of them alike, a list of different dictionaries and a tuple. -/
def sampleClear : Val :=
  let i : Val := .inst .int none
  let s : Val := .inst .str none
  let l : List Val → Val := fun es => .seq .list .list es
  dictOf [(py!"server", dictOf [(py!"hosts", l [s]), (py!"ports", l [i])]),
    (py!"admins", dictOf [(py!"hosts", l [s]), (py!"ports", l [i])]),
    (py!"users", l [dictOf [(py!"name", s), (py!"roles", .seq .set .set [s])],
      dictOf [(py!"name", s), (py!"limits", .seq .tuple .tuple [i, l [i]])]])]

/-- `{"rows": [[1]], "cols": [[2]], "name": "x"}`: two equal values at different keys. -/
def sampleEqual : Val :=
  let ll : Val := .seq .list .list [.seq .list .list [.inst .int none]]
  dictOf [(py!"rows", ll), (py!"cols", ll), (py!"name", .inst .str none)]

theorem sample_letters : ∀ v ∈ [sampleClear, sampleEqual], ValAll LetterFirst (fun _ => True) (fun _ => True) v := by
  have hl : ∀ t ∈ [Ty.list, Ty.set, Ty.dict, Ty.int, Ty.str, Ty.tuple], LetterFirst t := by
    intro t ht
    simp only [List.mem_cons, List.not_mem_nil, or_false] at ht
    rcases ht with rfl | rfl | rfl | rfl | rfl | rfl <;> exact ⟨_, _, rfl, by decide, by decide⟩
  intro v hv
  simp only [List.mem_cons, List.not_mem_nil, or_false] at hv
  rcases hv with rfl | rfl
  all_goals
    simp [sampleClear, sampleEqual, dictOf, ValAll, ValAllList, hl _ (by simp : Ty.list ∈ _), hl _ (by simp : Ty.set ∈ _), hl _ (by simp : Ty.dict ∈ _),
      hl _ (by simp : Ty.int ∈ _), hl _ (by simp : Ty.str ∈ _), hl _ (by simp : Ty.tuple ∈ _)]

example : ClearNames (exEnv {}).S sampleClear ∧ CamelName py!"Config" ∧ Regular (exEnv {}).U sampleClear ∧
    (match fromData (exEnv {}) py!"Config" sampleClear with
      | .ok n => (match nodeStrings (exEnv {}) n false with
        | .ok strs => strs.map declName == [py!"ConfigDict", py!"ConfigUsersDict", py!"ConfigUsersDict2Limits",
            py!"ConfigUsersDict2", py!"ConfigUsers", py!"Config"]
        | .error _ => false)
      | .error _ => false) = true :=
  ⟨clearB_spec (by decide +kernel), ⟨'C', py!"onfig", rfl, by decide, by decide⟩, plain_regular (by decide +kernel), by decide +kernel⟩

example : ClearNames (exEnv {}).S sampleEqual ∧ Regular (exEnv {}).U sampleEqual ∧
    (match fromData (exEnv {}) py!"Config" sampleEqual with
      | .ok n => (match nodeStrings (exEnv {}) n false with
        | .ok strs => strs.map declName == [py!"ConfigList", py!"Config"]
        | .error _ => false)
      | .error _ => false) = true :=
  ⟨clearB_spec (by decide +kernel), plain_regular (by decide +kernel), by decide +kernel⟩

/-- The check that implies clear names refuses the counterexamples. -/
example : clearB (exEnv {}).S sharedTwice = false := by decide +kernel

/-! ### Names are declared before they are used -/

/-- What **C18** says of a text: it is the printed form of declarations, each of which uses only names that are in scope
through imports, builtin, or declared before it. -/
def InOrder (E : Env) (strs : List Str) : Prop :=
  ∃ Γ : List TDecl, strs = Γ.map TDecl.print ∧
    DeclaredBeforeUse (fun x => x ∈ libraryNames ∨ E.isBuiltin x = true) Γ

/-- The text generated for `v`, read back, is not in order. -/
def outOfOrder (name : Str) (v : Val) : Bool :=
  match fromData (exEnv {}) name v with
  | .ok n => match nodeStrings (exEnv {}) n false with
    | .ok strs => match readText strs with
      | some Γ => !orderedCheck (fun x => libraryNames.contains x || (exEnv {}).isBuiltin x) [] Γ
      | none => false
    | .error _ => false
  | .error _ => false

theorem outOfOrder_spec {name : Str} {v : Val} (h : outOfOrder name v = true) :
    ∃ Γ, Hint (exEnv {}) name v Γ ∧ ¬ DeclaredBeforeUse (fun x => x ∈ libraryNames ∨ (exEnv {}).isBuiltin x = true) Γ := by
  unfold outOfOrder at h
  split at h
  · rename_i n hn
    split at h
    · rename_i strs hs
      split at h
      · rename_i Γ hΓ
        refine ⟨Γ, ⟨n, strs, hn, hs, hΓ⟩, ?_⟩
        intro hd
        rw [orderedCheck_of (scope := fun x => libraryNames.contains x || (exEnv {}).isBuiltin x)] at h
        · cases h
        · intro pre d post e t ht x hx
          rcases hd pre d post e t ht x hx with h' | h'
          · refine .inl (.inl ?_)
            rw [Bool.or_eq_true, List.contains_iff_mem]
            exact h'
          · exact .inr h'
      · cases h
    · cases h
  · cases h

/-- **C18** is false as stated. For `{"a": {"b": 1}}` and the class name `my_class` the text refers to `MyClassA`, which is
not declared; for a key of a class that is not builtin, as in `[{date(2020, 1, 1): 1}]`, and for `None` keys, as in
`{None: 1}`, the text refers to the class of the key, which is neither declared nor imported. -/
theorem declared_before_use_fails :
    (¬ ∀ name Γ, Hint (exEnv {}) name (dictOf [(py!"a", dictOf [(py!"b", .inst .int none)])]) Γ →
      DeclaredBeforeUse (fun x => x ∈ libraryNames ∨ (exEnv {}).isBuiltin x = true) Γ) ∧
    (¬ ∀ v Γ, Neat v → Hint (exEnv {}) py!"Config" v Γ →
      DeclaredBeforeUse (fun x => x ∈ libraryNames ∨ (exEnv {}).isBuiltin x = true) Γ) ∧
    (¬ ∀ k Γ, Hint (exEnv {}) py!"Config" (.map .dict .dict [k] [.inst .int none]) Γ →
      DeclaredBeforeUse (fun x => x ∈ libraryNames ∨ (exEnv {}).isBuiltin x = true) Γ) := by
  refine ⟨?_, ?_, ?_⟩
  · intro h
    obtain ⟨Γ, h1, h2⟩ := outOfOrder_spec (name := py!"my_class") (v := dictOf [(py!"a", dictOf [(py!"b", .inst .int none)])]) (by decide +kernel)
    exact h2 (h _ _ h1)
  · intro h
    obtain ⟨Γ, h1, h2⟩ := outOfOrder_spec (name := py!"Config")
      (v := .seq .list .list [.map .dict .dict [.other ⟨py!"date", 7⟩ py!"datetime.date(2020, 1, 1)"] [.inst .int none]]) (by decide +kernel)
    refine h2 (h _ _ ?_ h1)
    refine ⟨by decide, ⟨⟨by decide, ?_, (by decide : NeatTy Ty.int), trivial⟩, trivial⟩⟩
    intro k hk
    simp only [List.mem_singleton] at hk
    subst hk
    exact ⟨⟨by decide, by decide⟩, by decide⟩
  · intro h
    obtain ⟨Γ, h1, h2⟩ := outOfOrder_spec (name := py!"Config") (v := .map .dict .dict [.none] [.inst .int none]) (by decide +kernel)
    exact h2 (h _ _ h1)

/-- **C18** (partial). Every name is declared before it is used. Missing: class names that are not in camel case, keys
whose class is not builtin and `None` keys, where it fails. -/
theorem declared_before_use_partial {E : Env} (hE : E.Fair) (hm : 0 < E.S.merge) (hstr : E.isBuiltin py!"str" = true)
    {name : Str} {v : Val} (hc : CamelName name) (hv : Regular E.U v) (hn : Neat v)
    (hk : ValAll (fun _ => True) (fun k => k ≠ .none ∧ E.isBuiltin k.ty.name = true) (fun _ => True) v)
    {n : Node} (hb : fromData E name v = .ok n) : ∃ strs, nodeStrings E n false = .ok strs ∧ InOrder E strs := by
  obtain ⟨h1, h2, h3, h4, h5, _⟩ := regular_build hE hm hv hb
  have hsc := scope_hdrs hE hstr hc (valAll_imp (fun _ h => h.1) (fun _ h => h) (fun _ h => h) (valAll_and v hn hk)) h2 (by omega)
  have hs : Scoped E (n.abs E) := scoped_abs n (nodeAll_and n hsc (nodeAll_imp (fun _ h => h.2.2) h3))
  refine ⟨_, regular_strings hE hm hv hb, _, rfl, (ordered_dedup ?_ hs.emitted).spec⟩
  intro d hd
  obtain ⟨h, hh, e⟩ := decls_names n hsc d (List.mem_append_left _ hd)
  rw [e]
  exact hh.1

/-- `sampleNamed` meets the hypotheses. -/
example : CamelName py!"Config" ∧ Regular (exEnv {}).U sampleNamed ∧ Neat sampleNamed ∧
    ValAll (fun _ => True) (fun k => k ≠ .none ∧ (exEnv {}).isBuiltin k.ty.name = true) (fun _ => True) sampleNamed ∧
    (exEnv {}).isBuiltin py!"str" = true ∧ (match fromData (exEnv {}) py!"Config" sampleNamed with
      | .ok n => (match nodeStrings (exEnv {}) n false with
        | .ok strs => strs.length == 3
        | .error _ => false)
      | .error _ => false) = true := by
  refine ⟨⟨'C', py!"onfig", rfl, by decide, by decide⟩, sampleNamed_ok.2, ?_, ?_, by decide, by decide +kernel⟩
  · simp only [Neat, sampleNamed, ValAll, ValAllList]
    simp only [List.mem_cons, List.not_mem_nil, or_false, forall_eq_or_imp, forall_eq, and_true]
    unfold NeatTy NeatKey NeatTy
    decide
  · simp only [sampleNamed, ValAll, ValAllList]
    simp only [List.mem_cons, List.not_mem_nil, or_false, forall_eq_or_imp, forall_eq, and_true]
    decide

end Verif.Props
