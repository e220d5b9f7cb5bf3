import Verif.Props.Coherent
/-
C42 for nested values: every entry of a dictionary belongs to the key and value types in its hint.
-/
namespace Verif.Props
open Verif Verif.Spec

/-- **C42** (partial). In the hint of a dictionary that is not described by a TypedDict, or of a mapping proxy, the type of
the keys admits every key and the type of the values admits every value, however deeply nested, if no name is declared
twice. Missing: `None` keys, where it fails, and data that is not coherent (C21). -/
theorem every_entry_admitted_partial {E : Env} (hE : E.Fair) (hm : 0 < E.S.merge) {name : Str} {k : MapKind} (hlk : Lookup k) {t : Ty}
    {ks : List Key} {vs : List Val} (hc : CamelName name) (ht : Coherent E.S (.map k t ks vs)) (hn : Neat (.map k t ks vs))
    (hf : Fresh name (.map k t ks vs)) (hd : k = .dict → E.S.dict ≠ .typedDict ∨ ∃ x ∈ ks, x.isStr = false)
    {Γ : List TDecl} (hint : Hint E name (.map k t ks vs) Γ) (hnd : (Γ.map (·.name)).Nodup) :
    ∃ con kt vt, Defines Γ name (.alias (.mapping con kt vt)) ∧
      (∀ key ∈ ks, Admits Γ kt (.inst key.ty none)) ∧ ∀ v ∈ vs, Admits Γ vt v := by
  have hr : Regular E.U (.map k t ks vs) := plainAt_regular (coherent_plainAt ht) hn
  obtain ⟨n, strs, hb, hstr, hread⟩ := hint
  obtain ⟨g, h1, h2, h3, h4⟩ := coherent_tree hE hm hc ht hn hf hb
  obtain ⟨r1, r2, r3⟩ := root_texts hE g.trim h1 h2
  rw [h4] at hstr
  cases hstr
  rw [r1] at hread
  cases hread
  have hadm := root_holds hE g.trim h1 h2 h3 hf.1 (g.holds _ (covers_refl _ ht)) hnd
  have hroot := r3 (n.abs E).decl (List.mem_append_right _ (by rw [if_pos (root_decl h2).1]; simp))
  have hname : (n.abs E).decl.name = name := by rw [← h3]; exact abs_name
  have hbody : ∃ con kt vt, (n.abs E).decl.body = .alias (.mapping con kt vt) := by
    obtain ⟨_, _, _, _, _, hk⟩ := regular_build hE hm hr hb
    cases n with
    | mk hdr kids =>
      have hk : hdr.kind = kindOf E.S (.map k t ks vs) := hk
      show ∃ con kt vt, aBody E hdr (absList E kids) = _
      unfold aBody
      rw [hk]
      have hc : CoherentAt E.S (.map k t ks vs) := by
        unfold Coherent Every at ht
        exact ht.1
      obtain ⟨_, _, _, hlen, _, _, hi, _⟩ := hc
      cases k with
      | proxy => exact ⟨_, _, _, rfl⟩
      | frame i => exact absurd hlk (by simp [Lookup])
      | dict =>
        have : (DMeta.ofData (dictData E.S (ks.zip vs))).isTyped E.S = false := by
          unfold DMeta.isTyped DMeta.ofData dictData
          by_cases hs : E.S.dict = .typedDict
          · rcases hd rfl with h | ⟨x, hx, hxs⟩
            · exact absurd hs h
            · obtain ⟨i, hi, rfl⟩ := List.mem_iff_getElem.mp hx
              have hz : (ks[i], vs[i]'(by omega)) ∈ ks.zip vs := by
                rw [List.mem_iff_getElem]
                exact ⟨i, by rw [List.length_zip]; omega, by simp⟩
              have : allStr (ks.zip vs) = false := by
                unfold allStr
                rw [List.all_eq_false]
                exact ⟨_, hz, by simp [hxs]⟩
              simp [hs, this]
          · simp [hs]
        simp only [kindOf]
        rw [if_neg (by simp [this])]
        exact ⟨_, _, _, rfl⟩
  obtain ⟨con, kt, vt, hbody⟩ := hbody
  have hdef : Defines (dedupDecls (n.abs E).emitted) name (.alias (.mapping con kt vt)) := by
    have := defines_of_nodup hnd hroot
    rw [hname, hbody] at this
    exact this
  refine ⟨con, kt, vt, hdef, ?_⟩
  have hdecl : Declared (dedupDecls (n.abs E).emitted) name := ⟨_, hroot, hname⟩
  have key : Admits (dedupDecls (n.abs E).emitted) (.mapping con kt vt) (.map k t ks vs) := by
    cases hadm with
    | any _ hno => exact absurd hdecl hno
    | cls _ hno => exact absurd hdecl hno
    | promote _ hno _ => exact absurd hdecl hno
    | alias hd' ha =>
      have := hdef.2 _ hd'.1 rfl
      cases this
      exact ha
    | record hd' _ _ _ => exact absurd (hdef.2 _ hd'.1 rfl) (by simp)
    | anyFrame hno => exact absurd hdecl hno
    | frame hd' _ _ _ _ => exact absurd (hdef.2 _ hd'.1 rfl) (by simp)
  cases key with
  | mapping _ _ a b => exact ⟨a, b⟩

/-- **C42** (partial). The same for well-behaved data, about which nothing remains to be assumed. -/
theorem every_entry_admitted_clear_partial {E : Env} (hE : E.Fair) (hm : 0 < E.S.merge) {name : Str} {k : MapKind} (hlk : Lookup k) {t : Ty}
    {ks : List Key} {vs : List Val} (h : WellBehaved E.S name (.map k t ks vs)) (hd : k = .dict → E.S.dict ≠ .typedDict) :
    ∃ Γ con kt vt, Hint E name (.map k t ks vs) Γ ∧ Defines Γ name (.alias (.mapping con kt vt)) ∧
      (∀ key ∈ ks, Admits Γ kt (.inst key.ty none)) ∧ ∀ v ∈ vs, Admits Γ vt v := by
  obtain ⟨Γ, hint, hnd, _⟩ := hint_sound_clear_partial hE hm h
  obtain ⟨con, kt, vt, r⟩ := every_entry_admitted_partial hE hm hlk h.camel h.coherent h.neat h.fresh (fun e => .inl (hd e)) hint hnd
  exact ⟨Γ, con, kt, vt, hint, r⟩

/-- `{True: [1, 2], "limits": {"a": (1, "x")}}` with its entries of different kinds. -/
def sampleMixedEntries : Val := .map .dict .dict [.other .bool py!"True", .str py!"limits"]
  [.seq .list .list [.inst .int none, .inst .int none],
   dictOf [(py!"a", .seq .tuple .tuple [.inst .int none, .inst .str (some py!"x")])]]

/-- The names that a hint declares, computed. -/
def declaredNames (E : Env) (name : Str) (v : Val) : Option (List Str) :=
  match fromData E name v with
  | .ok n => match nodeStrings E n false with
    | .ok strs => (readText strs).map (fun Γ => Γ.map (·.name))
    | .error _ => none
  | .error _ => none

theorem declaredNames_spec {E : Env} {name : Str} {v : Val} {ns : List Str} (h : declaredNames E name v = some ns) :
    ∃ Γ, Hint E name v Γ ∧ Γ.map (·.name) = ns := by
  unfold declaredNames at h
  split at h
  · split at h
    · obtain ⟨Γ, hr, rfl⟩ := Option.map_eq_some_iff.mp h
      exact ⟨Γ, ⟨_, _, by assumption, by assumption, hr⟩, rfl⟩
    · cases h
  · cases h

/-- The hypotheses of `every_entry_admitted_partial` are met by a dictionary with a key that is not a string. -/
example : CamelName py!"Config" ∧ Coherent {} sampleMixedEntries ∧ Neat sampleMixedEntries ∧ Fresh py!"Config" sampleMixedEntries ∧
    ∃ Γ, Hint (exEnv {}) py!"Config" sampleMixedEntries Γ ∧ (Γ.map (·.name)).Nodup := by
  obtain ⟨Γ, h, hn⟩ := declaredNames_spec (E := exEnv {}) (name := py!"Config") (v := sampleMixedEntries)
    (ns := [py!"ConfigLimits", py!"Config"]) (by decide +kernel)
  exact ⟨⟨'C', py!"onfig", rfl, by decide, by decide⟩, coherentB_sound (f := 10) (by decide +kernel),
    valAllB_sound (fun _ h => of_decide_eq_true h) (fun _ h => of_decide_eq_true h) (by decide +kernel :
      valAllB (fun t => decide (NeatTy t)) (fun k => decide (NeatKey k)) sampleMixedEntries = true),
    ⟨by decide +kernel, valAllB_sound (fun _ h => of_decide_eq_true h) (fun _ h => of_decide_eq_true h) (by decide +kernel :
      valAllB (fun t => decide (¬ py!"Config" <+: t.name)) (fun k => decide (¬ py!"Config" <+: k.ty.name)) sampleMixedEntries = true),
      freshB_sound (by decide +kernel)⟩, Γ, h, by rw [hn]; decide +kernel⟩

/-- Those of `every_entry_admitted_clear_partial` are met by a nested dictionary that is described by a `Mapping`. -/
example : WellBehaved { dict := .mapping } py!"Config" (dictOf [(py!"a", dictOf [(py!"b", .inst .int none)]), (py!"c", .inst .str none)]) :=
  wellBehavedB_sound (f := 10) (by decide +kernel)

end Verif.Props
