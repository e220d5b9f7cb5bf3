import Verif.Lemmas.ClassName
import Verif.Props.Precise
import Verif.Props.Distinct
/-
C92: the class name decides on names only.
-/
namespace Verif.Props
open Verif Verif.Spec

/-- The failure under the class name `q` that corresponds to a failure under the class name `p`: the name that is not valid, if the
failure mentions one, begins with the class name. -/
def underName (p q : Str) : GenErr ⊕ StrErr → GenErr ⊕ StrErr
  | .inl (.build (.badName n)) => .inl (.build (.badName (q ++ n.drop p.length)))
  | e => e

/-- **C92**: under any two valid class names the construction fails alike, or gives trees that differ in the beginning of the names
only. -/
theorem same_trees {E : Env} (hE : E.Fair) (hO : OrderByHash E) {p q : Str} (hp : nameOk E.U p = true) (hq : nameOk E.U q = true) (v : Val) :
    (∃ e, fromData E p v = .error (.build (errPre p e)) ∧ fromData E q v = .error (.build (errPre q e))) ∨
      ∃ n, n.name = [] ∧ n.hdr.root = true ∧ fromData E p v = .ok (prefixed p n) ∧ fromData E q v = .ok (prefixed q n) := by
  have hok : ∀ s, nameOk E.U (q ++ s) = nameOk E.U (p ++ s) := fun s => by
    rw [Bool.eq_iff_iff, nameOk_pre_iff hp, nameOk_pre_iff hq]
  have h1 := build_pre (p := p) (orderByHash_names hO) (fun _ => rfl) (v.depth + 1) true [] v
  have h2 := build_pre (p := q) (orderByHash_names hO) hok (v.depth + 1) true [] v
  rw [List.append_nil] at h1 h2
  unfold fromData buildTree
  simp only [hp, hq, if_true, h1, h2]
  cases hb : buildAs (fun s => nameOk E.U (p ++ s)) E (v.depth + 1) true [] v with
  | error e => exact .inl ⟨e, rfl, rfl⟩
  | ok n =>
    rw [hb] at h1
    obtain ⟨e1, _, _, e2⟩ := build_facts hE h1 (by omega)
    rw [pre_name] at e1
    exact .inr ⟨n, by simpa using e1, by cases n; exact e2, rfl, rfl⟩

/-- **C92**: what fails under one valid class name fails under every other one, in the same way. -/
theorem same_failures {E : Env} (hE : E.Fair) (hO : OrderByHash E) {p q : Str} (hp : nameOk E.U p = true) (hq : nameOk E.U q = true) (v : Val)
    (imports : Bool) {e : GenErr ⊕ StrErr} (h : generate E p v imports = .error e) : generate E q v imports = .error (underName p q e) := by
  unfold generate at h ⊢
  rcases same_trees hE hO hp hq v with ⟨e', h1, h2⟩ | ⟨n, _, hr, h1, h2⟩
  · rw [h1] at h
    rw [h2]
    cases h
    cases e' <;> simp [errPre, underName]
  · rw [h1] at h
    rw [h2]
    rcases strings_skel (E := E) (p := p) (q := q) hr imports with ⟨e', h3, h4⟩ | ⟨s, s', h3, _⟩
    · dsimp only at h ⊢
      rw [h3] at h
      rw [h4]
      cases h
      rfl
    · dsimp only at h
      rw [h3] at h
      cases h

/-- **C92**: data that gets a hint under one valid class name gets one under every other. -/
theorem same_success {E : Env} (hE : E.Fair) (hO : OrderByHash E) {p q : Str} (hp : nameOk E.U p = true) (hq : nameOk E.U q = true) (v : Val)
    (imports : Bool) : (∃ text, generate E p v imports = .ok text) ↔ ∃ text, generate E q v imports = .ok text := by
  have key : ∀ {p q : Str}, nameOk E.U p = true → nameOk E.U q = true → (∃ text, generate E p v imports = .ok text) →
      ∃ text, generate E q v imports = .ok text := by
    rintro p q hp hq ⟨text, h⟩
    cases hg : generate E q v imports with
    | ok t => exact ⟨t, rfl⟩
    | error e =>
      have := same_failures hE hO hq hp v imports hg
      rw [h] at this
      cases this
  exact ⟨key hp hq, key hq hp⟩

/-! ### The values that hints admit -/

/-- What **C92** says of data with the property `P`: hints under two class names admit the same values. -/
def NameIrrelevant (E : Env) (P : Str → Val → Prop) : Prop :=
  ∀ p q v Γ Δ w, P p v → P q v → Hint E p v Γ → Hint E q v Δ → (Admits Γ (.name p) w ↔ Admits Δ (.name q) w)

/-- The hint of well-behaved data admits exactly the values that its tree stands for. -/
theorem hint_means {E : Env} (hE : E.Fair) (hA : E.isBuiltin py!"Any" = false) (hm : 0 < E.S.merge) {name : Str} {v : Val}
    (h : WellBehaved E.S name v) {Γ : List TDecl} (hΓ : Hint E name v Γ) :
    ∃ n, fromData E name v = .ok n ∧ ∀ w, Admits Γ (.name name) w ↔ Means E.S n w := by
  obtain ⟨Γ', h1, hnd, _⟩ := hint_sound_clear_partial hE hm h
  cases hint_unique hΓ h1
  obtain ⟨n, strs, a, b, c⟩ := h1
  obtain ⟨g, k1, k2, k3, k4⟩ := coherent_tree hE hm h.camel h.coherent h.neat h.fresh a
  obtain ⟨r1, r2, r3⟩ := root_texts hE g.trim k1 k2
  rw [k4] at b; cases b
  rw [r1] at c; cases c
  refine ⟨n, a, fun w => ⟨root_means hE hA g.trim k1 k2 k3 h.fresh.1 hnd, fun hw => ?_⟩⟩
  have hN : Names (dedupDecls (n.abs E).emitted) name := ⟨h.fresh.1, by rintro x ⟨d, hd, rfl⟩; exact (r2 d hd).2⟩
  have := means_admits hE hN (by rintro x ⟨d, hd, rfl⟩; exact (r2 d hd).1.1) hw g.trim k1 (fun d hd => defines_of_nodup hnd (r3 d hd))
  unfold aref at this
  rw [if_pos (root_decl k2).1, abs_name, k3] at this
  exact this

/-- **C92** (partial). Hints of data that is well-behaved under two class names admit the same values. Missing: other data. -/
theorem same_values_partial {E : Env} (hE : E.Fair) (hO : OrderByHash E) (hA : E.isBuiltin py!"Any" = false) (hm : 0 < E.S.merge) :
    NameIrrelevant E (WellBehaved E.S) := by
  intro p q v Γ Δ w h h' hΓ hΔ
  obtain ⟨n, a, hn⟩ := hint_means hE hA hm h hΓ
  obtain ⟨n', a', hn'⟩ := hint_means hE hA hm h' hΔ
  rw [hn, hn']
  rcases same_trees hE hO (camel_nameOk (U := E.U) h.camel) (camel_nameOk (U := E.U) h'.camel) v with ⟨e, h1, _⟩ | ⟨m, _, _, h1, h2⟩
  · rw [a] at h1; cases h1
  · rw [a] at h1; cases h1
    rw [a'] at h2; cases h2
    exact ⟨fun hw => means_pre hw m rfl, fun hw => means_pre hw m rfl⟩

/-- **C92** is false as stated for class names that are used in hints: under the name `Optional` the hint of `[None]` refers to
itself. -/
theorem same_values_fails : ¬ NameIrrelevant (exEnv {}) (fun p _ => nameOk asciiUni p = true) := by
  intro h
  obtain ⟨Γ, h1, h2⟩ := accepts_spec (E := exEnv {}) (name := py!"Data") (v := .seq .list .list [.inst .noneType none])
    (w := .seq .list .list [.inst .noneType none]) (by decide +kernel)
  obtain ⟨Δ, h3, h4⟩ := rejects_spec (E := exEnv {}) (name := py!"Optional") (v := .seq .list .list [.inst .noneType none])
    (w := .seq .list .list [.inst .noneType none]) (by decide +kernel)
  exact h4 ((h _ _ _ _ _ _ (by decide +kernel) (by decide +kernel) h1 h3).mp h2)

/-! ### Data that meets the hypotheses -/

/-- Declarations under two names: the order of alternatives follows the names. -/
example : declsOf (exEnv {}) py!"A" (.seq .list .list [dictOf [(py!"a", .inst .int none)], .inst .str none]) =
      [recordText py!"ADict" false none [⟨py!"a", py!"int", none⟩], py!"A: TypeAlias = List[Union[ADict, str]]"] ∧
    declsOf (exEnv {}) py!"z" (.seq .list .list [dictOf [(py!"a", .inst .int none)], .inst .str none]) =
      [recordText py!"zDict" false none [⟨py!"a", py!"int", none⟩], py!"z: TypeAlias = List[Union[str, zDict]]"] := by decide +kernel

theorem sampleMixed_other : WellBehaved {} py!"Settings" sampleMixed := wellBehavedB_sound (f := 10) (by decide +kernel)

example : ∃ Γ Δ, Hint (exEnv {}) py!"Config" sampleMixed Γ ∧ Hint (exEnv {}) py!"Settings" sampleMixed Δ ∧
    ∀ w, Admits Γ (.name py!"Config") w ↔ Admits Δ (.name py!"Settings") w := by
  obtain ⟨Γ, h, _⟩ := hint_sound_clear_partial (exEnv_fair {}) (by decide) sampleMixed_ok
  obtain ⟨Δ, h', _⟩ := hint_sound_clear_partial (exEnv_fair {}) (by decide) sampleMixed_other
  exact ⟨Γ, Δ, h, h', fun w => same_values_partial (exEnv_fair {}) (exEnv_order_hash {}) (by decide +kernel) (by decide) _ _ _ _ _ _
    sampleMixed_ok sampleMixed_other h h'⟩

/-- A list of dictionaries with an instance of a class `A.b`, whose name cannot be part of a name. -/
def dottedClass : Val := .seq .list .list [dictOf [(py!"a", .seq .list .list [.inst ⟨py!"A.b", 7⟩ none])]]

example : generate (exEnv {}) py!"Config" dottedClass true = .error (.inl (.build (.badName py!"ConfigDictAA.b"))) ∧
    generate (exEnv {}) py!"x" dottedClass true = .error (.inl (.build (.badName py!"xDictAA.b"))) := by decide +kernel

example : generate (exEnv {}) py!"x" dottedClass true = .error (.inl (.build (.badName py!"xDictAA.b"))) :=
  same_failures (exEnv_fair {}) (exEnv_order_hash {}) (p := py!"Config") (by decide +kernel) (by decide +kernel) dottedClass true
    (e := .inl (.build (.badName py!"ConfigDictAA.b"))) (by decide +kernel)

end Verif.Props
