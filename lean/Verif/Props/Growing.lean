import Verif.Lemmas.Growing
import Verif.Props.ClassName
import Verif.Props.Depth
/-
C98: more examples.
-/
namespace Verif.Props
open Verif Verif.Spec

/-- What the hint of a sequence admits is admitted by the hint of every longer sequence that begins with it, for data with the property
`P` and elements with the property `Q`. Tuples are left out if they have a fixed size. -/
def MoreExamples (E : Env) (P : Str → Val → Prop) (Q : List Val → List Val → Prop) : Prop :=
  ∀ name k t t' es more Γ Δ w, ¬ Placed E.S k → P name (.seq k t es) → P name (.seq k t' (es ++ more)) → Q es more →
    Hint E name (.seq k t es) Γ → Hint E name (.seq k t' (es ++ more)) Δ → Admits Γ (.name name) w → Admits Δ (.name name) w

/-- **C98** (partial). More examples never narrow the hint of a well-behaved sequence that is not empty and whose elements get no
TypedDicts; the further examples may be dictionaries. Missing: elements with TypedDicts before (for rows see `more_rows_partial`), and other data. -/
theorem more_examples_partial {E : Env} (hE : E.Fair) (hA : E.isBuiltin py!"Any" = false) (hm : 0 < E.S.merge) :
    MoreExamples E (WellBehaved E.S) (NoRecords E.S) := by
  intro name k t t' es more Γ Δ w hp h h' hr hΓ hΔ hw
  obtain ⟨n, a, hn⟩ := hint_means hE hA hm h hΓ
  obtain ⟨n', a', hn'⟩ := hint_means hE hA hm h' hΔ
  obtain ⟨h1, h2, h3, h4⟩ := tree_grows hE hm hp h.coherent h'.coherent hr (fromData_build a) (fromData_build a')
  exact (hn' w).mpr (means_grows hp h1 h2 h3 h4 ((hn w).mp hw))

/-! ### Data for which the claim is false -/

/-- **C98** is false as stated for a list without elements, whose hint `List[Any]` admits every list. -/
theorem more_examples_empty_fails : ¬ MoreExamples (exEnv {}) (WellBehaved {}) (fun es more => ∀ e ∈ es ++ more, ¬ IsRecord {} e) := by
  intro h
  obtain ⟨Γ, h1, h2⟩ := accepts_spec (E := exEnv {}) (name := py!"X") (v := .seq .list .list []) (w := .seq .list .list [.inst .str none])
    (by decide +kernel)
  obtain ⟨Δ, h3, h4⟩ := rejects_spec (E := exEnv {}) (name := py!"X") (v := .seq .list .list [.inst .int none])
    (w := .seq .list .list [.inst .str none]) (by decide +kernel)
  refine h4 (h _ .list .list .list [] [.inst .int none] _ _ _ (fun h => by cases h.1) (wellBehavedB_sound (f := 10) (by decide +kernel))
    (wellBehavedB_sound (f := 10) (by decide +kernel)) (fun e he hr => ?_) h1 h3 h2)
  rw [List.mem_singleton.mp he] at hr
  exact hr

/-- `{"a": 1, "b": 1, …}`. -/
def withFields (l : List Str) : Val := dictOf (l.map fun k => (k, .inst .int none))

example : declsOf (exEnv {}) py!"X" (.seq .list .list [withFields [py!"a", py!"b", py!"c"], withFields [py!"a", py!"b", py!"d"]]) =
    [recordText py!"XDict" false none [⟨py!"a", py!"int", none⟩, ⟨py!"b", py!"int", none⟩, ⟨py!"c", py!"NotRequired[int]", none⟩,
      ⟨py!"d", py!"NotRequired[int]", none⟩], py!"X: TypeAlias = List[XDict]"] := by
  decide +kernel

/-- **C98** is false as stated for dictionaries: two of them are merged into a TypedDict whose keys `c` and `d` are not required, but
together with a third one that has no key in common with them they are not. -/
theorem more_examples_fails : ¬ MoreExamples (exEnv {}) (WellBehaved {}) (fun es _ => es ≠ []) := by
  intro h
  obtain ⟨Γ, h1, h2⟩ := accepts_spec (E := exEnv {}) (name := py!"X")
    (v := .seq .list .list [withFields [py!"a", py!"b", py!"c"], withFields [py!"a", py!"b", py!"d"]])
    (w := .seq .list .list [withFields [py!"a", py!"b"]]) (by decide +kernel)
  obtain ⟨Δ, h3, h4⟩ := rejects_spec (E := exEnv {}) (name := py!"X")
    (v := .seq .list .list [withFields [py!"a", py!"b", py!"c"], withFields [py!"a", py!"b", py!"d"], withFields [py!"e"]])
    (w := .seq .list .list [withFields [py!"a", py!"b"]]) (by decide +kernel)
  exact h4 (h _ .list .list .list [_, _] [_] _ _ _ (fun h => by cases h.1) (wellBehavedB_sound (f := 10) (by decide +kernel))
    (wellBehavedB_sound (f := 10) (by decide +kernel)) (by simp) h1 h3 h2)

/-! ### Data that meets the hypotheses -/

/-- `[[1], "x"]`, and `(1.5,)`, `{"a": 1}` and `{"a": 2, "b": 3}` in addition. -/
def someExamples : List Val := [.seq .list .list [.inst .int none], .inst .str none]

def moreOfThem : List Val := [.seq .tuple .tuple [.inst .float none], dictOf [(py!"a", .inst .int none)],
  dictOf [(py!"a", .inst .int none), (py!"b", .inst .int none)]]

theorem someExamples_ok : WellBehaved {} py!"X" (.seq .list .list someExamples) := wellBehavedB_sound (f := 10) (by decide +kernel)

theorem moreOfThem_ok : WellBehaved {} py!"X" (.seq .list .list (someExamples ++ moreOfThem)) := wellBehavedB_sound (f := 10) (by decide +kernel)

example : ∃ Γ Δ, Hint (exEnv {}) py!"X" (.seq .list .list someExamples) Γ ∧
    Hint (exEnv {}) py!"X" (.seq .list .list (someExamples ++ moreOfThem)) Δ ∧
    (∀ w, Admits Γ (.name py!"X") w → Admits Δ (.name py!"X") w) ∧
    ∃ w, Admits Δ (.name py!"X") w ∧ ¬ Admits Γ (.name py!"X") w := by
  obtain ⟨Γ, h1, h2⟩ := rejects_spec (E := exEnv {}) (name := py!"X") (v := .seq .list .list someExamples)
    (w := .seq .list .list (someExamples ++ moreOfThem)) (by decide +kernel)
  obtain ⟨Δ, h3, h4⟩ := accepts_spec (E := exEnv {}) (name := py!"X") (v := .seq .list .list (someExamples ++ moreOfThem))
    (w := .seq .list .list (someExamples ++ moreOfThem)) (by decide +kernel)
  refine ⟨Γ, Δ, h1, h3, fun w => more_examples_partial (exEnv_fair {}) (by decide +kernel) (by decide) _ .list .list .list _ _ _ _ w
    (fun h => by cases h.1) someExamples_ok moreOfThem_ok ⟨by simp [someExamples], fun e he hr => ?_⟩ h1 h3, _, h4, h2⟩
  simp only [someExamples, List.mem_cons, List.not_mem_nil, or_false] at he
  rcases he with rfl | rfl <;> exact hr

end Verif.Props
