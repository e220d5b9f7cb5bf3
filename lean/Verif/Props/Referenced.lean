import Verif.Lemmas.Linked
import Verif.Lemmas.Columns
import Verif.Lemmas.Quoted
import Verif.Props.Order
import Verif.Props.Unused
/-
No declaration of the generated text is superfluous.
-/
namespace Verif.Props
open Verif Verif.Spec

/-- What **C73** says of a text: it consists of declarations, and each of them is the requested one or is referred to. -/
def NoneSuperfluous (name : Str) (strs : List Str) : Prop :=
  ∃ Γ : List TDecl, (∀ s, s ∈ strs ↔ ∃ d ∈ Γ, d.print = s) ∧ AllReferenced name Γ

instance (d : TDecl) (x : Str) : Decidable (RefersTo d x) := by unfold RefersTo; infer_instance

/-- **C73** is false as stated. For `{"a": {"b": 1}}` and the class name `my_class` the text declares `my_classA` but refers
to `MyClassA`. -/
theorem declarations_referenced_fails : ¬ ∀ name v Γ, Hint (exEnv {}) name v Γ → AllReferenced name Γ := by
  intro h
  have hw : (match fromData (exEnv {}) py!"my_class" (dictOf [(py!"a", dictOf [(py!"b", .inst .int none)])]) with
      | .ok n => (match nodeStrings (exEnv {}) n false with
        | .ok strs => (match readText strs with
          | some Γ => Γ.any (fun d => decide (d.name ≠ py!"my_class") && Γ.all (fun e => decide (¬ RefersTo e d.name)))
          | none => false)
        | .error _ => false)
      | .error _ => false) = true := by decide +kernel
  split at hw
  · rename_i n hn
    split at hw
    · rename_i strs hs
      split at hw
      · rename_i Γ hΓ
        obtain ⟨d, hd, hx⟩ := List.any_eq_true.mp hw
        rw [Bool.and_eq_true, List.all_eq_true] at hx
        rcases h _ _ Γ ⟨n, strs, hn, hs, hΓ⟩ d hd with e | ⟨e, he, hm⟩
        · exact of_decide_eq_true hx.1 e
        · exact of_decide_eq_true (hx.2 e he) hm
      · cases hw
    · cases hw
  · cases hw

/-- A frame with a column of dictionaries under a tuple and a column of integers under a string. -/
def sampleTable : Val := readFrame ⟨py!"DataFrame", 50⟩ py!"Index([('a', 'b'), 'c'])" [.tuple (.str py!"a") [.str py!"b"] py!"('a', 'b')", .single (.str py!"c")]
  (fun k => if k = .str py!"c" then .seq .series ⟨py!"Series", 51⟩ [.inst .int none]
    else .seq .series ⟨py!"Series", 51⟩ [dictOf [(py!"b", .inst .int none)]])

/-- **C73** is also false for frames in which some but not all labels are tuples: the types of the columns below tuples are
declared, but no other declaration has their names as words. -/
theorem declarations_referenced_fails_frame : ∃ n strs, fromData (exEnv {}) py!"Table" sampleTable = .ok n ∧
    nodeStrings (exEnv {}) n false = .ok strs ∧
    ∃ s ∈ strs, declName s ≠ py!"Table" ∧ ∀ t ∈ strs, t ≠ s → declName s ∉ lexemes t := by
  have hw : (match fromData (exEnv {}) py!"Table" sampleTable with
      | .ok n => (match nodeStrings (exEnv {}) n false with
        | .ok strs => strs.any (fun s => decide (declName s ≠ py!"Table") && strs.all (fun t => decide (t ≠ s → declName s ∉ lexemes t)))
        | .error _ => false)
      | .error _ => false) = true := by decide +kernel
  split at hw
  · rename_i n hn
    split at hw
    · rename_i strs hs
      obtain ⟨s, hs', hx⟩ := List.any_eq_true.mp hw
      rw [Bool.and_eq_true, List.all_eq_true] at hx
      exact ⟨n, strs, hn, hs, s, hs', of_decide_eq_true hx.1, fun t ht => of_decide_eq_true (hx.2 t ht)⟩
    · cases hw
  · cases hw

/-- **C73** (partial). Every declaration other than that of the requested name is referred to by a declaration. Missing:
class names that are not in camel case and frames with tuples and other labels, where it fails, and keys and classes with
characters outside ASCII. -/
theorem declarations_referenced_partial {E : Env} (hE : E.Fair) (hm : 0 < E.S.merge) {name : Str} {v : Val} (hc : CamelName name)
    (hv : Regular E.U v) (hn : Neat v) (hl : Every ReadFrame v) {n : Node} (hb : fromData E name v = .ok n) :
    ∃ strs, nodeStrings E n false = .ok strs ∧ NoneSuperfluous name strs := by
  obtain ⟨_, _, _, hr, hnm, _⟩ := regular_build hE hm hv hb
  refine ⟨_, regular_strings hE hm hv hb, (n.abs E).emitted, ?_, ?_⟩
  · intro s
    rw [dedupDecls_print, mem_dedup]
    simp only [List.mem_map]
  · have hlab := read_labels hv hl
    have hlink := link_hdrs hE hm hc hv hn hlab hb
    cases n with
    | mk h kids =>
      have hnm : h.name = name := hnm
      rw [← hnm]
      exact linked_root hlink hr

/-- `sampleNamed` meets the hypotheses and has several declarations. -/
example : ∃ n strs, fromData (exEnv {}) py!"Config" sampleNamed = .ok n ∧ nodeStrings (exEnv {}) n false = .ok strs ∧ 3 ≤ strs.length ∧
    NoneSuperfluous py!"Config" strs := by
  have ht : (match fromData (exEnv {}) py!"Config" sampleNamed with
      | .ok n => (match nodeStrings (exEnv {}) n false with
        | .ok strs => decide (3 ≤ strs.length)
        | .error _ => false)
      | .error _ => false) = true := by decide +kernel
  split at ht
  · rename_i n hn
    obtain ⟨strs, h1, h2⟩ := declarations_referenced_partial (exEnv_fair {}) (by decide) (name := py!"Config")
      ⟨'C', py!"onfig", rfl, by decide, by decide⟩ sampleNamed_ok.2 (by
        simp only [Neat, sampleNamed, ValAll, ValAllList]
        simp only [List.mem_cons, List.not_mem_nil, or_false, forall_eq_or_imp, forall_eq, and_true]
        unfold NeatTy NeatKey NeatTy
        decide) (by simp [ReadFrame, sampleNamed, Every, EveryList]) hn
    rw [h1] at ht
    exact ⟨n, strs, hn, h1, of_decide_eq_true ht, h2⟩
  · cases ht

end Verif.Props
