import Verif.Lemmas.Reads
import Verif.Props.Distinct
/-
C94: one-shot iterators.
-/
namespace Verif.Props
open Verif Verif.Spec

/-- **C94**, as one expects it: for data with iterators from which nothing has been taken, the hint says what each iterator yields, and
each iterator that is inspected loses one element more than the limit at most. -/
def IteratorsReadOnce : Prop := ∀ (E : Env), E.Fair → OrderByHash E → ∀ (name : Str) (v : Val) (imports : Bool) (text : Str) (T : Taken),
  generateR E name v imports (fun _ => 0) = .ok (text, T) →
    generate E name (plain v) imports = .ok text ∧
      ∀ r t es, Visited E.S (.iter r t es) v → T r = if E.S.checkMax = 0 then es.length else min (E.S.checkMax + 1) es.length

/-- **C94** for data in which every iterator occurs at one place, and none in dictionaries that are elements of a sequence and
described by TypedDicts: the hint, or the failure, is the one of the data with the elements of the iterators in their place. The
iterators that are visited lose one element more than the limit, or all they have, and the others lose nothing. -/
theorem iterators_read_once_partial {E : Env} (hE : E.Fair) (hO : OrderByHash E) (name : Str) {v : Val} (hv : ReadOnce E.S v) (imports : Bool)
    {T : Taken} (hT : ∀ r ∈ iterators v, T r = 0) :
    (∃ text T', generateR E name v imports T = .ok (text, T') ∧ generate E name (plain v) imports = .ok text ∧
      (∀ r t es, Visited E.S (.iter r t es) v → T' r = if E.S.checkMax = 0 then es.length else min (E.S.checkMax + 1) es.length) ∧
      ∀ r, (∀ t es, ¬ Visited E.S (.iter r t es) v) → T' r = T r) ∨
    ∃ e, generateR E name v imports T = .error e ∧ generate E name (plain v) imports = .error e := by
  unfold generateR generate
  rcases fromDataR_agrees hE hO name hv hT with ⟨n, h1, h2⟩ | ⟨e, h1, h2⟩
  · rw [h1, h2]
    have : toString' E (viaTree plain n) imports = toString' E n imports := by
      unfold toString' nodeStrings Node.render
      rw [out_via plain_text]
    simp only [this]
    cases hs : toString' E n imports with
    | error e => exact .inr ⟨_, rfl, rfl⟩
    | ok text =>
      obtain ⟨a1, a2⟩ := advance_reads hv T
      refine .inl ⟨text, _, rfl, rfl, ?_, a2⟩
      intro r t es h
      have h0 : T r = 0 := by
        apply hT
        have := (mem_reads E.S _ v (Nat.lt_succ_self _) _).mpr ⟨t, _, h, rfl⟩
        exact reads_iterators E.S _ v _ this
      rw [a1 r t es h, h0, Nat.zero_add]
      rfl
  · rw [h1, h2]
    exact .inr ⟨_, rfl, rfl⟩

/-- Data without iterators have the hint that `generate` says, and nothing is taken from any iterator. -/
theorem without_iterators {E : Env} (hE : E.Fair) (hO : OrderByHash E) (name : Str) {v : Val} (hv : iterators v = []) (imports : Bool) (T : Taken) :
    generateR E name v imports T = (generate E name (plain v) imports).map (fun text => (text, T)) := by
  rcases iterators_read_once_partial hE hO name (quiet_once E.S hv) imports (T := T) (by rw [hv]; intro r hr; cases hr) with
    ⟨text, T', h1, h2, _, h4⟩ | ⟨e, h1, h2⟩
  · have : T' = T := by
      funext r
      apply h4
      intro t es h
      have := (mem_reads E.S _ v (Nat.lt_succ_self _) _).mpr ⟨t, _, h, rfl⟩
      have := reads_iterators E.S _ v _ this
      rw [hv] at this
      cases this
    rw [h1, h2, this]
    rfl
  · rw [h1, h2]
    rfl

/-- The class of generators. -/
def generator : Ty := ⟨py!"generator", 0⟩

/-- The integer elements of an iterator. -/
def someInts (n : Nat) : List Val := List.replicate n (.inst .int none)

/-- A dictionary with an iterator, and a list with an iterator that yields an iterator. -/
def sampleIterators : Val := .dict [(.str py!"a", .iter 0 generator (someInts 3)),
  (.str py!"b", .seq .list .list [.iter 1 generator [.iter 2 generator [.inst .str none], .inst .int none], .dict [(.str py!"x", .inst .int none)]])]

theorem sampleIterators_once {S : Strategies} : ReadOnce S sampleIterators where
  once := by decide +kernel
  numbered := by
    simp only [sampleIterators, Val.dict, Val.iter, someInts, List.replicate, List.map, Every, EveryList, numberMark, and_true, true_and]
    exact ⟨⟨_, _, rfl⟩, ⟨_, _, rfl⟩, ⟨_, _, rfl⟩⟩
  outside := by
    simp only [sampleIterators, Val.dict, Val.iter, someInts, List.replicate, List.map, Every, EveryList, numberMark, and_true, true_and, List.mem_cons,
      List.not_mem_nil, or_false, reduceCtorEq, false_implies, implies_true, or_self, false_or]
    intro t ks vs h
    injection h with _ _ _ h
    subst h
    intros
    rfl

/-- With a limit of one element: two elements are taken from the first two iterators, and the only one from the third. -/
theorem sampleIterators_read : ∃ text T', generateR (exEnv { checkMax := 1 }) py!"T" sampleIterators false (fun _ => 0) = .ok (text, T') ∧
    generate (exEnv { checkMax := 1 }) py!"T" (plain sampleIterators) false = .ok text ∧ T' 0 = 2 ∧ T' 1 = 2 ∧ T' 2 = 1 ∧ T' 3 = 0 := by
  have v0 : Visited (exEnv { checkMax := 1 }).S (.iter 0 generator (someInts 3)) sampleIterators := .value (e := (.str py!"a", _)) (.head _) rfl .here
  have v1 : Visited (exEnv { checkMax := 1 }).S (.iter 1 generator [.iter 2 generator [.inst .str none], .inst .int none]) sampleIterators :=
    .value (e := (.str py!"b", _)) (.tail _ (.head _)) rfl (.element (by simp) (.head _) .here)
  have v2 : Visited (exEnv { checkMax := 1 }).S (.iter 2 generator [.inst .str none]) sampleIterators :=
    .value (e := (.str py!"b", _)) (.tail _ (.head _)) rfl (.element (by simp) (.head _) (.yielded (.head _) .here))
  rcases iterators_read_once_partial (exEnv_fair { checkMax := 1 }) (exEnv_order_hash _) py!"T" sampleIterators_once false (T := fun _ => 0) (fun _ _ => rfl) with
    ⟨text, T', h1, h2, h3, h4⟩ | ⟨e, h1, h2⟩
  · refine ⟨text, T', h1, h2, h3 _ _ _ v0, h3 _ _ _ v1, h3 _ _ _ v2, h4 3 ?_⟩
    intro t es h
    have := reads_iterators _ _ _ _ ((mem_reads _ _ _ (Nat.lt_succ_self _) _).mpr ⟨t, _, h, rfl⟩)
    revert this
    have e : iterators sampleIterators = [0, 1, 2] := by decide +kernel
    rw [e]
    simp [readOf, iterNumber, numberMark]
  · have : (generate (exEnv { checkMax := 1 }) py!"T" (plain sampleIterators) false).toBool = true := by decide +kernel
    rw [h2] at this
    cases this

/-- An iterator in a dictionary in a list. -/
def listedIterator (es : List Val) : Val := .seq .list .list [.dict [(.str py!"a", .iter 0 generator es)]]

/-- The lines of the hint, and the number of elements that are taken from the iterator number 0. -/
def readLines (E : Env) (v : Val) : Option (Str × Nat) := match generateR E py!"T" v false (fun _ => 0) with
  | .ok (text, T) => some (text, T 0)
  | .error _ => none

/-- The dictionary is read twice. The iterator is exhausted when it is read for the second time, and nothing is known about its
elements. -/
theorem listed_iterator_empty :
    readLines (exEnv {}) (listedIterator (someInts 1)) = some (py!"class TDict(TypedDict):\n    a: Iterator[Any]\n\n\nT: TypeAlias = List[TDict]", 1) := by
  decide +kernel

/-- With a limit, twice as many elements are taken, and the hint is that of the later ones. -/
theorem listed_iterator_later : readLines (exEnv { checkMax := 1 }) (listedIterator (someInts 2 ++ [.inst .str none, .inst .str none])) =
    some (py!"class TDict(TypedDict):\n    a: Iterator[str]\n\n\nT: TypeAlias = List[TDict]", 4) := by
  decide +kernel

/-- One iterator at two places. -/
theorem shared_iterator : readLines (exEnv {}) (.dict [(.str py!"a", .iter 0 generator (someInts 1)), (.str py!"b", .iter 0 generator (someInts 1))]) =
    some (py!"class T(TypedDict):\n    a: Iterator[int]\n    b: Iterator[Any]\n", 1) := by
  decide +kernel

/-- **C94** is wrong without the conditions. -/
theorem iterators_read_once_fails : ¬ IteratorsReadOnce := by
  intro h
  have h1 := listed_iterator_later
  unfold readLines at h1
  split at h1
  · rename_i text T hg
    have := (h _ (exEnv_fair _) (exEnv_order_hash _) _ _ _ _ _ hg).2 0 generator (someInts 2 ++ [.inst .str none, .inst .str none])
      (.element (by simp) (.head _) (.value (e := (.str py!"a", _)) (.head _) rfl .here))
    injection h1 with h1
    injection h1 with _ h1
    rw [h1] at this
    revert this
    decide
  · cases h1

end Verif.Props
