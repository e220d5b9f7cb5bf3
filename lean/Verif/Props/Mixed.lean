import Verif.Lemmas.MergeMixed
import Verif.Props.Merge
/-
Dictionaries in one sequence with other values, and dictionaries in tuples (C30, C32).
-/
namespace Verif.Props
open Verif Verif.Spec

theorem oneAmong_mono {a b : List Str} (h : ∀ x, x ∈ a → x ∈ b) {t : TExpr} {ds : List Dct} : OneAmong a t ds → OneAmong b t ds := by
  rintro ⟨X, h1, f, doc, es, h2, h3⟩
  exact ⟨X, h1, f, doc, es, h _ h2, h3⟩

theorem eachAmong_mono {a b : List Str} (h : ∀ x, x ∈ a → x ∈ b) {t : TExpr} {ds : List Dct} : EachAmong a t ds → EachAmong b t ds := by
  intro H d hd
  obtain ⟨X, h1, f, doc, es, h2, h3⟩ := H d hd
  exact ⟨X, h1, f, doc, es, h _ h2, h3⟩

theorem onePlaced_mono {a b : List Str} (h : ∀ x, x ∈ a → x ∈ b) {ts : List TExpr} {es : List Val} : OnePlaced a ts es → OnePlaced b ts es := by
  rintro ⟨X, ⟨f, doc, es, h2, h3⟩, h4⟩
  exact ⟨X, ⟨f, doc, es, h _ h2, h3⟩, h4⟩

theorem eachPlaced_mono {a b : List Str} (h : ∀ x, x ∈ a → x ∈ b) {ts : List TExpr} {es : List Val} : EachPlaced a ts es → EachPlaced b ts es := by
  intro H i d hd
  obtain ⟨X, ⟨f, doc, es, h2, h3⟩, h4⟩ := H i d hd
  exact ⟨X, ⟨f, doc, es, h _ h2, h3⟩, h4⟩

theorem inspected_idem {α} (S : Strategies) (l : List α) : inspected S (inspected S l) = inspected S l := by
  unfold inspected
  split
  · rfl
  · simp [List.take_take]

theorem mixed_text {E : Env} (hE : E.Fair) (hS : E.S.dict = .typedDict) (hm0 : 0 < E.S.merge)
    {es : List Val} {name : Str} {k : SeqKind} {ty : Ty} {n : Node} {strs : List Str} (hk : ¬ (k = .tuple ∧ E.S.tuple = .fixed))
    (hne : dictsIn (inspected E.S es) ≠ []) (hm : Mixed (inspected E.S es)) (hv : Regular E.U (.seq k ty es))
    (hn : fromData E name (.seq k ty es) = .ok n) (hs : nodeStrings E n false = .ok strs) :
    ∃ t, (TDecl.mk name (.alias (if k = .tuple then .tupleOf t else .app (seqCon E.S k) t))).print ∈ strs ∧
      (OneAmong strs t (dictsIn (inspected E.S es)) ∨ EachAmong strs t (dictsIn (inspected E.S es))) ∧
      (Spec.Agree (dictsIn (inspected E.S es)) →
        if E.S.merge ≤ percentSimilarity (commonKeys (dictsIn (inspected E.S es))).length (allKeys (dictsIn (inspected E.S es))).length
        then OneAmong strs t (dictsIn (inspected E.S es)) else EachAmong strs t (dictsIn (inspected E.S es))) := by
  rw [fromData_inspected hE] at hn
  have hv' := regular_inspected (S := E.S) hv
  obtain ⟨_, hb, _⟩ := regular_build hE hm0 hv' hn
  rw [regular_strings hE hm0 hv' hn] at hs
  injection hs with hs
  subst hs
  have hmem : ∀ x, x ∈ (n.abs E).emitted.map TDecl.print → x ∈ (dedupDecls (n.abs E).emitted).map TDecl.print := by
    intro x; rw [dedupDecls_print, mem_dedup]; exact id
  obtain ⟨t, h1, h2, h3⟩ := mixed_abs hE hS hk hne hm (inspected_idem _ _) hb
  refine ⟨t, hmem _ (List.mem_map_of_mem h1), h2.imp (oneAmong_mono hmem) (eachAmong_mono hmem), fun ha => ?_⟩
  have := h3 ha
  split
  · rename_i h
    rw [if_pos h] at this
    exact oneAmong_mono hmem this
  · rename_i h
    rw [if_neg h] at this
    exact eachAmong_mono hmem this

theorem byThreshold {p : Nat} {ds : List Dct} {a b : Prop} (h0 : 0 < p) (h1 : p ≤ 100)
    (h : if p ≤ percentSimilarity (commonKeys ds).length (allKeys ds).length then a else b) : ByThreshold p ds a b := by
  intro hne hsize hx
  have hr := percent_reaches h0 h1 (commonKeys_le ds) (List.length_pos_iff.mpr hne) hsize hx
  constructor
  · intro hp
    rwa [if_pos (hr.mpr hp)] at h
  · intro hp
    rwa [if_neg (fun e => Nat.not_le.mpr hp (hr.mp e))] at h

/-- **C30** for sequences in which dictionaries stand next to other values: the element type has among its alternatives one
TypedDict with the union of the keys of the dictionaries, in which exactly the keys that all of them have are required, or for
each of the dictionaries a TypedDict with exactly its keys, all required. -/
theorem mixed_keys_and_required (E : Env) (hE : E.Fair) (hS : E.S.dict = .typedDict) (hm0 : 0 < E.S.merge)
    (es : List Val) (name : Str) (k : SeqKind) (ty : Ty) (n : Node) (strs : List Str) (hk : k ≠ .tuple)
    (hne : dictsIn (inspected E.S es) ≠ []) (hm : Mixed (inspected E.S es)) (hv : Regular E.U (.seq k ty es))
    (hn : fromData E name (.seq k ty es) = .ok n) (hs : nodeStrings E n false = .ok strs) :
    ∃ con t, containerFits k con = true ∧ (TDecl.mk name (.alias (.app con t))).print ∈ strs ∧
      (OneAmong strs t (dictsIn (inspected E.S es)) ∨ EachAmong strs t (dictsIn (inspected E.S es))) := by
  obtain ⟨t, h1, h2, _⟩ := mixed_text hE hS hm0 (fun h => hk h.1) hne hm hv hn hs
  rw [if_neg hk] at h1
  exact ⟨_, t, seqCon_fits hk, h1, h2⟩

/-- **C32** for sequences in which dictionaries stand next to other values: whether the dictionaries share one TypedDict is
decided by the similarity of the dictionaries alone, whatever else is in the sequence. -/
theorem mixed_threshold_partial (E : Env) (hE : E.Fair) (hS : E.S.dict = .typedDict) (hm0 : 0 < E.S.merge) (hm1 : E.S.merge ≤ 100)
    (es : List Val) (name : Str) (k : SeqKind) (ty : Ty) (n : Node) (strs : List Str) (hk : k ≠ .tuple)
    (hne : dictsIn (inspected E.S es) ≠ []) (hm : Mixed (inspected E.S es)) (hag : Spec.Agree (dictsIn (inspected E.S es)))
    (hv : Regular E.U (.seq k ty es))
    (hn : fromData E name (.seq k ty es) = .ok n) (hs : nodeStrings E n false = .ok strs) :
    ∃ con t, containerFits k con = true ∧ (TDecl.mk name (.alias (.app con t))).print ∈ strs ∧
      ByThreshold E.S.merge (dictsIn (inspected E.S es)) (OneAmong strs t (dictsIn (inspected E.S es))) (EachAmong strs t (dictsIn (inspected E.S es))) := by
  obtain ⟨t, h1, _, h2⟩ := mixed_text hE hS hm0 (fun h => hk h.1) hne hm hv hn hs
  rw [if_neg hk] at h1
  exact ⟨_, t, seqCon_fits hk, h1, byThreshold hm0 hm1 (h2 hag)⟩

/-- **C30**, **C32** for tuples whose length is not part of the type: the same as for lists. -/
theorem mixed_anysize_tuple (E : Env) (hE : E.Fair) (hS : E.S.dict = .typedDict) (hm0 : 0 < E.S.merge) (hm1 : E.S.merge ≤ 100) (hT : E.S.tuple ≠ .fixed)
    (es : List Val) (name : Str) (ty : Ty) (n : Node) (strs : List Str)
    (hne : dictsIn (inspected E.S es) ≠ []) (hm : Mixed (inspected E.S es)) (hv : Regular E.U (.seq .tuple ty es))
    (hn : fromData E name (.seq .tuple ty es) = .ok n) (hs : nodeStrings E n false = .ok strs) :
    ∃ t, (TDecl.mk name (.alias (.tupleOf t))).print ∈ strs ∧
      (OneAmong strs t (dictsIn (inspected E.S es)) ∨ EachAmong strs t (dictsIn (inspected E.S es))) ∧
      (Spec.Agree (dictsIn (inspected E.S es)) →
        ByThreshold E.S.merge (dictsIn (inspected E.S es)) (OneAmong strs t (dictsIn (inspected E.S es))) (EachAmong strs t (dictsIn (inspected E.S es)))) := by
  obtain ⟨t, h1, h2, h3⟩ := mixed_text hE hS hm0 (fun h => hT h.2) hne hm hv hn hs
  exact ⟨t, h1, h2, fun ha => byThreshold hm0 hm1 (h3 ha)⟩

/-- **C30**, **C32** for tuples of fixed length: there is one type for each inspected element; where a dictionary stands, it
is the name of a TypedDict, which is the same for all dictionaries, with the union of their keys and exactly the common ones
required, if they are similar enough, and for that dictionary alone otherwise. -/
theorem mixed_fixed_tuple (E : Env) (hE : E.Fair) (hS : E.S.dict = .typedDict) (hm0 : 0 < E.S.merge) (hm1 : E.S.merge ≤ 100) (hT : E.S.tuple = .fixed)
    (es : List Val) (name : Str) (ty : Ty) (n : Node) (strs : List Str)
    (hne : dictsIn (inspected E.S es) ≠ []) (hm : Mixed (inspected E.S es)) (hv : Regular E.U (.seq .tuple ty es))
    (hn : fromData E name (.seq .tuple ty es) = .ok n) (hs : nodeStrings E n false = .ok strs) :
    ∃ ts, (TDecl.mk name (.alias (.tuple ts))).print ∈ strs ∧ ts.length = (inspected E.S es).length ∧
      (OnePlaced strs ts (inspected E.S es) ∨ EachPlaced strs ts (inspected E.S es)) ∧
      (Spec.Agree (dictsIn (inspected E.S es)) →
        ByThreshold E.S.merge (dictsIn (inspected E.S es)) (OnePlaced strs ts (inspected E.S es)) (EachPlaced strs ts (inspected E.S es))) := by
  rw [fromData_inspected hE] at hn
  have hv' := regular_inspected (S := E.S) hv
  obtain ⟨_, hb, _⟩ := regular_build hE hm0 hv' hn
  rw [regular_strings hE hm0 hv' hn] at hs
  injection hs with hs
  subst hs
  have hmem : ∀ x, x ∈ (n.abs E).emitted.map TDecl.print → x ∈ (dedupDecls (n.abs E).emitted).map TDecl.print := by
    intro x; rw [dedupDecls_print, mem_dedup]; exact id
  obtain ⟨ts, h1, h2, b, h3, h4, h5⟩ := mixed_tuple_abs hS hT hne hm (inspected_idem _ _) hb
  refine ⟨ts, hmem _ (List.mem_map_of_mem h1), h2, ?_, fun ha => ?_⟩
  · cases b with
    | true => exact .inl (onePlaced_mono hmem (h4 rfl))
    | false => exact .inr (eachPlaced_mono hmem (h5 rfl))
  · have := h3 ha
    apply byThreshold hm0 hm1
    split
    · rename_i h
      rw [decide_eq_true h] at this
      exact onePlaced_mono hmem (h4 this)
    · rename_i h
      rw [decide_eq_false h] at this
      exact eachPlaced_mono hmem (h5 this)

/-- Two dictionaries among other values. -/
def sampleMix : List Val :=
  [.inst .int none, dictOf [(py!"a", .inst .int none), (py!"b", .inst .str none)], .inst .str none,
   dictOf [(py!"b", .inst .str none), (py!"c", .inst .int none)], .map .dict .dict [.other .int py!"1"] [.inst .int none]]

theorem sampleMix_mixed : Mixed sampleMix := by
  intro v hv
  simp only [sampleMix, List.mem_cons, List.not_mem_nil, or_false] at hv
  rcases hv with rfl | rfl | rfl | rfl | rfl
  · exact .inr trivial
  · exact .inl ⟨_, by decide +kernel, rfl⟩
  · exact .inr trivial
  · exact .inl ⟨_, by decide +kernel, rfl⟩
  · exact .inr ⟨(.other .int py!"1", .inst .int none), by simp, rfl⟩

example : dictsIn sampleMix ≠ [] ∧ Spec.Agree (dictsIn sampleMix) ∧ allKeys (dictsIn sampleMix) = [py!"a", py!"b", py!"c"] ∧
    commonKeys (dictsIn sampleMix) = [py!"b"] ∧ Mixed sampleMix ∧ Regular (exEnv {}).U (.seq .tuple .tuple sampleMix) ∧
    ByThreshold 33 (dictsIn sampleMix) True False ∧ ByThreshold 34 (dictsIn sampleMix) False True := by
  refine ⟨by decide +kernel, by decide +kernel, by decide +kernel, by decide +kernel, sampleMix_mixed, plain_regular (by decide +kernel), ?_, ?_⟩
  · exact fun _ _ _ => ⟨fun _ => trivial, fun h => absurd h (by decide +kernel)⟩
  · exact fun _ _ _ => ⟨fun h => absurd h (by decide +kernel), fun _ => trivial⟩
example : declsOf (exEnv { merge := 33 }) py!"X" (.seq .tuple .tuple sampleMix) =
    [recordText py!"XDict" false none [⟨py!"a", py!"NotRequired[int]", none⟩, ⟨py!"b", py!"str", none⟩, ⟨py!"c", py!"NotRequired[int]", none⟩],
     py!"X: TypeAlias = Tuple[int, XDict, str, XDict, Dict[int, int]]"] := by decide +kernel

end Verif.Props
