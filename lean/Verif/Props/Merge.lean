import Verif.Lemmas.MergeText
import Verif.Props.Limits
import Verif.Spec.Reader
/-
Dictionaries in one sequence: when they are merged, and what the merged hint says (C30, C32).
-/
namespace Verif.Props
open Verif Verif.Spec

/-- The elements of a sequence that are looked at: all of them, or the first `max_elements_to_check` ones. -/
def inspected {α} (S : Strategies) (l : List α) : List α := if S.checkMax = 0 then l else l.take S.checkMax

theorem inspected_all {S : Strategies} {α} {l : List α} (h : S.checkMax = 0 ∨ l.length ≤ S.checkMax) : inspected S l = l := by
  unfold inspected
  split
  · rfl
  · rename_i h0
    exact List.take_of_length_le (h.resolve_left h0)

theorem mem_inspected {S : Strategies} {α} {l : List α} {x : α} (h : x ∈ inspected S l) : x ∈ l := by
  unfold inspected at h
  split at h
  · exact h
  · exact List.mem_of_mem_take h

theorem inspected_map {S : Strategies} {α β} (f : α → β) (l : List α) : inspected S (l.map f) = (inspected S l).map f := by
  unfold inspected
  split
  · rfl
  · exact List.map_take.symm

/-- The tree is that of the inspected elements. -/
theorem fromData_inspected {E : Env} (hE : E.Fair) (name : Str) (k : SeqKind) (t : Ty) (es : List Val) :
    fromData E name (.seq k t es) = fromData E name (.seq k t (inspected E.S es)) := by
  unfold inspected
  split
  · rfl
  · rename_i h0
    unfold fromData
    rw [buildTree_inspected hE (Nat.pos_of_ne_zero h0)]

theorem regular_inspected {U : Uni} {S : Strategies} {k : SeqKind} {t : Ty} {es : List Val} (h : Regular U (.seq k t es)) :
    Regular U (.seq k t (inspected S es)) :=
  ⟨⟨h.1.1, valAllList_iff.mpr fun v hv => valAllList_iff.mp h.1.2 v (mem_inspected hv)⟩,
   ⟨trivial, everyList_iff.mpr fun v hv => everyList_iff.mp h.2.2 v (mem_inspected hv)⟩⟩

theorem dictSeq_text_all {E : Env} (hE : E.Fair) (hS : E.S.dict = .typedDict) (hm0 : 0 < E.S.merge)
    {ds : List Dct} {name : Str} {k : SeqKind} {ty : Ty} {n : Node} {strs : List Str} (hk : k ≠ .tuple) (hne : ds ≠ [])
    (hd : ∀ d ∈ ds, IsDict d) (hl : limit E.S.checkMax ds = ds) (hv : Regular E.U (.seq k ty (ds.map dictOf)))
    (hn : fromData E name (.seq k ty (ds.map dictOf)) = .ok n) (hs : nodeStrings E n false = .ok strs) :
    ∃ con t, containerFits k con = true ∧ (TDecl.mk name (.alias (.app con t))).print ∈ strs ∧
      (OneRecord strs t ds ∨ SeparateRecords strs t ds) ∧
      (allKeys ds = [] → OneRecord strs t ds) ∧
      (Spec.Agree ds → E.S.merge ≤ percentSimilarity (commonKeys ds).length (allKeys ds).length → OneRecord strs t ds) ∧
      (Spec.Agree ds → ¬ (E.S.merge ≤ percentSimilarity (commonKeys ds).length (allKeys ds).length) →
        commonKeys ds ≠ allKeys ds → SeparateRecords strs t ds) := by
  obtain ⟨_, hb, _⟩ := regular_build hE hm0 hv hn
  rw [regular_strings hE hm0 hv hn] at hs
  injection hs with hs
  subst hs
  obtain ⟨_, t, _, h1, h2, h0, h3, h4⟩ := dictSeq_abs hE hS hm0 hk hne hd (by rw [show limit E.S.checkMax (ds.map dictOf) = _ from inspected_map (S := E.S) dictOf ds]; exact congrArg _ hl) hb
  have hmem : ∀ x, x ∈ (n.abs E).emitted.map TDecl.print ↔ x ∈ (dedupDecls (n.abs E).emitted).map TDecl.print := by
    intro x; rw [dedupDecls_print, mem_dedup]
  have one : OneRecord ((n.abs E).emitted.map TDecl.print) t ds → OneRecord ((dedupDecls (n.abs E).emitted).map TDecl.print) t ds := by
    rintro ⟨X, f, doc, es, h1, h2, h3⟩
    exact ⟨X, f, doc, es, h1, (hmem _).mp h2, h3⟩
  have sep : SeparateRecords ((n.abs E).emitted.map TDecl.print) t ds → SeparateRecords ((dedupDecls (n.abs E).emitted).map TDecl.print) t ds := by
    rintro ⟨Xs, h1, h2, h3, h4, h5⟩
    refine ⟨Xs, h1, h2, h3, ?_, ?_⟩
    · intro X hX
      obtain ⟨d, hd, f, doc, es, a, b⟩ := h4 X hX
      exact ⟨d, hd, f, doc, es, (hmem _).mp a, b⟩
    · intro d hd
      obtain ⟨X, hX, f, doc, es, a, b⟩ := h5 d hd
      exact ⟨X, hX, f, doc, es, (hmem _).mp a, b⟩
  exact ⟨_, t, seqCon_fits hk, (hmem _).mp (List.mem_map_of_mem (h1 rfl)), h2.imp one sep,
    fun h => one (h0 h), fun ha hp => one (h3 ha hp), fun ha hp hc => sep (h4 ha hp hc)⟩

theorem dictSeq_text {E : Env} (hE : E.Fair) (hS : E.S.dict = .typedDict) (hm0 : 0 < E.S.merge)
    {ds : List Dct} {name : Str} {k : SeqKind} {ty : Ty} {n : Node} {strs : List Str} (hk : k ≠ .tuple) (hne : ds ≠ [])
    (hd : ∀ d ∈ ds, IsDict d) (hv : Regular E.U (.seq k ty (ds.map dictOf)))
    (hn : fromData E name (.seq k ty (ds.map dictOf)) = .ok n) (hs : nodeStrings E n false = .ok strs) :
    ∃ con t, containerFits k con = true ∧ (TDecl.mk name (.alias (.app con t))).print ∈ strs ∧
      (OneRecord strs t (inspected E.S ds) ∨ SeparateRecords strs t (inspected E.S ds)) ∧
      (allKeys (inspected E.S ds) = [] → OneRecord strs t (inspected E.S ds)) ∧
      (Spec.Agree (inspected E.S ds) →
        E.S.merge ≤ percentSimilarity (commonKeys (inspected E.S ds)).length (allKeys (inspected E.S ds)).length →
        OneRecord strs t (inspected E.S ds)) ∧
      (Spec.Agree (inspected E.S ds) →
        ¬ (E.S.merge ≤ percentSimilarity (commonKeys (inspected E.S ds)).length (allKeys (inspected E.S ds)).length) →
        commonKeys (inspected E.S ds) ≠ allKeys (inspected E.S ds) → SeparateRecords strs t (inspected E.S ds)) := by
  rw [fromData_inspected hE, inspected_map] at hn
  have hv' := regular_inspected (S := E.S) hv
  rw [inspected_map] at hv'
  refine dictSeq_text_all hE hS hm0 hk ?_ (fun d h => hd d (mem_inspected h)) ?_ hv' hn hs
  · unfold inspected
    split
    · exact hne
    · rename_i h0
      intro h
      rcases List.take_eq_nil_iff.mp h with h | h
      · exact h0 h
      · exact hne h
  · show inspected E.S (inspected E.S ds) = inspected E.S ds
    unfold inspected
    split
    · rfl
    · simp [List.take_take]

/-- **C30**: the elements of a list (set, iterator, series) of dictionaries are described either by one TypedDict, which
has the union of their keys and marks as required exactly the keys that all of them have, or by a union of TypedDicts, each
with exactly the keys of one dictionary, all required. With an element limit, "the elements" are the inspected ones. -/
theorem merged_keys_and_required_partial (E : Env) (hE : E.Fair) (hS : E.S.dict = .typedDict) (hm0 : 0 < E.S.merge)
    (ds : List Dct) (name : Str) (k : SeqKind) (ty : Ty) (n : Node) (strs : List Str) (hk : k ≠ .tuple) (hne : ds ≠ [])
    (hd : ∀ d ∈ ds, IsDict d) (hv : Regular E.U (.seq k ty (ds.map dictOf)))
    (hn : fromData E name (.seq k ty (ds.map dictOf)) = .ok n) (hs : nodeStrings E n false = .ok strs) :
    ∃ con t, containerFits k con = true ∧ (TDecl.mk name (.alias (.app con t))).print ∈ strs ∧
      (OneRecord strs t (inspected E.S ds) ∨ SeparateRecords strs t (inspected E.S ds)) := by
  obtain ⟨con, t, h1, h2, h3, _⟩ := dictSeq_text hE hS hm0 hk hne hd hv hn hs
  exact ⟨con, t, h1, h2, h3⟩

/-- Three dictionaries with the keys `a`, `b`; `b`, `c`; and `b`, `a`, `c`. -/
def sampleDicts : List Dct :=
  [[(py!"a", .inst .int none), (py!"b", .inst .str none)], [(py!"b", .inst .str none), (py!"c", .inst .int none)],
   [(py!"b", .inst .str none), (py!"a", .inst .int none), (py!"c", .inst .int none)]]

instance (d : Dct) : Decidable (IsDict d) := inferInstanceAs (Decidable (List.Nodup _))

example : (∀ d ∈ sampleDicts, IsDict d) ∧ inspected { checkMax := 2 } sampleDicts = sampleDicts.take 2 := by
  exact ⟨by decide +kernel, rfl⟩
example : allKeys sampleDicts = [py!"a", py!"b", py!"c"] ∧ commonKeys sampleDicts = [py!"b"] := by decide +kernel
example : declsOf (exEnv { merge := 33 }) py!"X" (.seq .list .list (sampleDicts.map dictOf)) =
    [recordText py!"XDict" false none [⟨py!"a", py!"NotRequired[int]", none⟩, ⟨py!"b", py!"str", none⟩,
      ⟨py!"c", py!"NotRequired[int]", none⟩], py!"X: TypeAlias = List[XDict]"] := by decide +kernel
example : declsOf (exEnv { merge := 34 }) py!"X" (.seq .list .list (sampleDicts.map dictOf)) =
    [recordText py!"XDict" false none [⟨py!"a", py!"int", none⟩, ⟨py!"b", py!"str", none⟩],
     recordText py!"XDict2" false none [⟨py!"b", py!"str", none⟩, ⟨py!"c", py!"int", none⟩],
     recordText py!"XDict3" false none [⟨py!"b", py!"str", none⟩, ⟨py!"a", py!"int", none⟩, ⟨py!"c", py!"int", none⟩],
     py!"X: TypeAlias = List[Union[XDict, XDict2, XDict3]]"] := by decide +kernel
instance (ds : List Dct) : Decidable (Spec.Agree ds) := inferInstanceAs (Decidable (∀ d ∈ ds, ∀ e ∈ ds, ∀ x ∈ d, ∀ y ∈ e, _))

example : Spec.Agree sampleDicts := by decide +kernel
example : Regular (exEnv {}).U (.seq .list .list (sampleDicts.map dictOf)) := plain_regular (by decide +kernel)

/-! ### Dictionaries in lists under a shared key -/

/-- The body of a declaration describes the dictionaries. -/
def Records (d : TDecl) (ds : List Dct) : Prop := ∃ f doc es, d.body = .record f doc es ∧ Describes es ds

/-- The same claim for dictionaries one level deeper: in a list of dictionaries which all have a list of dictionaries under
the key `l`, the inner dictionaries have one TypedDict that describes all of them, or one each. -/
def NestedMergeRule (E : Env) : Prop :=
  ∀ (dss : List (List Dct)) (name : Str) (n : Node) (strs : List Str) (decls : List TDecl), (∀ ds ∈ dss, ∀ d ∈ ds, IsDict d) →
    fromData E name (.seq .list .list (dss.map fun ds => dictOf [(py!"l", .seq .list .list (ds.map dictOf))])) = .ok n →
    nodeStrings E n false = .ok strs → readText strs = some decls →
    (∃ d ∈ decls, Records d dss.flatten) ∨ ∀ d ∈ dss.flatten, ∃ x ∈ decls, Records x [d]

/-- A list with one dictionary with the key `a`, and one with a dictionary with the keys `a` and `b`. -/
def grownList : List (List Dct) :=
  [[[(py!"a", .inst .int none)]], [[(py!"a", .inst .int none), (py!"b", .inst .int none)]]]

theorem grownList_text : ∃ n strs decls,
    fromData (exEnv {}) py!"X" (.seq .list .list (grownList.map fun ds => dictOf [(py!"l", .seq .list .list (ds.map dictOf))])) = .ok n ∧
    nodeStrings (exEnv {}) n false = .ok strs ∧ readText strs = some decls ∧
    decls = [⟨py!"XDictLDict", .record false none [⟨py!"a", true, false, .name py!"int", none⟩, ⟨py!"b", true, false, .name py!"int", none⟩]⟩,
      ⟨py!"XDictL", .alias (.app py!"List" (.name py!"XDictLDict"))⟩,
      ⟨py!"XDict", .record false none [⟨py!"l", true, false, .name py!"XDictL", none⟩]⟩,
      ⟨py!"X", .alias (.app py!"List" (.name py!"XDict"))⟩] := by
  have h : (match fromData (exEnv {}) py!"X" (.seq .list .list (grownList.map fun ds => dictOf [(py!"l", .seq .list .list (ds.map dictOf))])) with
      | .ok n => (match nodeStrings (exEnv {}) n false with
        | .ok strs => decide (strs =
            [recordText py!"XDictLDict" false none [⟨py!"a", py!"int", none⟩, ⟨py!"b", py!"int", none⟩],
             py!"XDictL: TypeAlias = List[XDictLDict]", recordText py!"XDict" false none [⟨py!"l", py!"XDictL", none⟩],
             py!"X: TypeAlias = List[XDict]"])
        | .error _ => false)
      | .error _ => false) = true := by decide +kernel
  split at h
  · rename_i n hn
    split at h
    · rename_i strs hs
      exact ⟨n, strs, _, hn, hs, by rw [of_decide_eq_true h]; rfl, rfl⟩
    · cases h
  · cases h

/-- **C30** is false below a shared key: when the outer dictionaries are merged, the list of one of them is taken for both,
and `b` becomes a required key although one inner dictionary lacks it. -/
theorem merged_keys_and_required_fails : ¬ NestedMergeRule (exEnv {}) := by
  intro h
  obtain ⟨n, strs, decls, h1, h2, h3, rfl⟩ := grownList_text
  have hall : allKeys grownList.flatten = [py!"a", py!"b"] := by decide +kernel
  have hcom : commonKeys grownList.flatten = [py!"a"] := by decide +kernel
  rcases h grownList py!"X" n strs _ (by decide +kernel) h1 h2 h3 with ⟨d, hd, f, doc, es, hb, hp, hr⟩ | h
  · simp only [List.mem_cons, List.not_mem_nil, or_false] at hd
    rw [hall] at hp
    rw [hcom] at hr
    rcases hd with rfl | rfl | rfl | rfl <;> cases hb
    · have := (hr ⟨py!"b", true, false, .name py!"int", none⟩ (by simp)).mp rfl
      simp at this
    · have := hp.length_eq
      simp at this
  · obtain ⟨d, hd, f, doc, es, hb, hp, hr⟩ := h [(py!"a", .inst .int none)] (List.mem_cons_self ..)
    rw [show allKeys [[(py!"a", Val.inst .int none)]] = [py!"a"] by decide +kernel] at hp
    simp only [List.mem_cons, List.not_mem_nil, or_false] at hd
    rcases hd with rfl | rfl | rfl | rfl <;> cases hb
    · have := hp.length_eq
      simp at this
    · have := hp.mem_iff (a := py!"a")
      simp at this

/-! ### The threshold -/

/-- The full statement of C32, for dictionaries in which the values of shared keys have the same class: they get one
TypedDict exactly if the share of common keys is at least the threshold. -/
def MergeRule (E : Env) (ok : List Dct → Prop) : Prop :=
  ∀ (ds : List Dct) (name : Str) (k : SeqKind) (ty : Ty) (n : Node) (strs : List Str), k ≠ .tuple → ds ≠ [] →
    (∀ d ∈ ds, IsDict d) → Regular E.U (.seq k ty (ds.map dictOf)) → Spec.Agree (inspected E.S ds) → ok (inspected E.S ds) →
    fromData E name (.seq k ty (ds.map dictOf)) = .ok n → nodeStrings E n false = .ok strs →
    ∃ con t, containerFits k con = true ∧ (TDecl.mk name (.alias (.app con t))).print ∈ strs ∧
      (E.S.merge * (allKeys (inspected E.S ds)).length ≤ 100 * (commonKeys (inspected E.S ds)).length → OneRecord strs t (inspected E.S ds)) ∧
      (100 * (commonKeys (inspected E.S ds)).length < E.S.merge * (allKeys (inspected E.S ds)).length → SeparateRecords strs t (inspected E.S ds))

theorem commonKeys_le (ds : List Dct) : (commonKeys ds).length ≤ (allKeys ds).length := List.length_filter_le ..

/-- The thresholds for which a share of exactly that many percent is not rounded down. -/
theorem exact_thresholds {p : Nat} (h : p ≤ 100) (hb : p ∉ [29, 57, 58]) : percentSimilarity p 100 = p := by
  have key : ∀ p : Fin 101, p.val ∉ [29, 57, 58] → percentSimilarity p.val 100 = p.val := by decide +kernel
  exact key ⟨p, by omega⟩ hb

/-- Whether the computed percentage reaches the threshold. -/
theorem percent_reaches {p c t : Nat} (hp0 : 0 < p) (hp : p ≤ 100) (hct : c ≤ t) (ht0 : 0 < t) (ht : t < 2 ^ 40)
    (hx : p ∉ [29, 57, 58] ∨ p * t ≠ 100 * c) : p ≤ percentSimilarity c t ↔ p * t ≤ 100 * c := by
  constructor
  · intro h
    have h1 := percent_le hct ht0 ht
    exact Nat.le_trans (Nat.mul_le_mul_right t h) h1
  · intro h
    by_cases he : p * t = 100 * c
    · have hb := hx.resolve_right (fun h => h he)
      have hc : 0 < c := by
        rcases Nat.eq_zero_or_pos c with rfl | h
        · have := Nat.mul_pos hp0 ht0; omega
        · exact h
      rw [percent_ratio hc hct hp0 hp (by omega), exact_thresholds hp hb]
      exact Nat.le_refl _
    · have h1 := percent_ge hct ht0 ht
      refine Nat.le_of_not_lt fun hlt => ?_
      have h2 : (percentSimilarity c t + 1) * t ≤ p * t := Nat.mul_le_mul_right t hlt
      omega

/-- **C32** for all thresholds except 29, 57 and 58, and for those three whenever the share is not exactly the threshold
(fewer than 2^40 keys). For threshold 100 it says that only dictionaries with the same keys are merged. -/
theorem merge_threshold_partial (E : Env) (hE : E.Fair) (hS : E.S.dict = .typedDict) (hm0 : 0 < E.S.merge) (hm : E.S.merge ≤ 100) :
    MergeRule E (fun ds => (allKeys ds).length < 2 ^ 40 ∧
      (E.S.merge ∉ [29, 57, 58] ∨ E.S.merge * (allKeys ds).length ≠ 100 * (commonKeys ds).length)) := by
  intro ds name k ty n strs hk hne hd hv hag ⟨hsize, hx⟩ hn hs
  obtain ⟨con, t, h1, h2, _, h3, h4, h5⟩ := dictSeq_text hE hS hm0 hk hne hd hv hn hs
  refine ⟨con, t, h1, h2, ?_, ?_⟩
  · intro h
    rcases Nat.eq_zero_or_pos (allKeys (inspected E.S ds)).length with h0 | h0
    · exact h3 (List.length_eq_zero_iff.mp h0)
    · exact h4 hag ((percent_reaches hm0 hm (commonKeys_le _) h0 hsize hx).mpr h)
  · intro h
    have h0 : 0 < (allKeys (inspected E.S ds)).length := by
      rcases Nat.eq_zero_or_pos (allKeys (inspected E.S ds)).length with h0 | h0
      · rw [h0] at h; omega
      · exact h0
    refine h5 hag (fun hp => ?_) (fun e => ?_)
    · have := (percent_reaches hm0 hm (commonKeys_le _) h0 hsize hx).mp hp
      omega
    · rw [e] at h
      have := Nat.mul_le_mul_right (allKeys (inspected E.S ds)).length hm
      omega

/-- Fifty keys. -/
def fifty : List Str := (py!"ABCDEFGHIJKLMNOPQRSTUVWXYZabcdefghijklmnopqrstuvwx").map (fun c => [c])

/-- A dictionary with fifty keys and one with 29 of them: 58 percent of the keys are common. -/
def nearlyAlike : List Dct := [fifty.map (fun k => (k, .inst .int none)), (fifty.take 29).map (fun k => (k, .inst .int none))]

theorem nearlyAlike_text : ∃ n, fromData (exEnv { merge := 58 }) py!"X" (.seq .list .list (nearlyAlike.map dictOf)) = .ok n ∧
    nodeStrings (exEnv { merge := 58 }) n false = .ok
      [recordText py!"XDict" false none (fifty.map fun k => ⟨k, py!"int", none⟩),
       recordText py!"XDict2" false none ((fifty.take 29).map fun k => ⟨k, py!"int", none⟩),
       py!"X: TypeAlias = List[Union[XDict, XDict2]]"] := by
  have h : (match fromData (exEnv { merge := 58 }) py!"X" (.seq .list .list (nearlyAlike.map dictOf)) with
      | .ok n => (match nodeStrings (exEnv { merge := 58 }) n false with
        | .ok strs => decide (strs = [recordText py!"XDict" false none (fifty.map fun k => ⟨k, py!"int", none⟩),
       recordText py!"XDict2" false none ((fifty.take 29).map fun k => ⟨k, py!"int", none⟩),
       py!"X: TypeAlias = List[Union[XDict, XDict2]]"])
        | .error _ => false)
      | .error _ => false) = true := by decide +kernel
  split at h
  · rename_i n hn
    split at h
    · rename_i strs hs
      exact ⟨n, hn, by rw [hs, of_decide_eq_true h]⟩
    · cases h
  · cases h

theorem nearlyAlike_inspected : inspected (exEnv { merge := 58 }).S nearlyAlike = nearlyAlike := inspected_all (.inr (by decide +kernel))

/-- **C32** is false as stated: with threshold 58, two dictionaries that share 29 of 50 keys are not merged, because
`int(100 * (29 / 50))` is 57 in floating-point arithmetic. -/
theorem merge_threshold_fails : ¬ MergeRule (exEnv { merge := 58 }) (fun _ => True) := by
  intro h
  obtain ⟨n, h1, h2⟩ := nearlyAlike_text
  obtain ⟨con, t, hc, ha, hone, _⟩ := h nearlyAlike py!"X" .list .list n _ (by decide) (by decide +kernel) (by decide +kernel)
    (plain_regular (by decide +kernel)) (by rw [nearlyAlike_inspected]; decide +kernel) trivial h1 h2
  rw [nearlyAlike_inspected] at hone
  obtain ⟨X, f, doc, es, rfl, hX, _⟩ := hone (by decide +kernel)
  have hcon : con = py!"List" ∨ con = py!"Sequence" := by
    simpa [containerFits] using hc
  have hrec : ∀ {m : Str} {es' : List RawEntry}, (TDecl.mk py!"X" (.alias (.app con (.name X)))).print ≠ recordText m false none es' := by
    intro m es' e
    simp [TDecl.print, recordText] at e
  simp only [List.mem_cons, List.not_mem_nil, or_false, hrec, false_or] at ha
  have hXe : X = py!"Union[XDict, XDict2]" := by
    rcases hcon with rfl | rfl
    · have : py!"X: TypeAlias = List[" ++ (X ++ py!"]") = py!"X: TypeAlias = List[" ++ (py!"Union[XDict, XDict2]" ++ py!"]") := by
        simpa [TDecl.print, TExpr.print] using ha
      exact List.append_cancel_right (List.append_cancel_left this)
    · simp [TDecl.print, TExpr.print] at ha
  subst hXe
  simp only [List.mem_cons, List.not_mem_nil, or_false] at hX
  rcases hX with e | e | e <;> cases f <;> simp [TDecl.print, recordText] at e

end Verif.Props
