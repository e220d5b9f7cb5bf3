import Verif.Lemmas.Rows
import Verif.Props.ClassName
import Verif.Props.Depth
import Verif.Props.Merge
import Verif.Props.Growing
/-
C100: the hint of a list of rows.
-/
namespace Verif.Props
open Verif Verif.Spec

/-- The full statement of C100, for rows with the property `P`. If the share of the keys that all rows have reaches the threshold, the
hint admits exactly the sequences of dictionaries that belong to the table of the rows. Otherwise it admits exactly the sequences in
which every element has the keys of one row. -/
def TableHint (E : Env) (P : Str → SeqKind → Ty → List Dct → Prop) : Prop :=
  ∀ name k t ds Γ, ¬ Placed E.S k → ds ≠ [] → (∀ d ∈ ds, IsRow d) → P name k t ds → Hint E name (.seq k t (ds.map dictOf)) Γ →
    (ShareReached E.S ds → ∀ w, Admits Γ (.name name) w ↔ SequenceOf E.S k (InTable ds) w) ∧
    (¬ ShareReached E.S ds → ∀ w, Admits Γ (.name name) w ↔ SequenceOf E.S k (fun e => ∃ d ∈ ds, InTable [d] e) w)

/-- Well-behaved rows with fewer than 2^40 keys. -/
def PlainRows (S : Strategies) (name : Str) (k : SeqKind) (t : Ty) (ds : List Dct) : Prop :=
  WellBehaved S name (.seq k t (ds.map dictOf)) ∧ (allKeys ds).length < 2 ^ 40

theorem rows_all_keys {S : Strategies} {ds : List Dct} (hne : ds ≠ []) (ht : RowTable S ds) : 0 < (allKeys ds).length := by
  obtain ⟨d, hd⟩ := List.exists_mem_of_ne_nil _ hne
  obtain ⟨kv, hkv⟩ := List.exists_mem_of_ne_nil _ (ht.rows d hd).2.1
  exact List.length_pos_of_mem ((ht.mem_all (fun _ h => h)).mpr ⟨d, hd, List.mem_map_of_mem hkv⟩)

/-- **C100** (partial). The hint of well-behaved rows admits exactly the tables described by the rows. Missing: the thresholds 29, 57 and
58, values that are `None` or not plain instances, and data that is not well-behaved. -/
theorem table_hint_partial {E : Env} (hE : E.Fair) (hA : E.isBuiltin py!"Any" = false) (hS : E.S.dict = .typedDict) (hm : 0 < E.S.merge)
    (hm1 : E.S.merge ≤ 100) (hx : E.S.merge ∉ [29, 57, 58]) : TableHint E (PlainRows E.S) := by
  intro name k t ds Γ hp hne hr ⟨hw, hsize⟩ hΓ
  have ht := coherent_table hS hr hw.coherent
  obtain ⟨n, hn, hmeans⟩ := hint_means hE hA hm hw hΓ
  obtain ⟨Γ', h1, _, h3, _⟩ := hint_sound_clear_partial hE hm hw
  cases hint_unique hΓ h1
  obtain ⟨a, b⟩ := rows_means hE hm hp hne ht hw.coherent (fromData_build hn) ((hmeans _).mp h3)
  have hiff := percent_reaches hm hm1 (commonKeys_le ds) (rows_all_keys hne ht) hsize (.inl hx)
  exact ⟨fun h w => (hmeans w).trans (a (hiff.mpr h) w), fun h w => (hmeans w).trans (b (fun h' => h (hiff.mp h')) w)⟩

/-! ### More rows -/

theorem inTable_more {S : Strategies} {ds ds' : List Dct} (ht : RowTable S ds') (hsub : ∀ d ∈ ds, d ∈ ds') {e : Val} (h : InTable ds e) :
    InTable ds' e := by
  obtain ⟨t, ks, vs, rfl, h1, h2, h3⟩ := h
  refine ⟨t, ks, vs, rfl, ?_, fun k hk => h2 k (fun d hd => hk d (hsub d hd)), ?_⟩
  · intro k hk
    obtain ⟨d, hd, h⟩ := h1 k hk
    exact ⟨d, hsub d hd, h⟩
  · intro kw hkw s c e hs
    obtain ⟨d, hd, h⟩ := h1 kw.1 (List.of_mem_zip (show (kw.1, kw.2) ∈ _ from hkw)).1
    obtain ⟨kv, hkv, e'⟩ := List.mem_map.mp h
    rw [e] at e'
    obtain ⟨c', x, ev, _, hc⟩ := ht.entered (hsub d hd) (s := kv.1) (v := kv.2) hkv
    injection e' with e'
    rw [e'] at hc
    cases ht.class_eq hs hc
    exact h3 kw hkw s c e ⟨d, hd, x, by rw [← ev, ← e']; exact hkv⟩

/-- **C98** (partial). More rows never narrow the hint if together they share enough keys to be merged, whether or not the first ones
are. -/
theorem more_rows_partial {E : Env} (hE : E.Fair) (hA : E.isBuiltin py!"Any" = false) (hS : E.S.dict = .typedDict) (hm : 0 < E.S.merge)
    (hm1 : E.S.merge ≤ 100) (hx : E.S.merge ∉ [29, 57, 58]) {name : Str} {k : SeqKind} {t t' : Ty} {ds more : List Dct} {Γ Δ : List TDecl}
    (hp : ¬ Placed E.S k) (hne : ds ≠ []) (hr : ∀ d ∈ ds ++ more, IsRow d) (h : PlainRows E.S name k t ds)
    (h' : PlainRows E.S name k t' (ds ++ more)) (hs : ShareReached E.S (ds ++ more)) (hΓ : Hint E name (.seq k t (ds.map dictOf)) Γ)
    (hΔ : Hint E name (.seq k t' ((ds ++ more).map dictOf)) Δ) : ∀ w, Admits Γ (.name name) w → Admits Δ (.name name) w := by
  intro w hw
  have ht := coherent_table hS hr h'.1.coherent
  have a := table_hint_partial hE hA hS hm hm1 hx name k t ds Γ hp hne (fun d hd => hr d (by simp [hd])) h hΓ
  have b := table_hint_partial hE hA hS hm hm1 hx name k t' (ds ++ more) Δ hp (by simp [hne]) hr h' hΔ
  refine (b.1 hs w).mpr ?_
  by_cases hds : ShareReached E.S ds
  · obtain ⟨k', t2, es, e, h1, h2⟩ := (a.1 hds w).mp hw
    exact ⟨k', t2, es, e, h1, fun x hx => inTable_more ht (fun d hd => by simp [hd]) (h2 x hx)⟩
  · obtain ⟨k', t2, es, e, h1, h2⟩ := (a.2 hds w).mp hw
    refine ⟨k', t2, es, e, h1, fun x hx => ?_⟩
    obtain ⟨d, hd, h⟩ := h2 x hx
    exact inTable_more ht (fun d' hd' => by rw [List.mem_singleton.mp hd']; simp [hd]) h

/-! ### Rows for which the claim is false -/

theorem isRow_of {d : Dct} (h : (d.map (·.1)).Nodup) (hne : d ≠ []) (hv : ∀ kv ∈ d, kv.2 = .inst .int none ∨ kv.2 = .inst .str none ∨
    kv.2 = .inst .float none) : IsRow d := by
  refine ⟨h, hne, fun kv hkv => ?_⟩
  rcases hv kv hkv with e | e | e
  · exact ⟨.int, none, e, by decide⟩
  · exact ⟨.str, none, e, by decide⟩
  · exact ⟨.float, none, e, by decide⟩

/-- A dictionary with forty keys, among them those that both of `nearlyAlike` have. -/
def fortyKeys : Dct := (fifty.take 40).map fun k => (k, .inst .int none)

/-- **C100** is false as stated for the threshold 58, because the share is rounded down: two rows that share 29 of 50 keys are not merged. -/
theorem table_hint_fails : ¬ TableHint (exEnv { merge := 58 }) (fun _ _ _ _ => True) := by
  intro h
  obtain ⟨Γ, h1, h2⟩ := rejects_spec (E := exEnv { merge := 58 }) (name := py!"X") (v := .seq .list .list (nearlyAlike.map dictOf))
    (w := .seq .list .list [dictOf fortyKeys]) (by decide +kernel)
  refine h2 (((h _ .list .list nearlyAlike Γ (fun h => by cases h.1) (by decide +kernel) ?_ trivial h1).1 ?_ _).mpr ?_)
  · intro d hd
    refine isRow_of ?_ ?_ (fun kv hkv => .inl ?_)
    · revert d; decide +kernel
    · revert d; decide +kernel
    · simp only [nearlyAlike, List.mem_cons, List.not_mem_nil, or_false] at hd
      rcases hd with rfl | rfl <;> (obtain ⟨_, _, rfl⟩ := List.mem_map.mp hkv; rfl)
  · show 58 * (allKeys nearlyAlike).length ≤ 100 * (commonKeys nearlyAlike).length
    decide +kernel
  · refine ⟨.list, .list, _, rfl, .inl rfl, fun e he => ?_⟩
    rw [List.mem_singleton.mp he]
    refine ⟨_, _, _, rfl, ?_, ?_, ?_⟩
    · intro k hk
      refine ⟨_, List.mem_cons_self, ?_⟩
      revert k
      decide +kernel
    · intro k hk
      have : k ∈ ((fifty.take 29).map fun k => (k, Val.inst .int none)).map (fun kv => Key.str kv.1) := hk _ (by simp [nearlyAlike])
      revert k
      have key : ∀ k ∈ ((fifty.take 29).map fun k => (k, Val.inst .int none)).map (fun kv => Key.str kv.1),
          k ∈ fortyKeys.map (fun kv => Key.str kv.1) := by decide +kernel
      exact fun k _ h => key k h
    · intro kw hkw s c _ hs
      obtain ⟨d, hd, x, hx⟩ := hs
      have hc : c = .int := by
        simp only [nearlyAlike, List.mem_cons, List.not_mem_nil, or_false] at hd
        rcases hd with rfl | rfl <;>
          (obtain ⟨_, _, e⟩ := List.mem_map.mp hx; injection e with _ e; injection e with e; exact e.symm)
      have hv : kw.2 = .inst .int none := by
        have := (List.of_mem_zip (show (kw.1, kw.2) ∈ _ from hkw)).2
        obtain ⟨kv, hkv, e⟩ := List.mem_map.mp this
        obtain ⟨_, _, rfl⟩ := List.mem_map.mp hkv
        exact e.symm
      rw [hc, hv]
      exact Admits.cls (Γ := []) (.inst .int none) (by simp [Declared])

/-- `[{"a": 1}, {"a": "x"}]`. -/
def mixedColumn : List Dct := [[(py!"a", .inst .int none)], [(py!"a", .inst .str none)]]

example : declsOf (exEnv {}) py!"X" (.seq .list .list (mixedColumn.map dictOf)) =
    [recordText py!"XDict" false none [⟨py!"a", py!"int", none⟩], recordText py!"XDict2" false none [⟨py!"a", py!"str", none⟩],
     py!"X: TypeAlias = List[Union[XDict, XDict2]]"] := by
  decide +kernel

/-- **C100** is false as stated for rows that have values of different classes under one key: these are not merged, whatever they share. -/
theorem table_hint_mixed_fails : ¬ TableHint (exEnv {}) (fun _ _ _ _ => True) := by
  intro h
  obtain ⟨Γ, h1, h2⟩ := accepts_spec (E := exEnv {}) (name := py!"X") (v := .seq .list .list (mixedColumn.map dictOf))
    (w := .seq .list .list [dictOf [(py!"a", .inst .str none)]]) (by decide +kernel)
  obtain ⟨_, _, _, e, _, hw⟩ := ((h _ .list .list mixedColumn Γ (fun h => by cases h.1) (by decide) (by
    intro d hd
    refine isRow_of ?_ ?_ ?_
    · revert d; decide +kernel
    · revert d; decide +kernel
    · intro kv hkv
      simp only [mixedColumn, List.mem_cons, List.not_mem_nil, or_false] at hd
      rcases hd with rfl | rfl <;> (rw [List.mem_singleton.mp hkv]; simp)) trivial h1).1 (by
    show 50 * (allKeys mixedColumn).length ≤ 100 * (commonKeys mixedColumn).length
    decide +kernel) _).mp h2
  cases e
  obtain ⟨_, _, _, e, _, _, hz⟩ := hw _ List.mem_cons_self
  cases e
  have := hz (.str py!"a", .inst .str none) (by simp) py!"a" .int rfl ⟨_, List.mem_cons_self, none, by simp⟩
  generalize ht : TExpr.name Ty.int.name = t at this
  generalize hv : Val.inst Ty.str none = v at this
  cases this with
  | cls _ _ => subst hv; revert ht; simp [Val.ty, Ty.int, Ty.str]
  | alias hd => simp [Defines] at hd
  | any => revert ht; simp [Ty.int]
  | promote => revert ht; simp [Ty.int]
  | function => cases hv
  | _ => first | (cases ht; done) | (cases hv; done)

/-! ### Rows that meet the hypotheses -/

/-- `[{"id": 1, "name": "x"}, {"id": 1, "name": "x", "age": 1.5}]`. -/
def userRows : List Dct := [[(py!"id", .inst .int none), (py!"name", .inst .str none)],
  [(py!"id", .inst .int none), (py!"name", .inst .str none), (py!"age", .inst .float none)]]

/-- `[…, {"name": "x", "age": 1.5}]`. -/
def moreUsers : List Dct := [[(py!"name", .inst .str none), (py!"age", .inst .float none)]]

example : declsOf (exEnv {}) py!"Users" (.seq .list .list (userRows.map dictOf)) =
    [recordText py!"UsersDict" false none [⟨py!"id", py!"int", none⟩, ⟨py!"name", py!"str", none⟩, ⟨py!"age", py!"NotRequired[float]", none⟩],
     py!"Users: TypeAlias = List[UsersDict]"] := by
  decide +kernel

theorem userRows_ok : PlainRows {} py!"Users" .list .list userRows := ⟨wellBehavedB_sound (f := 10) (by decide +kernel), by decide +kernel⟩

theorem moreUsers_ok : PlainRows { merge := 30 } py!"Users" .list .list (userRows ++ moreUsers) :=
  ⟨wellBehavedB_sound (f := 10) (by decide +kernel), by decide +kernel⟩

theorem userRows_ok' : PlainRows { merge := 30 } py!"Users" .list .list userRows :=
  ⟨wellBehavedB_sound (f := 10) (by decide +kernel), by decide +kernel⟩

theorem userRows_rows : ∀ d ∈ userRows ++ moreUsers, IsRow d := by
  intro d hd
  simp only [userRows, moreUsers, List.cons_append, List.nil_append, List.mem_cons, List.not_mem_nil, or_false] at hd
  rcases hd with rfl | rfl | rfl
  · exact isRow_of (by decide +kernel) (by simp) (by simp)
  · exact isRow_of (by decide +kernel) (by simp) (by simp)
  · exact isRow_of (by decide +kernel) (by simp) (by simp)

/-- The rows are merged. -/
example : ShareReached {} userRows := by
  show 50 * (allKeys userRows).length ≤ 100 * (commonKeys userRows).length
  decide +kernel

/-- With the third row and the default threshold they are not. -/
example : ¬ ShareReached {} (userRows ++ moreUsers) := by
  show ¬ 50 * (allKeys (userRows ++ moreUsers)).length ≤ 100 * (commonKeys (userRows ++ moreUsers)).length
  decide +kernel

example : ∃ Γ, Hint (exEnv {}) py!"Users" (.seq .list .list (userRows.map dictOf)) Γ ∧
    (∀ w, Admits Γ (.name py!"Users") w ↔ SequenceOf {} .list (InTable userRows) w) ∧
    ¬ Admits Γ (.name py!"Users") (.seq .list .list [dictOf [(py!"id", .inst .int none)]]) := by
  obtain ⟨Γ, h1, h2⟩ := rejects_spec (E := exEnv {}) (name := py!"Users") (v := .seq .list .list (userRows.map dictOf))
    (w := .seq .list .list [dictOf [(py!"id", .inst .int none)]]) (by decide +kernel)
  refine ⟨Γ, h1, (table_hint_partial (exEnv_fair {}) (by decide +kernel) rfl (by decide) (by decide) (by decide) _ .list .list userRows Γ
    (fun h => by cases h.1) (by simp [userRows]) (fun d hd => userRows_rows d (by simp [hd])) userRows_ok h1).1 ?_, h2⟩
  show 50 * (allKeys userRows).length ≤ 100 * (commonKeys userRows).length
  decide +kernel

/-- With the threshold 30 the third row makes the hint wider. -/
example : ∃ Γ Δ, Hint (exEnv { merge := 30 }) py!"Users" (.seq .list .list (userRows.map dictOf)) Γ ∧
    Hint (exEnv { merge := 30 }) py!"Users" (.seq .list .list ((userRows ++ moreUsers).map dictOf)) Δ ∧
    (∀ w, Admits Γ (.name py!"Users") w → Admits Δ (.name py!"Users") w) ∧
    ∃ w, Admits Δ (.name py!"Users") w ∧ ¬ Admits Γ (.name py!"Users") w := by
  obtain ⟨Γ, h1, h2⟩ := rejects_spec (E := exEnv { merge := 30 }) (name := py!"Users") (v := .seq .list .list (userRows.map dictOf))
    (w := .seq .list .list (moreUsers.map dictOf)) (by decide +kernel)
  obtain ⟨Δ, h3, h4⟩ := accepts_spec (E := exEnv { merge := 30 }) (name := py!"Users")
    (v := .seq .list .list ((userRows ++ moreUsers).map dictOf)) (w := .seq .list .list (moreUsers.map dictOf)) (by decide +kernel)
  refine ⟨Γ, Δ, h1, h3, more_rows_partial (exEnv_fair _) (by decide +kernel) rfl (by decide) (by decide) (by decide) (fun h => by cases h.1)
    (by simp [userRows]) userRows_rows userRows_ok' moreUsers_ok ?_ h1 h3, _, h4, h2⟩
  show 30 * (allKeys (userRows ++ moreUsers)).length ≤ 100 * (commonKeys (userRows ++ moreUsers)).length
  decide +kernel

end Verif.Props
