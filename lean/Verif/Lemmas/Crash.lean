import Verif.Lemmas.Live
/-
Stubs that are cut off.
-/
namespace Verif
open Verif.Spec

/-! ### Lines of a text that is cut off -/

theorem splitlinesAux_head : ∀ (s cur : Str), cur ≠ [] → ∃ x ∈ splitlinesAux cur s, cur.reverse <+: x := by
  intro s cur
  fun_induction splitlinesAux cur s with
  | case1 cur h => intro hc; simp at h; exact absurd h hc
  | case2 cur h => intro _; exact ⟨_, by simp, List.prefix_refl _⟩
  | case3 cur r ih => intro _; exact ⟨_, by simp, List.prefix_refl _⟩
  | case4 cur c r h hb ih => intro _; exact ⟨_, by simp, List.prefix_refl _⟩
  | case5 cur c r h hb ih =>
    intro _
    obtain ⟨x, hx, hp⟩ := ih (by simp)
    refine ⟨x, hx, ?_⟩
    rw [List.reverse_cons] at hp
    exact (List.prefix_append _ _).trans hp

theorem splitlinesAux_prefix : ∀ (t cur s : Str), t <+: s → ∀ e ∈ splitlinesAux cur t, ∃ x ∈ splitlinesAux cur s, e <+: x := by
  intro t cur
  fun_induction splitlinesAux cur t with
  | case1 cur h => intro s _ e he; cases he
  | case2 cur h =>
    intro s _ e he
    rw [List.mem_singleton.mp he]
    exact splitlinesAux_head s cur (by simpa using h)
  | case3 cur r ih =>
    intro s hs e he
    obtain ⟨s', rfl⟩ := hs
    simp only [List.cons_append, splitlinesAux]
    rcases List.mem_cons.mp he with rfl | he
    · exact ⟨_, by simp, List.prefix_refl _⟩
    · obtain ⟨x, hx, hp⟩ := ih (r ++ s') (List.prefix_append _ _) e he
      exact ⟨x, by simp [hx], hp⟩
  | case4 cur c r h hb ih =>
    intro s hs e he
    obtain ⟨s', rfl⟩ := hs
    by_cases hrn : c = '\r' ∧ ∃ q, r ++ s' = '\n' :: q
    · obtain ⟨rfl, q, hq⟩ := hrn
      cases r with
      | nil =>
        have hq' : s' = '\n' :: q := hq
        subst hq'
        simp only [splitlinesAux] at he
        have : e = cur.reverse := by simpa using he
        subst this
        refine ⟨cur.reverse, ?_, List.prefix_refl _⟩
        simp [splitlinesAux]
      | cons a r =>
        simp only [List.cons_append, List.cons.injEq] at hq
        obtain ⟨rfl, _⟩ := hq
        exact absurd rfl (h r rfl)
    · have hs : splitlinesAux cur (c :: r ++ s') = cur.reverse :: splitlinesAux [] (r ++ s') := by
        rw [List.cons_append, splitlinesAux.eq_3]
        · simp [hb]
        · intro q hc hq
          exact hrn ⟨hc, q, hq⟩
      rw [hs]
      rcases List.mem_cons.mp he with rfl | he
      · exact ⟨_, by simp, List.prefix_refl _⟩
      · obtain ⟨x, hx, hp⟩ := ih (r ++ s') (List.prefix_append _ _) e he
        exact ⟨x, by simp [hx], hp⟩
  | case5 cur c r h hb ih =>
    intro s hs e he
    obtain ⟨s', rfl⟩ := hs
    have hs : splitlinesAux cur (c :: r ++ s') = splitlinesAux (c :: cur) (r ++ s') := by
      rw [List.cons_append, splitlinesAux.eq_3]
      · simp [hb]
      · intro q hc _
        subst hc
        exact hb (by decide)
    rw [hs]
    exact ih (r ++ s') (List.prefix_append _ _) e he

/-- The lines of a text that is cut off are lines of the text, possibly cut off. -/
theorem splitlines_prefix {t s : Str} (h : t <+: s) : ∀ e ∈ splitlines t, ∃ x ∈ splitlines s, e <+: x := splitlinesAux_prefix t [] s h

theorem contains_append_left {kw p : Str} (h : contains kw p = true) (y : Str) : contains kw (p ++ y) = true := by
  induction p with
  | nil =>
    have : kw = [] := by simpa [contains] using h
    subst this
    cases y <;> simp [contains, List.isPrefixOf]
  | cons c p ih =>
    simp only [contains, Bool.or_eq_true, List.cons_append] at h ⊢
    rcases h with h | h
    · left
      rw [List.isPrefixOf_iff_prefix] at h ⊢
      rw [← List.cons_append]
      exact h.trans (List.prefix_append _ _)
    · exact .inr (ih h)

theorem find_le {kw : Str} : ∀ {p : Str} {i : Nat}, find kw p = some i → i + kw.length ≤ p.length
  | [], i, h => by
    simp only [find] at h
    split at h
    · rename_i hk
      cases h
      simp_all
    · cases h
  | c :: p, i, h => by
    simp only [find] at h
    split at h
    · rename_i hk
      cases h
      rw [List.isPrefixOf_iff_prefix] at hk
      simpa using hk.length_le
    · cases hf : find kw p with
      | none => rw [hf] at h; cases h
      | some j =>
        rw [hf] at h
        cases h
        have := find_le hf
        simp only [List.length_cons]
        omega

theorem find_append_left {kw : Str} (y : Str) : ∀ {p : Str} {i : Nat}, find kw p = some i → find kw (p ++ y) = some i
  | [], i, h => by
    simp only [find] at h
    split at h
    · rename_i hk
      cases h
      have : kw = [] := by simpa using hk
      subst this
      cases y <;> simp [find, List.isPrefixOf]
    · cases h
  | c :: p, i, h => by
    have hle := find_le h
    simp only [find, List.cons_append] at h ⊢
    by_cases hk : kw.isPrefixOf (c :: p) = true
    · rw [if_pos hk] at h
      have : kw.isPrefixOf (c :: (p ++ y)) = true := by
        rw [List.isPrefixOf_iff_prefix] at hk ⊢
        rw [← List.cons_append]
        exact hk.trans (List.prefix_append _ _)
      rw [if_pos this]; exact h
    · rw [if_neg hk] at h
      have : ¬ kw.isPrefixOf (c :: (p ++ y)) = true := by
        intro h'
        apply hk
        rw [List.isPrefixOf_iff_prefix] at h' ⊢
        rw [← List.cons_append] at h'
        exact List.prefix_of_prefix_length_le h' (List.prefix_append _ _) (by omega)
      rw [if_neg this]
      cases hf : find kw p with
      | none => rw [hf] at h; cases h
      | some j =>
        rw [hf] at h
        rw [find_append_left y hf]
        exact h

theorem contains_find {kw : Str} : ∀ {p : Str}, contains kw p = true → ∃ i, find kw p = some i
  | [], h => ⟨0, by simp only [contains] at h; simp [find, h]⟩
  | c :: p, h => by
    simp only [contains, Bool.or_eq_true] at h
    simp only [find]
    by_cases hk : kw.isPrefixOf (c :: p) = true
    · exact ⟨0, by rw [if_pos hk]⟩
    · rw [if_neg hk]
      obtain ⟨i, hi⟩ := contains_find (h.resolve_left hk)
      exact ⟨i + 1, by rw [hi]; rfl⟩

/-- Cutting off does not create an assignment. -/
theorem quiet_prefix {x p : Str} (h : Quiet x) (hp : p <+: x) : Quiet p := by
  obtain ⟨y, rfl⟩ := hp
  unfold Quiet at h ⊢
  cases hq : isAssignment py!"classes_created" p with
  | false => rfl
  | true =>
    exfalso
    have : isAssignment py!"classes_created" (p ++ y) = true := by
      unfold isAssignment itIsString textBefore at hq ⊢
      simp only [Bool.and_eq_true] at hq ⊢
      obtain ⟨⟨h1, h2⟩, h3⟩ := hq
      obtain ⟨i, hi⟩ := contains_find h1
      have hle := find_le hi
      rw [hi] at h3
      refine ⟨⟨contains_append_left h1 y, ?_⟩, ?_⟩
      · simp only [List.contains_iff_mem] at h2 ⊢
        exact List.mem_append_left _ h2
      · rw [find_append_left y hi]
        simp only at h3 ⊢
        rw [List.take_append_of_le_length (by omega)]
        exact h3
    rw [h] at this
    cases this

/-! ### A registry that is cut off -/

theorem quotedNames_none {k : Nat} : ∀ {p : Str} (_ : '"' ∉ p), quotedNames k p = [] := by
  intro p
  induction p generalizing k with
  | nil => intro _; cases k <;> rfl
  | cons c p ih =>
    intro h
    simp only [List.mem_cons, not_or] at h
    cases k with
    | zero => rw [quotedNames, if_neg (Ne.symm h.1)]; exact ih h.2
    | succ k => rw [quotedNames]; exact ih h.2

theorem first_quote {p : Str} (hq : '"' ∈ p) : ∃ a b, p = a ++ '"' :: b ∧ '"' ∉ a := by
  induction p with
  | nil => cases hq
  | cons c p ih =>
    by_cases hc : c = '"'
    · exact ⟨[], p, by rw [hc]; rfl, by simp⟩
    · obtain ⟨a, b, rfl, ha⟩ := ih ((List.mem_cons.mp hq).resolve_left (Ne.symm hc))
      exact ⟨c :: a, b, rfl, by simp [ha, Ne.symm hc]⟩

/-- The names in a text that is cut off. -/
theorem quotedNames_prefix : ∀ (p s : Str) (k : Nat), '\n' ∉ s → p <+: s → ∀ x ∈ quotedNames k p, x ∈ quotedNames k s := by
  intro p
  induction p with
  | nil => intro s k _ _ x hx; cases k <;> cases hx
  | cons c p ih =>
    intro s k hn hp x hx
    obtain ⟨y, rfl⟩ := hp
    have hn' : '\n' ∉ p ++ y := fun h => hn (by rw [List.cons_append]; exact List.mem_cons_of_mem _ h)
    have hp' : p <+: p ++ y := List.prefix_append _ _
    cases k with
    | succ k =>
      rw [List.cons_append]
      rw [quotedNames] at hx ⊢
      exact ih _ k hn' hp' x hx
    | zero =>
      rw [List.cons_append]
      by_cases hc : c = '"'
      · subst hc
        by_cases hq : '"' ∈ p
        · -- closed
          have hpn : '\n' ∉ p := fun h => hn' (List.mem_append_left _ h)
          obtain ⟨a, b, rfl, ha⟩ := first_quote hq
          have hw : ∀ z, (a ++ '"' :: z).takeWhile (fun x => x != '"' && x != '\n') = a := by
            intro z
            rw [List.takeWhile_append_of_pos, List.takeWhile_cons_of_neg (by decide), List.append_nil]
            intro u hu
            have e1 : u ≠ '"' := fun e => ha (e ▸ hu)
            have e2 : u ≠ '\n' := fun e => hpn (List.mem_append_left _ (e ▸ hu))
            simp [e1, e2]
          have e : a ++ '"' :: b ++ y = a ++ '"' :: (b ++ y) := by simp
          rw [quotedNames] at hx ⊢
          simp only [if_true, hw, e, List.drop_left] at hx ⊢
          rcases List.mem_cons.mp hx with rfl | hx
          · exact List.mem_cons_self
          · refine List.mem_cons_of_mem _ ?_
            have := ih (a ++ '"' :: b ++ y) (a.length + 1) hn' hp' x hx
            rw [e] at this
            exact this
        · -- not closed
          have : quotedNames 0 ('"' :: p) = [] := by
            rw [quotedNames]
            simp only [if_true]
            split
            · rename_i r hr
              exfalso
              apply hq
              exact List.mem_of_mem_drop (i := (List.takeWhile (fun x => x != '"' && x != '\n') p).length) (by rw [hr]; simp)
            · exact quotedNames_none hq
          rw [this] at hx
          cases hx
      · rw [quotedNames, if_neg hc] at hx ⊢
        exact ih _ 0 hn' hp' x hx

/-- What a line says about the registry. -/
def NamesIn (cs : List Str) (e : Str) : Prop := Quiet e ∨ ∀ v, assignedValue e = .ok v → ∀ x ∈ (if v = py!"Any" then [] else quotedNames 0 v), x ∈ cs

theorem registered_namesIn {cs L : List Str} (h : ∀ e ∈ L, NamesIn cs e) {names : List Str} (hr : registered L = .ok names) : ∀ x ∈ names, x ∈ cs := by
  unfold registered searchAssignment at hr
  have key : ∀ (L : List Str) (i j : Nat) (v : Str) (r : List (Nat × Str)), (∀ e ∈ L, NamesIn cs e) →
      searchAssignmentFrom py!"classes_created" i L = .ok ((j, v) :: r) → ∀ x ∈ (if v = py!"Any" then [] else quotedNames 0 v), x ∈ cs := by
    intro L
    induction L with
    | nil => intro i j v r _ h; cases h
    | cons e L ih =>
      intro i j v r hL h
      rw [searchAssignmentFrom] at h
      split at h
      · rename_i ha
        split at h
        · cases h
        · rename_i v' hv'
          cases hs : searchAssignmentFrom py!"classes_created" (i + 1) L with
          | error e => rw [hs] at h; cases h
          | ok l =>
            rw [hs] at h
            simp only [Except.map, Except.ok.injEq, List.cons.injEq, Prod.mk.injEq] at h
            obtain ⟨⟨_, rfl⟩, _⟩ := h
            rcases hL e (by simp) with hq | hq
            · rw [hq] at ha; cases ha
            · exact hq v' hv'
      · exact ih (i + 1) j v r (fun e he => hL e (by simp [he])) h
  split at hr
  · cases hr
  · cases hr
  · rename_i j v r hs
    cases hr
    exact key L 0 j v r h hs

section
variable {U : Uni}

theorem rstrip_prefix (w : Str) : rstrip w <+: w := by
  unfold rstrip
  have := List.dropWhile_suffix (l := w.reverse) isSpace
  rw [← List.reverse_prefix, List.reverse_reverse] at this
  exact this

theorem strip_prefix {pad val w : Str} (hpad : ∀ c ∈ pad, isSpace c = true) (hval : ∀ c r, val = c :: r → isSpace c = false)
    (h : w <+: pad ++ val) : strip w <+: val := by
  unfold strip
  refine (rstrip_prefix _).trans ?_
  induction pad generalizing w with
  | nil =>
    rw [List.nil_append] at h
    cases w with
    | nil => exact List.nil_prefix
    | cons c w =>
      obtain ⟨y, rfl⟩ := h
      have := hval c _ rfl
      simp [lstrip, List.dropWhile, this]
  | cons d pad ih =>
    cases w with
    | nil => exact List.nil_prefix
    | cons c w =>
      rw [List.cons_append, List.cons_prefix_cons] at h
      obtain ⟨rfl, h⟩ := h
      have : lstrip (c :: w) = lstrip w := by simp [lstrip, List.dropWhile, hpad c (by simp)]
      rw [this]
      exact ih (fun c hc => hpad c (by simp [hc])) h

theorem registryLine_cut {cs : List Str} (hcs : ∀ c ∈ cs, ClassName U c) {p : Str} (hp : p <+: registryLine cs) : NamesIn cs p := by
  by_cases he : '=' ∈ p
  · right
    intro v hv
    rw [registryLine_split] at hp
    -- the text after the sign
    obtain ⟨w, rfl, hw⟩ : ∃ w, p = py!"    classes_created: 'TypeAlias' " ++ '=' :: w ∧ w <+: (if cs = [] then py!" " else []) ++ registryValue cs := by
      have key : ∀ (a p z : Str), '=' ∉ a → '=' ∈ p → p <+: a ++ '=' :: z → ∃ w, p = a ++ '=' :: w ∧ w <+: z := by
        intro a
        induction a with
        | nil =>
          intro p z _ he hp
          cases p with
          | nil => cases he
          | cons c p =>
            rw [List.nil_append, List.cons_prefix_cons] at hp
            obtain ⟨rfl, hp⟩ := hp
            exact ⟨p, rfl, hp⟩
        | cons d a ih =>
          intro p z ha he hp
          cases p with
          | nil => cases he
          | cons c p =>
            rw [List.cons_append, List.cons_prefix_cons] at hp
            obtain ⟨rfl, hp⟩ := hp
            simp only [List.mem_cons, not_or] at ha
            obtain ⟨w, rfl, hw⟩ := ih p z ha.2 ((List.mem_cons.mp he).resolve_left ha.1) hp
            exact ⟨w, rfl, hw⟩
      exact key _ p _ (by decide) he hp
    have hfree : '=' ∉ w := by
      intro hm
      have := hw.subset hm
      simp only [List.mem_append] at this
      rcases this with h | h
      · split at h <;> revert h <;> decide
      · exact registryValue_not hcs (by decide) (by decide) (by decide) (by decide) h
    have hsp : strip w <+: registryValue cs := by
      refine strip_prefix ?_ ?_ hw
      · split <;> decide
      · intro c r h
        cases cs with
        | nil =>
          have : c = 'A' := by
            have := congrArg List.head? h
            simp [registryValue] at this
            exact this.symm
          subst this; decide
        | cons a cs =>
          have : c = 'U' := by
            have := congrArg List.head? h
            simp [registryValue] at this
            exact this.symm
          subst this; decide
    unfold assignedValue at hv
    rw [splitChar_append_sep (by decide), splitChar_free hfree] at hv
    simp only [List.getLastD_cons, List.getLastD_nil] at hv
    have hv' : v = strip w := by
      split at hv
      · cases hv
      · rename_i c r hcr
        have hnq : ¬ (c = '\'' ∨ c = '"') := by
          have hc : (registryValue cs).head? = some c := by
            obtain ⟨z, hz⟩ := hsp
            rw [← hz, hcr]; rfl
          cases cs with
          | nil =>
            have : c = 'A' := by simpa [registryValue] using hc.symm
            subst this; decide
          | cons a cs =>
            have : c = 'U' := by simpa [registryValue] using hc.symm
            subst this; decide
        simp only [if_neg hnq] at hv
        cases hv; rfl
    subst hv'
    intro x hx
    split at hx
    · cases hx
    · have := quotedNames_prefix _ _ 0 (registryValue_not hcs) hsp x hx
      cases cs with
      | nil => exact this
      | cons a cs =>
        have hq := quotedNames_registry hcs
        rw [if_neg (by intro h; cases h)] at hq
        rw [hq] at this
        exact this
  · exact .inl (quiet_of_noEq he)

theorem stub_elements {cs is ys ds L : List Str} (h : IsStub U cs is ys ds L) : ∀ e ∈ L, Quiet e ∨ e = registryLine cs := by
  obtain ⟨A, B, rfl, hA, hB, _⟩ := stub_parts h
  intro e he
  rcases List.mem_append.mp he with he | he
  · exact .inl (hA e he)
  · rcases List.mem_cons.mp he with rfl | he
    · exact .inr rfl
    · exact .inl (hB e he)

/-- The names in a stub that is cut off are names of the stub. -/
theorem stub_cut {cs is ys ds L : List Str} (h : IsStub U cs is ys ds L) {t : Str} (ht : t <+: join py!"\n" L) {names : List Str}
    (hr : registered (splitlines t) = .ok names) : ∀ x ∈ names, x ∈ cs := by
  refine registered_namesIn ?_ hr
  intro e he
  obtain ⟨x, hx, hp⟩ := splitlines_prefix ht e he
  rcases stub_elements (reload_stub h) x hx with hq | rfl
  · exact .inl (quiet_prefix hq hp)
  · exact registryLine_cut h.1 hp

/-! ### Any history -/

/-- Generators may be outdated, but every class in the stub has its file. -/
structure SaneWorld (E : Env) (w : World) : Prop where
  gens : ∀ i g, w.gens i = some g → ∃ cs, Complete E.U cs g.lines
  disk : ∀ text, w.disk.pyi = some text → ∃ cs, Complete E.U cs (splitlines text) ∧ ∀ x ∈ cs, (w.disk.files x).isSome

theorem sane_empty (E : Env) : SaneWorld E World.empty := ⟨fun _ _ h => (by cases h), fun _ h => (by cases h)⟩

theorem newLive_sane {E : Env} {w : World} (h : SaneWorld E w) {S : Strategies} {mode : Mode} {g : Live} (hg : newLive S mode w.disk = .ok g) :
    ∃ cs, Complete E.U cs g.lines ∧ ∀ x ∈ cs, (w.disk.files x).isSome := by
  unfold newLive at hg
  split at hg
  · rename_i text ht
    cases hg
    exact h.disk text ht
  · obtain ⟨L, h1, h2⟩ := generateStub_complete E.U
    rw [h1] at hg
    cases hg
    exact ⟨[], h2, by simp⟩

theorem step_sane {E : Env} {w : World} (h : SaneWorld E w) (e : Event) : SaneWorld E (w.step E e) := by
  cases e with
  | reset => exact ⟨h.gens, fun _ h => (by cases h)⟩
  | new i S mode =>
    simp only [World.step]
    cases hg : newLive S mode w.disk with
    | error e => exact h
    | ok g =>
      refine ⟨?_, h.disk⟩
      intro j g' hg'
      simp only at hg'
      split at hg'
      · cases hg'
        obtain ⟨cs, h1, _⟩ := newLive_sane h hg
        exact ⟨cs, h1⟩
      · exact h.gens j g' hg'
  | call i c v =>
    simp only [World.step]
    cases hg : w.gens i with
    | none => exact h
    | some g =>
      simp only
      obtain ⟨cs, hcs⟩ := h.gens i g hg
      rcases call_cases E g w.disk c v hcs with ⟨e1, e2, _⟩ | ⟨_, hf, text, _, _, _, ⟨_, e1, e2, _⟩ | ⟨_, L', states, hL', e1, e2, _⟩⟩
      · rw [e1, e2]
        refine ⟨?_, h.disk⟩
        intro j g' hg'
        simp only at hg'
        split at hg'
        · cases hg'; exact ⟨cs, hcs⟩
        · exact h.gens j g' hg'
      · rw [e1, e2]
        refine ⟨?_, ?_⟩
        · intro j g' hg'
          simp only at hg'
          split at hg'
          · cases hg'; exact ⟨cs, hcs⟩
          · exact h.gens j g' hg'
        · intro t ht
          obtain ⟨cs', h1, h2⟩ := h.disk t ht
          exact ⟨cs', h1, fun x hx => writeClass_files (d := { w.disk with build := true }) (h2 x hx)⟩
      · rw [e1, e2]
        refine ⟨?_, ?_⟩
        · intro j g' hg'
          simp only at hg'
          split at hg'
          · cases hg'; exact ⟨_, hL'⟩
          · exact h.gens j g' hg'
        · intro t ht
          simp only [Disk.writePyi, Option.some.injEq] at ht
          subst ht
          refine ⟨_, complete_reload hL', ?_⟩
          intro x hx
          rcases List.mem_append.mp hx with hx | hx
          · exact writeClass_files (d := { w.disk with build := true }) (hf x hx)
          · rw [List.mem_singleton.mp hx]
            simp [Disk.writePyi, Disk.writeClass]

theorem run_sane {E : Env} : ∀ (hist : List Event) {w : World}, SaneWorld E w → SaneWorld E (w.run E hist)
  | [], _, h => h
  | e :: es, _, h => run_sane es (step_sane h e)

end
end Verif
