import Verif.Lemmas.Sound
import Verif.Spec.Order
/-
Which names the declarations of a tree declare, and in which order.
-/
namespace Verif
open Verif.Spec Verif.Props

/-! ### Names in the text -/

theorem takeWhile_stop {p : Char → Bool} : ∀ {a : Str} {c : Char} {b : Str}, (∀ x ∈ a, p x = true) → p c = false →
    (a ++ c :: b).takeWhile p = a
  | [], c, b, _, h => by simp [h]
  | x :: a, c, b, ha, h => by
    rw [List.cons_append, List.takeWhile_cons, if_pos (ha x (by simp)), takeWhile_stop (fun y hy => ha y (by simp [hy])) h]

theorem startsWith_iff {s p : Str} : startsWith s p = true ↔ ∃ r, s = p ++ r := by
  unfold startsWith
  rw [List.isPrefixOf_iff_prefix]
  constructor
  · rintro ⟨r, rfl⟩; exact ⟨r, rfl⟩
  · rintro ⟨r, rfl⟩; exact ⟨r, rfl⟩

theorem declName_class {n r : Str} {c : Char} (hn : ∀ x ∈ n, identChar x = true) (hc : identChar c = false) :
    declName (py!"class " ++ n ++ c :: r) = n := by
  have : startsWith (py!"class " ++ n ++ c :: r) py!"class " = true := startsWith_iff.mpr ⟨n ++ c :: r, by simp⟩
  unfold declName
  rw [if_pos this, List.append_assoc]
  exact takeWhile_stop hn hc

theorem declName_plain {n r : Str} {c : Char} (hn : ∀ x ∈ n, identChar x = true) (hc : identChar c = false)
    (hne : c ≠ ' ' ∨ n ≠ py!"class") : declName (n ++ c :: r) = n := by
  unfold declName
  rw [if_neg, takeWhile_stop hn hc]
  intro h
  obtain ⟨r', e⟩ := startsWith_iff.mp h
  have e' : (n ++ c :: r).takeWhile identChar = py!"class" := by
    rw [e]
    exact takeWhile_stop (a := py!"class") (c := ' ') (b := r') (by decide) (by decide)
  rw [takeWhile_stop hn hc] at e'
  subst e'
  have : c = ' ' := by
    have := congrArg (fun l => l[5]?) e
    simpa using this
  rcases hne with h | h
  · exact h this
  · exact h rfl

theorem recordText_class (n : Str) (doc : Option Str) (es : List RawEntry) :
    ∃ r, recordText n false doc es = py!"class " ++ n ++ '(' :: r := by
  unfold recordText
  rw [if_neg (by decide)]
  have key : ∀ a b : Str, ∃ r, py!"class " ++ n ++ py!"(TypedDict):\n" ++ a ++ b = py!"class " ++ n ++ '(' :: r := fun a b =>
    ⟨py!"TypedDict):\n" ++ a ++ b, by simp⟩
  exact key _ _

/-- The name read from a declaration is its name. -/
theorem declName_print {d : TDecl} (hn : ∀ x ∈ d.name, identChar x = true) (hc : d.name ≠ py!"class") :
    declName d.print = d.name := by
  unfold TDecl.print
  cases d.body with
  | alias t => exact declName_plain (r := py!" TypeAlias = " ++ t.print) (c := ':') hn (by decide) (.inl (by decide)) |> (fun h => by simpa using h)
  | record f doc es =>
    cases f with
    | true =>
      simp only [recordText, if_true, List.append_assoc]
      exact declName_plain (c := ' ') hn (by decide) (.inr hc)
    | false =>
      obtain ⟨r, e⟩ := recordText_class d.name doc (es.map Entry.raw)
      dsimp only
      rw [e]
      exact declName_class hn (by decide)
  | protocol sig =>
    have := declName_class (n := d.name) (c := '(') (r := py!"Protocol):\n    def __call__" ++ sig) hn (by decide)
    simpa using this
  | frame ovs rest =>
    have := declName_class (n := d.name) (c := '(') (r := py!"pd.DataFrame):\n\n" ++
      (join py!"\n" (ovs.map fun o => py!"    @overload  # type: ignore\n    def __getitem__(self, key: Literal[" ++ o.1 ++
        py!"]) -> " ++ o.2.print ++ py!":\n        ...\n") ++ py!"\n" ++ rest)) hn (by decide)
    simpa using this

/-- A declaration called `class` is read as something else. -/
theorem declName_class_print {d : TDecl} (hc : d.name = py!"class") : declName d.print = py!"class" ∨ declName d.print = [] := by
  have hi : ∀ x ∈ d.name, identChar x = true := by rw [hc]; decide
  unfold TDecl.print
  cases d.body with
  | alias t =>
    left
    have := declName_plain (n := d.name) (r := py!" TypeAlias = " ++ t.print) (c := ':') hi (by decide) (.inl (by decide))
    rw [hc] at this
    rw [hc]
    simpa using this
  | record f doc es =>
    cases f with
    | true => right; rw [hc]; rfl
    | false =>
      left
      obtain ⟨r, e⟩ := recordText_class d.name doc (es.map Entry.raw)
      dsimp only
      rw [e, ← hc]
      exact declName_class hi (by decide)
  | protocol sig =>
    left
    have := declName_class (n := d.name) (c := '(') (r := py!"Protocol):\n    def __call__" ++ sig) hi (by decide)
    rw [hc] at this
    rw [hc]
    simpa using this
  | frame ovs rest =>
    left
    have := declName_class (n := d.name) (c := '(') (r := py!"pd.DataFrame):\n\n" ++
      (join py!"\n" (ovs.map fun o => py!"    @overload  # type: ignore\n    def __getitem__(self, key: Literal[" ++ o.1 ++
        py!"]) -> " ++ o.2.print ++ py!":\n        ...\n") ++ py!"\n" ++ rest)) hi (by decide)
    rw [hc] at this
    rw [hc]
    simpa using this

theorem word_ident {U : Uni} {s : Str} (h : Word U s) : ∀ x ∈ s, identChar x = true := by
  intro x hx
  by_cases ha : isAscii x = true
  · rcases h x hx with h | h
    · rw [alnum_uni ha] at h
      exact alnum_ident (asciiAlnum_iff.mpr ⟨ha, h⟩)
    · subst h; decide
  · unfold identChar
    rw [Bool.not_eq_true', Bool.eq_false_iff]
    intro hm
    rw [List.contains_iff_mem] at hm
    revert ha
    simp only [delimiters, List.mem_cons, List.not_mem_nil, or_false] at hm
    rcases hm with rfl | rfl | rfl | rfl | rfl | rfl | rfl | rfl | rfl | rfl <;> decide

/-! ### Names of declarations -/

theorem decls_cases {E : Env} {h : Hdr} {kids : List AOut} {d : TDecl} (hd : d ∈ (aCombine E h kids).decls) :
    d = ⟨h.name, aBody E h kids⟩ ∨ ∃ k ∈ kids, d ∈ k.decls := by
  have top : d ∈ (if (aCombine E h kids).perm then [(aCombine E h kids).decl] else []) → d = ⟨h.name, aBody E h kids⟩ := by
    intro hd
    split at hd
    · exact List.mem_singleton.mp hd
    · simp at hd
  rcases List.mem_append.mp hd with hd | hd
  · have hd : d ∈ aEmit h (aCombine E h kids).perm ⟨h.name, aBody E h kids⟩ kids := hd
    unfold aEmit at hd
    split at hd
    · split at hd
      · exact .inl (by simpa using hd)
      · simp at hd
    · rcases List.mem_append.mp hd with hd | hd
      · obtain ⟨k, hk, hd⟩ := List.mem_flatMap.mp hd
        exact .inr ⟨k, mem_iterate hk, hd⟩
      · exact .inl (top hd)
  · exact .inl (top hd)

mutual
/-- The declarations of a tree are named after its nodes. -/
theorem decls_names {E : Env} {p : Hdr → Prop} : ∀ (n : Node), NodeAll p n → ∀ d ∈ (n.abs E).decls, ∃ h, p h ∧ d.name = h.name
  | .mk h kids, hn, d, hd => by
    simp only [NodeAll] at hn
    rcases decls_cases (kids := absList E kids) hd with rfl | ⟨k, hk, hd⟩
    · exact ⟨h, hn.1, rfl⟩
    · exact declsList_names kids hn.2 k hk d hd
theorem declsList_names {E : Env} {p : Hdr → Prop} : ∀ (l : List Node), NodeAllList p l → ∀ k ∈ absList E l, ∀ d ∈ k.decls,
    ∃ h, p h ∧ d.name = h.name
  | [], _, _, hk, _, _ => by simp [absList] at hk
  | n :: r, hn, k, hk, d, hd => by
    simp only [absList, List.mem_cons] at hk
    rcases hk with rfl | hk
    · exact decls_names n hn.1 d hd
    · exact declsList_names r hn.2 k hk d hd
end

/-- The declarations of a root: those below it, then its own. -/
theorem root_emitted {E : Env} {n : Node} (hr : n.hdr.root = true) :
    ∃ l, (n.abs E).emitted = l ++ [(n.abs E).decl] ∧ ∀ d ∈ l, ∃ k ∈ n.kids, d ∈ (k.abs E).decls := by
  cases n with
  | mk h kids =>
    have hr : h.root = true := hr
    have hp : (aCombine E h (absList E kids)).perm = true := by
      simp only [aCombine, permOf, hr]
      split <;> simp
    show ∃ l, aEmit h (aCombine E h (absList E kids)).perm ⟨h.name, aBody E h (absList E kids)⟩ (absList E kids) = _ ∧ _
    unfold aEmit
    rw [hp, hr]
    split
    · exact ⟨[], rfl, by simp⟩
    · refine ⟨_, rfl, ?_⟩
      intro d hd
      obtain ⟨a, ha, hd⟩ := List.mem_flatMap.mp hd
      have ha := mem_iterate ha
      rw [absList_eq_map] at ha
      obtain ⟨k, hk, rfl⟩ := List.mem_map.mp ha
      exact ⟨k, hk, hd⟩

theorem dedupDecls_snoc : ∀ {l : List TDecl} {d : TDecl}, (∀ e ∈ l, e.print ≠ d.print) → dedupDecls (l ++ [d]) = dedupDecls l ++ [d]
  | [], d, _ => rfl
  | x :: l, d, h => by
    simp only [List.cons_append, dedupDecls]
    rw [dedupDecls_snoc (fun e he => h e (by simp [he])), List.filter_append]
    have : ([d] : List TDecl).filter (fun e => decide (e.print ≠ x.print)) = [d] := by
      have := h x (by simp)
      simp [Ne.symm this]
    rw [this]

/-! ### Names below the root -/

/-- A proper extension of `root`. -/
def Longer (root s : Str) : Prop := root <+: s ∧ root.length < s.length

theorem Longer.of {root s t : Str} (h : root <+: s) (ht : t ≠ []) : Longer root (s ++ t) := by
  refine ⟨h.trans (List.prefix_append s t), ?_⟩
  have := h.length_le
  have : 0 < t.length := List.length_pos_iff.mpr ht
  simp only [List.length_append]
  omega

theorem Longer.append {root s t : Str} (h : Longer root s) : Longer root (s ++ t) :=
  ⟨h.1.trans (List.prefix_append s t), by simp only [List.length_append]; have := h.2; omega⟩

theorem Longer.renameTimes {root new : Str} {len : Nat} (hn : Longer root new) : ∀ (c : Nat) {s : Str}, Longer root s →
    Longer root (renameTimes new len c s)
  | 0, _, h => h
  | c + 1, _, _ => hn.renameTimes c hn.append

theorem capitalize_ne {U : Uni} {s : Str} (h : HasLetter s) : U.capitalize s ≠ [] := by
  obtain ⟨c, hc, ha, _⟩ := h
  cases s with
  | nil => simp at hc
  | cons x r =>
    simp only [Uni.capitalize]
    rcases List.mem_cons.mp hc with rfl | hc
    · rw [U.title_ascii c ha]; simp
    · intro e
      have := (List.append_eq_nil_iff.mp e).2
      have h2 := List.flatMap_eq_nil_iff.mp this c hc
      rw [U.lower_ascii c ha] at h2
      simp at h2

theorem recased_ne {U : Uni} {xs ys : Str} (h : Recased U xs ys) {c : Char} (hc : c ∈ xs) (ha : isAscii c = true) : ys ≠ [] := by
  induction h with
  | nil => simp at hc
  | keep => simp
  | raise d _ ih =>
    rcases List.mem_cons.mp hc with rfl | hc
    · rw [U.upper_ascii c ha]; simp
    · intro e
      exact ih hc (List.append_eq_nil_iff.mp e).2

theorem toCamel_ne {U : Uni} {s : Str} (h : HasLetter s) : toCamel U s ≠ [] := by
  obtain ⟨c, hc, ha, hl⟩ := h
  have hdec : U.isDecimal c = false := by
    rw [U.decimal_ascii c ha]
    have := asciiAlnum_cases (P := fun c => c.isAlpha = true → c.isDigit = false) (by decide +kernel)
      (asciiAlnum_iff.mpr ⟨ha, by simp [Char.isAlphanum, hl]⟩)
    exact this hl
  refine recased_ne (toCamel_recased U s) (c := c) (List.mem_filter.mpr ⟨?_, ?_⟩) ha
  · unfold cutDigits
    split
    · exact hc
    · have : ∀ {l : Str}, c ∈ l → c ∈ l.dropWhile U.isDecimal := by
        intro l
        induction l with
        | nil => simp
        | cons x l ih =>
          intro hm
          rw [List.dropWhile_cons]
          split
          · rename_i hx
            rcases List.mem_cons.mp hm with rfl | hm
            · rw [hdec] at hx; cases hx
            · exact ih hm
          · exact hm
      exact this hc
  · rw [alnum_uni ha]
    simp [Char.isAlphanum, hl]

/-- Keys that contribute to names. -/
def LetterKey : Key → Prop
  | .str s => HasLetter s
  | k => HasLetter k.ty.name

theorem keySuffix_ne {U : Uni} {k : Key} (h : LetterKey k) : keySuffix U k ≠ [] := by
  cases k with
  | str s => exact toCamel_ne h
  | none => show Key.none.ty.name ≠ []; decide
  | other t r =>
    show t.name ≠ []
    obtain ⟨c, hc, _⟩ : HasLetter t.name := h
    exact List.ne_nil_of_mem hc

theorem labelSuffix_ne {U : Uni} (k : Key) : labelSuffix U k ≠ [] := by
  unfold labelSuffix
  dsimp only
  split
  · decide
  · rename_i h
    intro e; rw [e] at h; exact h rfl

def LongHdr (root : Str) (h : Hdr) : Prop := Longer root h.name ∧ HasLetter h.ty.name

theorem long_inv {E : Env} {root : Str} :
    Inv E (ValAll (fun t => HasLetter t.name) LetterKey (fun _ => True))
      (fun k v => LetterKey k ∧ ValAll (fun t => HasLetter t.name) LetterKey (fun _ => True) v)
      (Longer root) (LongHdr root) (fun _ => True) where
  seqElem h he := valAllList_iff.mp h.2 _ he
  mapEntry h hkv := ⟨h.2.1 _ (List.of_mem_zip hkv).1, valAllList_iff.mp h.2.2 _ (List.of_mem_zip hkv).2⟩
  entry h := h.2
  dict h := valAll_dict ⟨'d', by decide, by decide, by decide⟩ h
  nameElem hs _ := hs.append
  nameNum hs := hs.append
  nameKey hs _ := hs.append
  nameLabel hs _ := hs.append
  nameTy hs _ := hs.append
  rename hh hn := ⟨hn.renameTimes _ hh.1, hh.2⟩
  hdr hn hv _ := ⟨hn, valAll_ty hv⟩
  merge hh _ _ := hh
  bad _ _ _ := trivial
  sig _ _ := trivial
  noTrees _ := trivial

/-- All nodes below the root have longer names. -/
theorem longer_kids {E : Env} (hE : E.Fair) {f : Nat} {root : Bool} {name : Str} {v : Val} {n : Node} (hv : Named v)
    (hd : v.depth < f) (hb : build E f root name v = .ok n) : ∀ k ∈ n.kids, NodeAll (LongHdr name) k := by
  have hv' : ValAll (fun t => HasLetter t.name) LetterKey (fun _ => True) v :=
    valAll_imp (fun _ h => h) (fun k h => by cases k <;> exact h) (fun _ h => h) hv
  refine build_kids hE long_inv ⟨?_, ?_, ?_, ?_⟩ hv' hd hb
  · exact fun hv => .of List.prefix_rfl (capitalize_ne (valAll_ty hv))
  · exact fun hk => .of List.prefix_rfl (keySuffix_ne hk.1)
  · exact fun _ => .of List.prefix_rfl (labelSuffix_ne _)
  · exact fun hh => .of List.prefix_rfl (capitalize_ne hh.2)

end Verif
