import Verif.Lemmas.Grammar
import Verif.Lemmas.Camel
/-
Trees of data that can be written down give declarations that follow the grammar.
-/
namespace Verif
open Verif.Spec

variable {G : Copied}

/-! ### Names -/

theorem word_alnum {s : Str} (h : Alnum s) : ∀ c ∈ s, asciiWord c = true := by
  intro c hc
  have := asciiAlnum_iff.mp (h c hc)
  simp [asciiWord, this.1, this.2]

theorem word_append {a b : Str} (ha : ∀ c ∈ a, asciiWord c = true) (hb : ∀ c ∈ b, asciiWord c = true) :
    ∀ c ∈ a ++ b, asciiWord c = true := by
  intro c hc
  rcases List.mem_append.mp hc with h | h
  · exact ha c h
  · exact hb c h

theorem word_ascii {c : Char} (h : asciiWord c = true) : isAscii c = true := by
  simp only [asciiWord, Bool.and_eq_true] at h
  exact h.1

theorem word_capitalize {U : Uni} {s : Str} (h : ∀ c ∈ s, asciiWord c = true) : ∀ c ∈ U.capitalize s, asciiWord c = true := by
  cases s with
  | nil => intro c hc; simp [Uni.capitalize] at hc
  | cons c r =>
    simp only [Uni.capitalize]
    have hc := h c (by simp)
    apply word_append
    · rw [U.title_ascii c (word_ascii hc)]
      intro d hd
      simp only [List.mem_singleton] at hd
      subst hd
      exact asciiWord_cases (P := fun c => asciiWord c.toUpper = true) (by decide +kernel) hc
    · intro d hd
      obtain ⟨x, hx, hd⟩ := List.mem_flatMap.mp hd
      have hx' := h x (by simp [hx])
      rw [U.lower_ascii x (word_ascii hx')] at hd
      simp only [List.mem_singleton] at hd
      subst hd
      exact asciiWord_cases (P := fun c => asciiWord c.toLower = true) (by decide +kernel) hx'

theorem word_renameTimes {new : Str} {len : Nat} (hn : ∀ c ∈ new, asciiWord c = true) : ∀ (c : Nat) {s : Str},
    (∀ d ∈ s, asciiWord d = true) → ∀ d ∈ renameTimes new len c s, asciiWord d = true
  | 0, _, h => h
  | c + 1, s, h => word_renameTimes hn c (word_append hn (fun d hd => h d (List.mem_of_mem_drop hd)))

/-- A name of the tree. -/
structure NodeName (s : Str) : Prop where
  head : ∃ c r, s = c :: r ∧ c.isAlpha = true
  word : ∀ c ∈ s, asciiWord c = true
  ident : Identifier s

theorem nodeName_of {pfx s : Str} (hp : GoodName pfx) (h : pfx <+: s) (hw : ∀ c ∈ s, asciiWord c = true) : NodeName s := by
  obtain ⟨w, rfl⟩ := h
  obtain ⟨⟨c, r, rfl, hc⟩, _, hk⟩ := hp
  refine ⟨⟨c, r ++ w, rfl, hc⟩, hw, ⟨c, r ++ w, rfl, .inl hc, fun d hd => asciiWord_ident (hw d (by simp; right; simpa using hd))⟩, ?_⟩
  intro hmem
  exact hk _ hmem (List.prefix_append _ _)

theorem toCamel_letter {U : Uni} {c : Char} {r : Str} (hc : c.isAlpha = true) (hw : ∀ d ∈ c :: r, asciiWord d = true) :
    ∃ t, toCamel U (c :: r) = c.toUpper :: t := by
  have ha := word_ascii (hw c (by simp))
  have hd : U.isDecimal c = false := by
    rw [U.decimal_ascii c ha]
    have := asciiWord_cases (P := fun c => c.isAlpha = true → c.isDigit = false) (by decide +kernel) (hw c (by simp))
    exact this hc
  rw [toCamel_eq]
  have h1 : (c :: r).all U.isDecimal = false := by simp [hd]
  rw [h1]
  simp only [Bool.false_eq_true, if_false]
  rw [List.dropWhile_cons, hd]
  simp only [Bool.false_eq_true, if_false]
  unfold camelBody
  rcases camelSlots_head U c r with ⟨_, e⟩ | ⟨e, _⟩
  · rw [e]
    refine ⟨(camelSlots U false r).flatten, ?_⟩
    simp [Uni.upperStr, U.upper_ascii c ha]
  · rw [alnum_uni ha, Char.isAlphanum, hc] at e
    cases e

theorem toCamel_expr {U : Uni} {s : Str} (h : NodeName s) : PyExpr G (toCamel U s) := by
  obtain ⟨⟨c, r, rfl, hc⟩, hw, _⟩ := h
  obtain ⟨t, ht⟩ := toCamel_letter (U := U) hc hw
  have hal := alnum_toCamel (U := U) (s := c :: r) (fun d hd => word_ascii (hw d hd))
  have hup : c.toUpper.isUpper = true := by
    have := asciiWord_cases (P := fun c => c.isAlpha = true → c.toUpper.isUpper = true) (by decide +kernel) (hw c (by simp))
    exact this hc
  rw [ht] at hal ⊢
  by_cases hk : c.toUpper :: t ∈ keywords
  · refine .constant ?_
    have : ∀ k ∈ keywords, ∀ d u, k = d :: u → d.isUpper = true → k ∈ [py!"None", py!"True", py!"False", py!"..."] := by
      have : ∀ k ∈ keywords, (k.head?.map Char.isUpper).getD false = true → k ∈ [py!"None", py!"True", py!"False", py!"..."] := by
        decide +kernel
      intro k hk d u e hd
      refine this k hk ?_
      rw [e]; simpa using hd
    exact this _ hk _ _ rfl hup
  · refine .name ⟨⟨_, _, rfl, .inl ?_, ?_⟩, hk⟩
    · simp [Char.isAlpha, hup]
    · intro d hd
      exact asciiWord_ident (word_alnum hal d (by simp [hd]))

/-! ### The invariant -/

/-- Headers of trees of data that can be written down. -/
def GramHdr (G : Copied) (E : Env) (h : Hdr) : Prop :=
  (∀ c ∈ h.name, asciiWord c = true) ∧ WordTy h.ty ∧ (∀ s ∈ h.slots, WordKey s.key) ∧
  match h.kind with
  | .func f => f.isLambda = false → ∀ text n, f.sig = .ok text n → PySignature G text
  | .cls n => InQuotes n
  | .ndarray d => InQuotes d
  | .dict data m => (∀ kv ∈ data, WordKey kv.1 ∧ DocEntry E.S.keyDoc kv.1 kv.2) ∧ ∀ kv ∈ m.data, WordKey kv.1 ∧ DocEntry E.S.keyDoc kv.1 kv.2
  | _ => True

theorem gram_inv {E : Env} : Inv E (Writable G E.reprStr E.S.keyDoc)
    (fun k v => (WordKey k ∧ DocEntry E.S.keyDoc k v) ∧ Writable G E.reprStr E.S.keyDoc v)
    (fun s => ∀ c ∈ s, asciiWord c = true) (GramHdr G E) (fun _ => True) where
  seqElem h he := ⟨valAllList_iff.mp h.1.2 _ he, everyList_iff.mp h.2.2 _ he⟩
  mapEntry h hkv := ⟨⟨h.1.2.1 _ (List.of_mem_zip hkv).1, h.2.1.1 _ hkv⟩, valAllList_iff.mp h.1.2.2 _ (List.of_mem_zip hkv).2,
    everyList_iff.mp h.2.2 _ (List.of_mem_zip hkv).2⟩
  entry h := h.2
  dict h := by
    refine ⟨valAll_dict (by unfold WordTy; decide) (fun kv hkv => ⟨(h kv hkv).1.1, (h kv hkv).2.1⟩), ⟨?_, by intro i e; cases e⟩, ?_⟩
    · intro kv hkv
      rw [zip_fst_snd] at hkv
      exact (h kv hkv).1.2
    rw [everyList_iff]
    intro v hv
    obtain ⟨kv, hkv, rfl⟩ := List.mem_map.mp hv
    exact (h kv hkv).2.2
  nameElem hs hv := word_append hs (word_capitalize (valAll_ty hv.1))
  nameNum hs := word_append hs (word_alnum (alnum_natStr _))
  nameKey := by
    intro s k v hs hk
    refine word_append hs ?_
    have hk := hk.1.1
    cases k with
    | str t => exact word_alnum (alnum_toCamel hk.1)
    | none => show ∀ c ∈ Key.none.ty.name, asciiWord c = true; decide
    | other t r => exact hk.1.1
  nameLabel := by
    intro s k v hs hk
    refine word_append hs ?_
    have hk := hk.1.1
    unfold labelSuffix
    dsimp only
    split
    · decide
    · apply word_alnum
      apply alnum_toCamel
      cases k with
      | str t => exact hk.1
      | none => show ∀ c ∈ py!"None", isAscii c = true; decide
      | other t r => exact hk.2
  nameTy hs hh := word_append hs (word_capitalize hh.2.1)
  rename hh hn := ⟨word_renameTimes hn _ hh.1, hh.2⟩
  hdr := by
    intro name v root slots hn hv hsl
    refine ⟨hn, valAll_ty hv.1, ?_, ?_⟩
    · intro s hs
      rcases hsl s hs with h | ⟨w, h, _⟩
      · rw [h]; refine ⟨?_, ?_⟩ <;> intro c hc <;> simp at hc
      · exact h.1
    · have hw := every_self hv.2
      cases v with
      | map k t ks vs =>
        cases k with
        | frame i => trivial
        | proxy => trivial
        | dict =>
          have : ∀ kv ∈ dictData E.S (ks.zip vs), WordKey kv.1 ∧ DocEntry E.S.keyDoc kv.1 kv.2 := by
            intro kv hkv
            have := dictData_subset hkv
            exact ⟨hv.1.2.1 _ (List.of_mem_zip this).1, hw.1 _ this⟩
          exact ⟨this, this⟩
      | func f => exact hw
      | cls m n => exact hw
      | ndarray t d => exact hw
      | inst _ _ => trivial
      | module _ => trivial
      | io _ => trivial
      | seq _ _ _ => trivial
  merge hh h1 h2 := ⟨hh.1, hh.2.1, hh.2.2.1, fun kv hkv => (h1 kv hkv).1, fun kv hkv => (h2 kv hkv).1⟩
  bad _ _ _ := trivial
  sig _ _ := trivial
  noTrees _ := trivial

/-! ### Bodies -/

/-- What the proof of the grammar needs of a header. -/
structure LawHdr (G : Copied) (E : Env) (h : Hdr) : Prop where
  name : NodeName h.name
  gram : GramHdr G E h
  keyed : KeyedHdr (LiteralLabel G E.reprStr) h
  clean : CleanHdr E h

theorem doc_entry {E : Env} {k : Str} {l : List (Key × Val)} {t : Ty} {text : Str}
    (hl : ∀ kv ∈ l, WordKey kv.1 ∧ DocEntry E.S.keyDoc kv.1 kv.2) (hk : (Key.str k).hidden = true ∨ k = E.S.keyDoc)
    (h : lookupKey (.str k) l = some (.inst t (some text))) : DocText text := by
  have hm := lookupKey_mem h
  exact (hl _ hm).2 (hk.imp id (fun e => by rw [e])) t text rfl

theorem keyDoc_text {E : Env} {m : DMeta} {key text : Str} (hl : ∀ kv ∈ m.data, WordKey kv.1 ∧ DocEntry E.S.keyDoc kv.1 kv.2)
    (h : keyDoc m key = some text) : DocText text := by
  unfold keyDoc at h
  split at h
  · split at h
    · rename_i t' heq
      injection h with h
      subst h
      exact doc_entry hl (.inl (startsWith_iff.mpr ⟨key, rfl⟩)) heq
    · cases h
  · cases h

theorem classDoc_text {E : Env} {data : List (Key × Val)} {text : Str} (hl : ∀ kv ∈ data, WordKey kv.1 ∧ DocEntry E.S.keyDoc kv.1 kv.2)
    (h : classDoc E data = some text) : DocText text := by
  unfold classDoc at h
  split at h
  · cases h
  · split at h
    · rename_i t' heq
      injection h with h
      subst h
      exact doc_entry hl (.inr rfl) heq
    · cases h

theorem class_key {U : Uni} {m : DMeta} (hf : isFunctional U m = false) {s : Str} (hs : .str s ∈ m.data.map (·.1)) (hw : WordKey (.str s)) :
    Identifier s := by
  unfold isFunctional at hf
  simp only [Bool.not_eq_false', Bool.and_eq_true, List.all_eq_true] at hf
  obtain ⟨kv, hkv, e⟩ := List.mem_map.mp hs
  have := hf.2 kv hkv
  rw [e] at this
  simp only [Bool.and_eq_true, Bool.not_eq_true', List.contains_eq_mem, decide_eq_false_iff_not] at this
  exact ⟨Props.nameOk_ascii_ident U s hw.1 this.2, this.1⟩

theorem blank_tab : Blank TAB := by unfold Blank; decide

theorem body_law {E : Env} (hB : BuiltinNames E) {h : Hdr} {kids : List AOut} (hh : LawHdr G E h)
    (hr : ∀ k ∈ kids, PyExpr G (aref k).print) (hn : ∀ k ∈ kids, NodeName k.name) : BodyOk G h.name (aBody E h kids) := by
  have hit : ∀ k ∈ iterate h.slots kids, PyExpr G (aref k).print := by
    intro k hk
    unfold iterate at hk
    obtain ⟨sk, hsk, rfl⟩ := List.mem_map.mp hk
    exact hr _ (List.of_mem_zip (List.takeWhile_subset _ hsk)).2
  have hkeys : ∀ k ∈ h.slots.map (·.key), WordKey k := by
    intro k hk
    obtain ⟨s, hs, rfl⟩ := List.mem_map.mp hk
    exact hh.gram.2.2.1 s hs
  have map : PyExpr G (mapExpr E h (iterate h.slots kids)).print :=
    sub2 (mapCon_expr _ _) (keyExpr_expr hkeys) (aAlias_expr hit)
  have g := hh.gram.2.2.2
  have kd := hh.keyed
  have cl := hh.clean.2.2.2
  unfold KeyedHdr at kd
  unfold aBody
  dsimp only
  cases hkd : h.kind with
  | inst => exact atom_expr hB hh.gram.2.1
  | func f =>
    rw [hkd] at g cl
    exact func_body hh.name.ident cl g
  | cls n =>
    rw [hkd] at g
    refine sub1 (G := G) (c := py!"Type") lib_name ?_
    split
    · rename_i hb; exact builtin_expr hB hb
    · exact .string g
  | module => exact lib_name
  | io => exact lib_name
  | ndarray d =>
    rw [hkd] at g
    refine PyExpr.string (s := py!"NDArray[np." ++ d ++ py!"]") ?_
    intro c hc
    simp only [List.mem_append] at hc
    rcases hc with (hc | hc) | hc
    · revert c; decide
    · exact g c hc
    · revert c; decide
  | seq k =>
    cases k
    case tuple => exact aTuple_expr hit
    all_goals exact sub1 (seqCon_expr _ _) (aAlias_expr hit)
  | proxy => exact map
  | dict data m =>
    rw [hkd] at g kd
    dsimp only
    split
    · have hent : ∀ e ∈ aEntries E m ((h.slots.map (·.key)).zip kids), WordKey (.str e.key) ∧ .str e.key ∈ m.data.map (·.1) ∧ PyExpr G e.type.print ∧
          ∀ d, e.doc = some d → DocLit py!"    " d := by
        intro e he
        obtain ⟨s, k, hk, rfl⟩ := mem_aEntries.mp he
        have hz := List.of_mem_zip hk
        refine ⟨hkeys _ hz.1, ?_, ?_, ?_⟩
        · obtain ⟨sl, hsl, es⟩ := List.mem_map.mp hz.1
          have := kd.2 _ (kd.1 sl hsl)
          rw [es] at this
          exact this
        · show PyExpr G (aEntry E m s k).type.print
          simp only [aEntry]
          split
          · exact toCamel_expr (hn k hz.2)
          · exact hr k hz.2
        · intro d hd
          simp only [aEntry] at hd
          cases hkdoc : keyDoc m s with
          | none => rw [hkdoc] at hd; cases hd
          | some text =>
            rw [hkdoc] at hd
            injection hd with hd
            subst hd
            exact formatDoc_lit blank_tab (keyDoc_text g.2 hkdoc)
      show PyModule G (recordText _ _ _ _)
      cases hf : isFunctional E.U m with
      | true =>
        refine record_functional hh.name.ident (inQuotes_word hh.name.word) ?_ ?_
        · intro d hd
          simp only [if_true] at hd
          cases hc : classDoc E data with
          | none => rw [hc] at hd; cases hd
          | some text =>
            rw [hc] at hd
            injection hd with hd
            subst hd
            exact formatDoc_lit (by unfold Blank; decide) (classDoc_text g.1 hc)
        · intro e he
          obtain ⟨h1, _, h3, _⟩ := hent e he
          exact ⟨h1.2, h3⟩
      | false =>
        refine record_class hh.name.ident ?_ ?_
        · intro d hd
          simp only [Bool.false_eq_true, if_false] at hd
          cases hc : classDoc E data with
          | none => rw [hc] at hd; cases hd
          | some text =>
            rw [hc] at hd
            injection hd with hd
            subst hd
            exact formatDoc_lit blank_tab (classDoc_text g.1 hc)
        · intro e he
          obtain ⟨h1, h2, h3, h4⟩ := hent e he
          exact ⟨class_key hf h2 h1, h3, h4⟩
    · exact map
  | frame i =>
    rw [hkd] at kd
    refine frame_body hh.name.ident ?_ ?_
    · intro kk hkk
      obtain ⟨s, hs, e⟩ := List.mem_map.mp (List.of_mem_zip hkk).1
      rw [← e]
      exact kd s hs
    · intro kk hkk
      exact hr _ (List.of_mem_zip hkk).2

/-! ### Trees -/

/-- What is printed for a node follows the grammar. -/
structure LawfulOut (G : Copied) (a : AOut) : Prop where
  name : NodeName a.name
  body : BodyOk G a.name a.body
  emitted : ∀ d ∈ a.emitted, PyModule G d.print

theorem LawfulOut.ref {a : AOut} (h : LawfulOut G a) : PyExpr G (aref a).print := by
  unfold aref
  split
  · exact .name h.name.ident
  · split
    · rename_i t e
      have := h.body
      rw [e] at this
      exact this
    · exact .name h.name.ident

theorem lawful_combine {E : Env} (hB : BuiltinNames E) {h : Hdr} {kids : List AOut} (hh : LawHdr G E h) (hk : ∀ k ∈ kids, LawfulOut G k) :
    LawfulOut G (aCombine E h kids) := by
  have hbody := body_law hB hh (fun k hkm => (hk k hkm).ref) (fun k hkm => (hk k hkm).name)
  have htop : PyModule G (TDecl.mk h.name (aBody E h kids)).print := hbody.decl hh.name.ident
  refine ⟨hh.name, hbody, ?_⟩
  intro d hd
  have hd : d ∈ aEmit h (aCombine E h kids).perm ⟨h.name, aBody E h kids⟩ kids := hd
  unfold aEmit at hd
  split at hd
  · split at hd
    · simp only [List.mem_singleton] at hd; subst hd; exact htop
    · simp at hd
  · rcases List.mem_append.mp hd with hd | hd
    · obtain ⟨k, hkm, hd⟩ := List.mem_flatMap.mp hd
      unfold iterate at hkm
      obtain ⟨sk, hsk, rfl⟩ := List.mem_map.mp hkm
      have hl := hk _ (List.of_mem_zip (List.takeWhile_subset _ hsk)).2
      rcases List.mem_append.mp hd with hd | hd
      · exact hl.emitted d hd
      · split at hd
        · simp only [List.mem_singleton] at hd
          subst hd
          exact hl.body.decl hl.name.ident
        · simp at hd
    · split at hd
      · simp only [List.mem_singleton] at hd; subst hd; exact htop
      · simp at hd

mutual
theorem lawful_abs {E : Env} (hB : BuiltinNames E) : ∀ (n : Node), NodeAll (LawHdr G E) n → LawfulOut G (n.abs E)
  | .mk h kids, hn => lawful_combine hB hn.1 (lawful_absList hB kids hn.2)
theorem lawful_absList {E : Env} (hB : BuiltinNames E) : ∀ (l : List Node), NodeAllList (LawHdr G E) l → ∀ k ∈ absList E l, LawfulOut G k
  | [], _ => by simp [absList]
  | n :: r, hn => by
    intro k hk
    simp only [absList, List.mem_cons] at hk
    rcases hk with rfl | hk
    · exact lawful_abs hB n hn.1
    · exact lawful_absList hB r hn.2 k hk
end

end Verif
