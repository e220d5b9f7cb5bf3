import Verif.Lemmas.Holds
import Verif.Lemmas.Camel
import Verif.Lemmas.MergeText
import Verif.Props.Names
/-
The declarations of tidy trees can be read back, and the types they give admit the values that the trees stand for.
-/
namespace Verif
open Verif.Spec

/-! ### Declarations of a tree -/

/-- The declarations a parent gets from a child. -/
def AOut.decls (a : AOut) : List TDecl := a.emitted ++ if a.perm then [a.decl] else []

theorem decls_mem {E : Env} {h : Hdr} {kids : List AOut} (hi : iterate h.slots kids = kids) {d : TDecl}
    (hd : d ∈ (aCombine E h kids).decls) :
    ((aCombine E h kids).perm = true ∧ d = ⟨h.name, aBody E h kids⟩) ∨ ∃ k ∈ kids, d ∈ k.decls := by
  have top : d ∈ (if (aCombine E h kids).perm then [(aCombine E h kids).decl] else []) →
      (aCombine E h kids).perm = true ∧ d = ⟨h.name, aBody E h kids⟩ := by
    intro hd
    split at hd
    · rename_i hp
      simp only [List.mem_singleton] at hd
      exact ⟨hp, hd⟩
    · simp at hd
  rcases List.mem_append.mp hd with hd | hd
  · have hd : d ∈ aEmit h (aCombine E h kids).perm ⟨h.name, aBody E h kids⟩ kids := hd
    unfold aEmit at hd
    split at hd
    · split at hd
      · rename_i hp
        rw [Bool.and_eq_true] at hp
        simp only [List.mem_singleton] at hd
        exact .inl ⟨hp.2, hd⟩
      · simp at hd
    · rw [hi] at hd
      rcases List.mem_append.mp hd with hd | hd
      · obtain ⟨k, hk, hd⟩ := List.mem_flatMap.mp hd
        exact .inr ⟨k, hk, hd⟩
      · exact .inl (top hd)
  · exact .inl (top hd)

theorem decls_kid {E : Env} {h : Hdr} {kids : List AOut} (hi : iterate h.slots kids = kids) {k : AOut} (hk : k ∈ kids) {d : TDecl}
    (hd : d ∈ k.decls) : d ∈ (aCombine E h kids).decls := by
  refine List.mem_append_left _ ?_
  show d ∈ aEmit h (aCombine E h kids).perm ⟨h.name, aBody E h kids⟩ kids
  unfold aEmit
  have : kids.isEmpty = false := by
    cases kids with
    | nil => simp at hk
    | cons => rfl
  rw [this, hi]
  simp only [Bool.false_eq_true, if_false]
  exact List.mem_append_left _ (List.mem_flatMap.mpr ⟨k, hk, hd⟩)

theorem decls_self {E : Env} {h : Hdr} {kids : List AOut} (hp : (aCombine E h kids).perm = true) :
    ⟨h.name, aBody E h kids⟩ ∈ (aCombine E h kids).decls := by
  refine List.mem_append_right _ ?_
  rw [if_pos hp]
  exact List.mem_singleton.mpr rfl

theorem tidy_slots {S : Strategies} {κ : SeqKind} {h : Hdr} (ht : TidyHdr S κ h) : ∀ s ∈ h.slots, s.key ≠ .none := by
  unfold TidyHdr at ht
  intro s hs
  cases hk' : h.kind with
  | inst => rw [hk'] at ht; dsimp only at ht; rw [ht] at hs; simp at hs
  | seq k => rw [hk'] at ht; exact ht.2 s hs
  | dict d m => rw [hk'] at ht; exact (ht.2.2.1 s hs).1
  | _ => rw [hk'] at ht; exact ht.elim

/-! ### Well-formedness -/

def WFBody : Body → Prop
  | .alias t => WFT t
  | .record f doc es => doc = none ∧ (f = true → es ≠ []) ∧ ∀ e ∈ es, WFEntry f e
  | .frame ovs rest => WFFrame ovs rest
  | _ => False

theorem wfDecl_of {d : TDecl} (h1 : CamelName d.name) (h2 : WFBody d.body) : WFDecl d :=
  ⟨camelName_ident h1, camelName_class h1, h2⟩

theorem alnum_name_wf {n : Str} (h1 : n ≠ []) (h2 : Alnum n) : WFT (.name n) := by
  refine ⟨⟨h1, fun c hc => alnum_ident (h2 c hc)⟩, ?_⟩
  rintro rfl
  exact alnum_dot (h2 '.' (by simp)) rfl

theorem camel_wf {n : Str} (h : CamelName n) : WFT (.name n) := by
  refine alnum_name_wf ?_ (camelName_alnum h)
  obtain ⟨c, r, rfl, _⟩ := h
  simp

theorem any_wf : WFT (.name py!"Any") := alnum_name_wf (by decide) (by unfold Alnum; decide)

theorem atom_wf {E : Env} {t : Ty} (h : NeatTy t) : WFT (atom E t) := by
  unfold atom
  split
  · trivial
  · split
    · exact alnum_name_wf h.1 h.2
    · refine ⟨?_, ?_⟩
      all_goals
        intro hm
        have := h.2 _ hm
        revert this; decide

theorem plainName_not {n : Str} (h : PlainName n) : '"' ∉ n ∧ '\n' ∉ n ∧ '=' ∉ n := by
  refine ⟨?_, ?_, ?_⟩
  all_goals
    intro hm
    have := h.2 _ hm
    revert this; decide

theorem class_wf {E : Env} {n : Str} (h : PlainName n) : WFT (if E.isBuiltin n then .name n else .quoted n) := by
  split
  · refine ⟨⟨h.1, fun c hc => ?_⟩, ?_⟩
    · rcases h.2 c hc with h | rfl
      · exact alnum_ident h
      · decide
    · rintro rfl
      have := h.2 '.' (by simp)
      revert this; decide
  · exact ⟨(plainName_not h).1, (plainName_not h).2.1⟩

theorem unionOf_wf {ts : List TExpr} (h1 : ts ≠ []) (h : ∀ t ∈ ts, WFT t) : WFT (unionOf ts) := by
  match ts with
  | [] => exact absurd rfl h1
  | [t] => exact h t (by simp)
  | a :: b :: r => exact ⟨by simp, wfts_iff.mpr h⟩

theorem aTypes_ne (kids : List AOut) : aTypes kids ≠ [] := by
  unfold aTypes
  cases kids <;> simp

theorem aUnique_ne {ts : List TExpr} (h : ts ≠ []) : aUnique ts ≠ [] := by
  unfold aUnique
  have := uniqueTypes_ne_nil (ts := ts.map TExpr.print) (by simpa using h)
  simpa using this

theorem aTypes_wf {kids : List AOut} (h : ∀ k ∈ kids, WFT (aref k)) : ∀ t ∈ aTypes kids, WFT t := by
  unfold aTypes
  split
  · intro t ht; simp only [List.mem_singleton] at ht; subst ht; exact any_wf
  · intro t ht
    obtain ⟨k, hk, rfl⟩ := List.mem_map.mp ht
    exact h k hk

theorem aAlias_wf {kids : List AOut} (h : ∀ k ∈ kids, WFT (aref k)) : WFT (aAlias kids) :=
  unionOf_wf (aUnique_ne (aTypes_ne kids)) (fun t ht => aTypes_wf h t (aUnique_mem ht))

theorem aTuple_wf {S : Strategies} {kids : List AOut} (h : ∀ k ∈ kids, WFT (aref k)) : WFT (aTuple S kids) := by
  unfold aTuple
  split
  · split
    · exact any_wf
    · exact ⟨aTypes_ne kids, wfts_iff.mpr (aTypes_wf h)⟩
  · exact aAlias_wf h

theorem ident_check {n : Str} (h : (!n.isEmpty && n.all identChar) = true) : Ident n := by
  simp only [Bool.and_eq_true, Bool.not_eq_true', List.all_eq_true] at h
  exact ⟨by intro e; rw [e] at h; simp at h, h.2⟩

theorem seqCon_ident {S : Strategies} {k : SeqKind} (hk : k ≠ .tuple) : Ident (seqCon S k) ∧ seqCon S k ∉ reserved := by
  cases k with
  | tuple => exact absurd rfl hk
  | list => simp only [seqCon]; split <;> exact ⟨ident_check (by decide), by decide⟩
  | _ => simp only [seqCon]; exact ⟨ident_check (by decide), by decide⟩

theorem mapCon_ident {S : Strategies} {t : Ty} : Ident (mapCon S t) ∧ mapCon S t ∉ reserved := by
  unfold mapCon
  split
  · exact ⟨ident_check (by decide), by decide⟩
  · split <;> exact ⟨ident_check (by decide), by decide⟩

theorem key_ty_neat {k : Key} (h : NeatKey k) : NeatTy k.ty := by
  cases k with
  | str s =>
    show NeatTy Ty.str
    exact ⟨by decide, by decide⟩
  | none => exact ⟨by decide, by decide⟩
  | other t r => exact h.1

theorem keyExpr_wf {keys : List Key} (h : ∀ k ∈ keys, NeatKey k) : WFT (keyExpr keys) := by
  unfold keyExpr
  split
  · exact any_wf
  · rename_i hne
    apply unionOf_wf
    · have := uniqueTypes_ne_nil (ts := keys.map (fun k => k.ty.name)) (by
        intro e; rw [List.map_eq_nil_iff] at e; rw [e] at hne; exact hne rfl)
      simpa using this
    · intro t ht
      obtain ⟨s, hs, rfl⟩ := List.mem_map.mp ht
      obtain ⟨k, hk, rfl⟩ := List.mem_map.mp (mem_uniqueTypes.mp hs).1
      have := key_ty_neat (h k hk)
      exact alnum_name_wf this.1 this.2

theorem lookup_none_of_hidden {d : List (Key × Val)} (h : ∀ kv ∈ d, kv.1.hidden = false) (s : Str) :
    lookupKey (.str (hiddenPrefix ++ s)) d = none := by
  rw [lookupKey_none]
  intro hm
  obtain ⟨kv, hkv, e⟩ := List.mem_map.mp hm
  have := h kv hkv
  rw [e] at this
  simp only [Key.hidden] at this
  have hs : startsWith (hiddenPrefix ++ s) hiddenPrefix = true := by
    unfold startsWith
    simp
  rw [hs] at this; cases this

theorem keyDoc_none {m : DMeta} (h : ∀ kv ∈ m.data, kv.1.hidden = false) (s : Str) : keyDoc m s = none := by
  unfold keyDoc
  rw [lookup_none_of_hidden h]
  split <;> rfl

theorem classDoc_none {E : Env} {d : List (Key × Val)} (h : ∀ kv ∈ d, E.S.keyDoc = [] ∨ kv.1 ≠ .str E.S.keyDoc) :
    classDoc E d = none := by
  unfold classDoc
  split
  · rfl
  · rename_i hne
    have : lookupKey (.str E.S.keyDoc) d = none := by
      rw [lookupKey_none]
      intro hm
      obtain ⟨kv, hkv, e⟩ := List.mem_map.mp hm
      rcases h kv hkv with h | h
      · rw [h] at hne; exact hne rfl
      · exact h e
    rw [this]

theorem aref_wf {a : AOut} (h1 : CamelName a.name) (h2 : WFBody a.body) : WFT (aref a) := by
  unfold aref
  split
  · exact camel_wf h1
  · split
    · rename_i e; rw [e] at h2; exact h2
    · exact camel_wf h1

/-- Entries of a record are written for exactly the keys of the slots. -/
theorem mem_aEntries {E : Env} {m : DMeta} {kids : List (Key × AOut)} {e : Entry} :
    e ∈ aEntries E m kids ↔ ∃ s k, (Key.str s, k) ∈ kids ∧ e = aEntry E m s k := by
  unfold aEntries
  rw [List.mem_filterMap]
  constructor
  · rintro ⟨⟨key, k⟩, hk, he⟩
    cases key with
    | str s =>
      simp only [Option.some.injEq] at he
      exact ⟨s, k, hk, he.symm⟩
    | _ => simp at he
  · rintro ⟨s, k, hk, rfl⟩
    exact ⟨(.str s, k), hk, rfl⟩

theorem nodeOk_class {U : Uni} {s : Str} (h : nameOk U s = true) : ClassKey s := by
  have := Props.word_of_nameOk h
  constructor
  all_goals
    intro hm
    rcases this _ hm with h | h
    · rw [alnum_uni (by decide)] at h; revert h; decide
    · revert h; decide

theorem isTyped_str {S : Strategies} {m : DMeta} (h : m.isTyped S = true) : ∀ x ∈ m.data.map (·.1), ∃ s, x = .str s := by
  unfold DMeta.isTyped allStr at h
  rw [Bool.and_eq_true, List.all_eq_true] at h
  intro x hx
  obtain ⟨kv, hkv, rfl⟩ := List.mem_map.mp hx
  have := h.1 kv hkv
  cases hk : kv.1 with
  | str s => exact ⟨s, rfl⟩
  | _ => rw [hk] at this; cases this

theorem trim_slots {S : Strategies} {h : Hdr} (ht : TrimHdr S h) : ∀ s ∈ h.slots, s.key ≠ .none := by
  unfold TrimHdr at ht
  cases hk : h.kind with
  | inst => rw [hk] at ht; rw [ht]; simp
  | module => rw [hk] at ht; rw [show h.slots = [] from ht]; simp
  | io => rw [hk] at ht; rw [show h.slots = [] from ht]; simp
  | cls => rw [hk] at ht; rw [ht.1]; simp
  | ndarray => rw [hk] at ht; rw [ht.1]; simp
  | func => rw [hk] at ht; rw [ht.1]; simp
  | seq k => rw [hk] at ht; exact ht
  | dict data m => rw [hk] at ht; exact fun s hs => (ht.2.2.2.1 s hs).1
  | proxy => rw [hk] at ht; exact ht.2
  | frame i =>
    rw [hk] at ht
    intro s hs e
    have := ht.2.2 s hs
    rw [e] at this
    exact this

theorem plainLabel_key {k : Key} (h : PlainLabel k) : ∃ s, k = .str s ∧ ∀ c ∈ s, c.isAlphanum = true ∨ c = '_' ∨ c = ' ' := by
  cases k with
  | str s => exact ⟨s, rfl, h⟩
  | _ => exact h.elim

/-- The class of a frame with plain labels. -/
theorem frameBody_plain {E : Env} (hE : E.Fair) {kids : List (Key × AOut)} (hl : ∀ kk ∈ kids, PlainLabel kk.1) (hne : kids ≠ []) :
    ∃ ovs rest, frameBody E kids = .frame ovs rest ∧ stripPrefix overloadHead rest = none ∧
      All₂ (fun kk o => Labels kk.1 o.1 ∧ ']' ∉ o.1 ∧ o.2 = aref kk.2) kids ovs := by
  have hf : kids.filter (fun kk => literalKey kk.1) = kids := by
    rw [List.filter_eq_self]
    intro kk hk
    obtain ⟨s, e, _⟩ := plainLabel_key (hl kk hk)
    rw [e]; rfl
  have hemp : kids.isEmpty = false := by cases kids <;> simp_all
  unfold frameBody
  rw [hemp]
  simp only [Bool.false_eq_true, if_false, hf]
  refine ⟨_, _, rfl, ?_, ?_⟩
  · cases E.S.pandas <;> rfl
  · clear hne hemp hf
    induction kids with
    | nil => exact .nil
    | cons kk r ih =>
      refine .cons ?_ (ih (fun k hk => hl k (by simp [hk])))
      obtain ⟨s, e, hs⟩ := plainLabel_key (hl kk (by simp))
      have hr : reprKey E kk.1 = py!"'" ++ s ++ py!"'" := by rw [e]; exact hE.repr s hs
      refine ⟨⟨s, e, hr⟩, ?_, rfl⟩
      dsimp only
      rw [hr]
      intro hm
      simp only [List.mem_append, List.mem_singleton] at hm
      rcases hm with (hm | hm) | hm
      · revert hm; decide
      · rcases hs _ hm with h | h | h <;> revert h <;> decide
      · revert hm; decide

theorem body_wf {E : Env} (hE : E.Fair) {root : Str} {h : Hdr} {kids : List AOut} (ht : TrimHdr E.S h)
    (hl : h.slots.length = kids.length) (hn : NeatHdr root h) (hi : iterate h.slots kids = kids)
    (hk : ∀ k ∈ kids, WFT (aref k) ∧ CamelName k.name) : WFBody (aBody E h kids) := by
  have hk1 := fun k hm => (hk k hm).1
  unfold aBody
  rw [hi]
  unfold TrimHdr at ht
  dsimp only
  split
  · exact atom_wf hn.2.1.1
  · rename_i e
    rw [e] at ht
    unfold funcBody
    rcases ht.2 with hs | ⟨hl, text, m, hs⟩
    · rw [hs]
      exact alnum_name_wf (by decide) (by unfold Alnum; decide)
    · rw [hs]
      simp only [hl, if_true]
      trivial
  · rename_i n e
    rw [e] at ht
    exact ⟨ident_check (by decide), by decide, class_wf ht.2⟩
  · exact alnum_name_wf (by decide) (by unfold Alnum; decide)
  · exact alnum_name_wf (by decide) (by unfold Alnum; decide)
  · rename_i e
    rw [e] at ht
    refine ⟨?_, ?_⟩ <;> intro hm <;> simp only [List.mem_append] at hm <;> rcases hm with (hm | hm) | hm
    · revert hm; decide
    · exact (plainName_not ht.2).1 hm
    · revert hm; decide
    · revert hm; decide
    · exact (plainName_not ht.2).2.1 hm
    · revert hm; decide
  · exact aTuple_wf hk1
  · rename_i k hne e
    have : k ≠ .tuple := by rintro rfl; exact hne rfl
    exact ⟨(seqCon_ident this).1, (seqCon_ident this).2, aAlias_wf hk1⟩
  · rename_i data m e
    rw [e] at ht
    obtain ⟨_, a1, a2, a3, a4, a5⟩ := ht
    split
    · rename_i hty
      refine ⟨?_, ?_, ?_⟩
      · rw [classDoc_none a4]; rfl
      · intro hfun
        cases hs : h.slots with
        | nil =>
          simp only [isFunctional, a1 hs, allStr] at hfun
          cases hfun
        | cons s ss =>
          rw [hs] at hl
          cases kids with
          | nil => simp at hl
          | cons k ks =>
            obtain ⟨x, hx⟩ := isTyped_str hty _ (a3 s (by rw [hs]; simp)).2
            have : aEntry E m x k ∈ aEntries E m (((s :: ss).map (·.key)).zip (k :: ks)) := by
              rw [mem_aEntries]
              exact ⟨x, k, by simp [hx], rfl⟩
            intro e
            rw [e] at this
            simp at this
      · intro e he
        obtain ⟨s, k, hm, rfl⟩ := mem_aEntries.mp he
        have hm' := List.of_mem_zip hm
        obtain ⟨sl, hsl, hse⟩ := List.mem_map.mp hm'.1
        refine ⟨?_, ?_, ?_⟩
        · simp only [aEntry]
          split
          · rw [toCamel_camelName (hk k hm'.2).2]
            exact camel_wf (hk k hm'.2).2
          · exact hk1 k hm'.2
        · simp only [aEntry, keyDoc_none a5]; rfl
        · simp only [aEntry]
          split
          · have := (hn.2.2.1 sl hsl).1
            rw [hse] at this
            refine ⟨?_, ?_, ?_, ?_⟩ <;> intro hc
            · exact (this _ hc).2.1 rfl
            · exact (this _ hc).2.2.1 rfl
            · exact (this _ hc).2.2.2.1 rfl
            · exact (this _ hc).2.2.2.2 rfl
          · rename_i hf
            simp only [isFunctional, Bool.not_eq_true, Bool.not_eq_false', Bool.and_eq_true, List.all_eq_true] at hf
            have hm2 := (a3 sl hsl).2
            rw [hse] at hm2
            obtain ⟨kv, hkv, e2⟩ := List.mem_map.mp hm2
            have := hf.2 kv hkv
            rw [e2] at this
            simp only [Bool.and_eq_true] at this
            exact nodeOk_class this.2
    · refine ⟨mapCon_ident.1, mapCon_ident.2, keyExpr_wf ?_, aAlias_wf hk1⟩
      intro k hk
      obtain ⟨s, hs, rfl⟩ := List.mem_map.mp hk
      exact (hn.2.2.1 s hs).1
  · refine ⟨mapCon_ident.1, mapCon_ident.2, keyExpr_wf ?_, aAlias_wf hk1⟩
    intro k hk
    obtain ⟨s, hs, rfl⟩ := List.mem_map.mp hk
    exact (hn.2.2.1 s hs).1
  · rename_i i e
    rw [e] at ht
    cases kids with
    | nil => simp only [List.zip_nil_right]; exact ⟨⟨by decide, by decide⟩, by decide⟩
    | cons a r =>
      have hz : (h.slots.map (·.key)).zip (a :: r) ≠ [] := by
        intro e
        have := congrArg List.length e
        simp only [List.length_zip, List.length_map, hl, List.length_cons, List.length_nil] at this
        omega
      obtain ⟨ovs, rest, e1, h1, h2⟩ := frameBody_plain hE (kids := (h.slots.map (·.key)).zip (a :: r)) (fun kk hkk => by
        obtain ⟨s, hs, e⟩ := List.mem_map.mp (List.of_mem_zip (show (kk.1, kk.2) ∈ _ from hkk)).1
        rw [← e]
        exact ht.2.2 s hs) hz
      rw [e1]
      refine ⟨?_, ?_, h1⟩
      · intro e
        generalize (h.slots.map (·.key)).zip (a :: r) = z at h2 hz
        rw [e] at h2
        cases h2
        exact hz rfl
      · intro o ho
        obtain ⟨kk, hkk, _, h3, h4⟩ := h2.mem_right o ho
        exact ⟨h3, h4 ▸ hk1 _ (List.of_mem_zip (show (kk.1, kk.2) ∈ _ from hkk)).2⟩

theorem tidy_iterate {E : Env} {κ : SeqKind} {h : Hdr} {kids : List Node} (ht : TidyHdr E.S κ h)
    (hl : h.slots.length = kids.length) : iterate h.slots (absList E kids) = absList E kids :=
  iterate_seq (by rw [absList_eq_map, List.length_map]; exact hl) (tidy_slots ht)

theorem trim_iterate {E : Env} {h : Hdr} {kids : List Node} (ht : TrimHdr E.S h)
    (hl : h.slots.length = kids.length) : iterate h.slots (absList E kids) = absList E kids :=
  iterate_seq (by rw [absList_eq_map, List.length_map]; exact hl) (trim_slots ht)

mutual
theorem tidy_trim {S : Strategies} {κ : SeqKind} : ∀ n : Node, Tidy S κ n → Trim S n
  | .mk h kids, ht => by
    simp only [Tidy] at ht
    refine ⟨?_, ht.2.1, tidyList_trim kids ht.2.2⟩
    have hT := ht.1
    unfold TidyHdr at hT
    unfold TrimHdr
    cases hk : h.kind with
    | inst => rw [hk] at hT; exact hT
    | seq k => rw [hk] at hT; exact hT.2
    | dict data m => rw [hk] at hT; exact ⟨hT.2.2.2.2.2, fun e => absurd e hT.1, hT.2.1, hT.2.2.1, hT.2.2.2.1, hT.2.2.2.2.1⟩
    | _ => rw [hk] at hT; exact hT.elim
theorem tidyList_trim {S : Strategies} {κ : SeqKind} : ∀ l : List Node, TidyList S κ l → TrimList S l
  | [], _ => trivial
  | k :: r, h => ⟨tidy_trim k h.1, tidyList_trim r h.2⟩
end

mutual
theorem node_wf {E : Env} (hE : E.Fair) {root : Str} : ∀ n : Node, Trim E.S n → NodeAll (NeatHdr root) n →
    WFT (aref (n.abs E)) ∧ CamelName (n.abs E).name ∧ ∀ d ∈ (n.abs E).decls, WFDecl d ∧ root <+: d.name
  | .mk h kids, ht, hn => by
    simp only [Trim] at ht
    simp only [NodeAll] at hn
    have hk := nodes_wf hE (root := root) kids ht.2.2 hn.2
    have hi := trim_iterate (E := E) ht.1 ht.2.1
    have hb : WFBody (aBody E h (absList E kids)) := by
      refine body_wf hE ht.1 (by rw [absList_eq_map, List.length_map]; exact ht.2.1) hn.1 hi ?_
      intro a ha
      rw [absList_eq_map] at ha
      obtain ⟨k, hkm, rfl⟩ := List.mem_map.mp ha
      exact ⟨(hk k hkm).1, (hk k hkm).2.1⟩
    refine ⟨aref_wf hn.1.1.1 hb, hn.1.1.1, ?_⟩
    intro d hd
    rcases decls_mem hi hd with ⟨_, rfl⟩ | ⟨a, ha, hd⟩
    · exact ⟨wfDecl_of hn.1.1.1 hb, hn.1.1.2⟩
    · rw [absList_eq_map] at ha
      obtain ⟨k, hkm, rfl⟩ := List.mem_map.mp ha
      exact (hk k hkm).2.2 d hd
theorem nodes_wf {E : Env} (hE : E.Fair) {root : Str} : ∀ l : List Node, TrimList E.S l → NodeAllList (NeatHdr root) l →
    ∀ n ∈ l, WFT (aref (n.abs E)) ∧ CamelName (n.abs E).name ∧ ∀ d ∈ (n.abs E).decls, WFDecl d ∧ root <+: d.name
  | [], _, _, n, h => by simp at h
  | k :: r, ht, hn, n, h => by
    rcases List.mem_cons.mp h with e | h
    · rw [e]; exact node_wf hE (root := root) k ht.1 hn.1
    · exact nodes_wf hE (root := root) r ht.2 hn.2 n h
end

/-! ### Admission -/

theorem print_inj {t u : TExpr} (ht : WFT t) (hu : WFT u) (h : t.print = u.print) : t = u := by
  have h1 := rd_all (rd_print ht)
  have h2 := rd_all (rd_print hu)
  rw [h, h2] at h1
  exact (Option.some.inj h1).symm

theorem pick_eq {ts : List TExpr} (hw : ∀ t ∈ ts, WFT t) {t : TExpr} (ht : t ∈ ts) : pick ts t.print = t := by
  unfold pick
  cases hf : ts.find? (fun u => u.print == t.print) with
  | none =>
    rw [List.find?_eq_none] at hf
    exact absurd (by simp) (hf t ht)
  | some u =>
    have h1 := List.mem_of_find?_eq_some hf
    have h2 := List.find?_some hf
    simp only [beq_iff_eq] at h2
    exact print_inj (hw u h1) (hw t ht) h2

theorem mem_aUnique {ts : List TExpr} (hw : ∀ t ∈ ts, WFT t) {t : TExpr} (ht : t ∈ ts)
    (hn : ¬ (t.print = py!"int" ∧ py!"float" ∈ ts.map TExpr.print)) : t ∈ aUnique ts := by
  unfold aUnique
  refine List.mem_map.mpr ⟨t.print, mem_uniqueTypes.mpr ⟨List.mem_map_of_mem ht, hn⟩, pick_eq hw ht⟩

theorem admits_int {Γ : List TDecl} {v : Val} (hi : ¬ Declared Γ py!"int") (h : Admits Γ (.name py!"int") v) :
    v.ty.name = py!"int" := by
  generalize e : TExpr.name py!"int" = t at h
  cases h with
  | any => exact absurd (TExpr.name.inj e) (by decide)
  | cls => injection e with e; exact e.symm
  | promote => exact absurd (TExpr.name.inj e) (by decide)
  | alias hd => injection e with e; subst e; exact absurd ⟨_, hd.1, rfl⟩ hi
  | record hd => injection e with e; subst e; exact absurd ⟨_, hd.1, rfl⟩ hi
  | frame hd => injection e with e; subst e; exact absurd ⟨_, hd.1, rfl⟩ hi
  | anyFrame => exact absurd (TExpr.name.inj e) (by decide)
  | _ => cases e

theorem int_name {t : TExpr} (hw : WFT t) {n : Str} (hn : WFT (.name n)) (h : t.print = n) : t = .name n :=
  print_inj hw hn h

theorem aUnique_admits {Γ : List TDecl} {ts : List TExpr} (hw : ∀ t ∈ ts, WFT t) (hi : ¬ Declared Γ py!"int")
    (hf : ¬ Declared Γ py!"float") {t : TExpr} (ht : t ∈ ts) {v : Val} (h : Admits Γ t v) : ∃ u ∈ aUnique ts, Admits Γ u v := by
  by_cases hc : t.print = py!"int" ∧ py!"float" ∈ ts.map TExpr.print
  · obtain ⟨h1, h2⟩ := hc
    have e := int_name (hw t ht) (alnum_name_wf (by decide) (by unfold Alnum; decide)) h1
    subst e
    obtain ⟨u, hu, he⟩ := List.mem_map.mp h2
    refine ⟨u, mem_aUnique hw hu ?_, ?_⟩
    · rintro ⟨h3, _⟩
      rw [he] at h3
      revert h3; decide
    · rw [int_name (hw u hu) (alnum_name_wf (by decide) (by unfold Alnum; decide)) he]
      exact .promote v hf (admits_int hi h)
  · exact ⟨t, mem_aUnique hw ht hc, h⟩

structure Names (Γ : List TDecl) (root : Str) : Prop where
  fixed : ∀ n ∈ py!"int" :: py!"str" :: py!"dict" :: typingNames, ¬ root <+: n
  pfx : ∀ n, Declared Γ n → root <+: n

theorem Names.shadow {Γ : List TDecl} {root : Str} (h : Names Γ root) : NoShadow Γ := by
  intro n hn hd
  exact h.fixed n (by simp [hn]) (h.pfx n hd)

theorem Names.int {Γ : List TDecl} {root : Str} (h : Names Γ root) : ¬ Declared Γ py!"int" :=
  fun hd => h.fixed _ (by simp) (h.pfx _ hd)

theorem Names.ty {Γ : List TDecl} {root : Str} (h : Names Γ root) {t : Ty} (ht : TyP root t) : ¬ Declared Γ t.name :=
  fun hd => ht.2 (h.pfx _ hd)

theorem aAlias_admits {Γ : List TDecl} {root : Str} (hN : Names Γ root) {kids : List AOut} (hw : ∀ k ∈ kids, WFT (aref k))
    {k : AOut} (hk : k ∈ kids) {v : Val} (h : Admits Γ (aref k) v) : Admits Γ (aAlias kids) v := by
  have ht : aref k ∈ aTypes kids := by
    unfold aTypes
    split
    · rename_i e; cases kids with
      | nil => simp at hk
      | cons => cases e
    · exact List.mem_map_of_mem hk
  obtain ⟨u, hu, ha⟩ := aUnique_admits (aTypes_wf hw) hN.int (hN.shadow _ (by decide)) ht h
  exact admits_unionOf hN.shadow hu ha

theorem keyExpr_admits {Γ : List TDecl} {root : Str} (hN : Names Γ root) {keys : List Key} (hk : ∀ k ∈ keys, KeyP root k)
    {k : Key} (h : k ∈ keys) : Admits Γ (keyExpr keys) (.inst k.ty none) := by
  unfold keyExpr
  rw [if_neg (by
    intro e
    cases keys with
    | nil => simp at h
    | cons => cases e)]
  by_cases hc : k.ty.name = py!"int" ∧ py!"float" ∈ keys.map (fun k => k.ty.name)
  · refine admits_unionOf hN.shadow (t := .name py!"float") ?_ (.promote _ (hN.shadow _ (by decide)) hc.1)
    refine List.mem_map_of_mem (mem_uniqueTypes.mpr ⟨hc.2, ?_⟩)
    rintro ⟨e, _⟩
    revert e; decide
  · refine admits_unionOf hN.shadow (t := .name k.ty.name) ?_ (.cls (.inst k.ty none) ?_)
    · exact List.mem_map_of_mem (mem_uniqueTypes.mpr ⟨List.mem_map_of_mem h, hc⟩)
    · exact fun hd => (hk k h).2 (hN.pfx _ hd)

theorem aref_admits {Γ : List TDecl} {a : AOut} {t : TExpr} {v : Val} (hb : a.body = .alias t)
    (hd : a.perm = true → Defines Γ a.name a.body) (h : Admits Γ t v) : Admits Γ (aref a) v := by
  unfold aref
  split
  · rename_i hp
    exact .alias (hb ▸ hd hp) h
  · rw [hb]; exact h

theorem mapCon_fits {S : Strategies} {t : Ty} (h : t.name ≠ py!"mappingproxy") : mappingFits .dict (mapCon S t) = true ∧
    mapCon S t ∈ typingNames := by
  unfold mapCon
  rw [if_neg h]
  split <;> exact ⟨by decide, by decide⟩

theorem seqCon_typing {S : Strategies} {k : SeqKind} : seqCon S k ∈ typingNames := by
  cases k with
  | list => simp only [seqCon]; split <;> decide
  | _ => simp only [seqCon]; decide

theorem seqCon_of {E : Env} {h : Hdr} {k : SeqKind} (hk : h.kind = .seq k) (hne : k ≠ .tuple) (kids : List AOut) :
    aBody E h kids = .alias (.app (seqCon E.S k) (aAlias (iterate h.slots kids))) := by
  unfold aBody
  rw [hk]
  cases k with
  | tuple => exact absurd rfl hne
  | _ => rfl

theorem no_items {κ : SeqKind} {hs : List H} {ks : List Key} {vs : List Val} (hne : ks ≠ []) (hl : ks.length = vs.length)
    (hit : ∀ kv ∈ ks.zip vs, FitsItem κ hs kv) (hp : ∀ h ∈ hs, plainH h) : False := by
  cases ks with
  | nil => exact hne rfl
  | cons k ks =>
    cases vs with
    | nil => simp at hl
    | cons v vs =>
      obtain ⟨x, hx, hok⟩ := fitsItem_iff.mp (hit (k, v) (by simp))
      have := hp x hx
      cases x <;> first | exact this.elim | exact hok.elim

theorem zip_ne {α} {slots : List Slot} {kids : List Node} (h1 : slots ≠ []) (hl : slots.length = kids.length) (f : Node → α) :
    (slots.map (·.key)).zip (kids.map f) ≠ [] := by
  cases slots with
  | nil => exact absurd rfl h1
  | cons s ss =>
    cases kids with
    | nil => simp at hl
    | cons k ks => simp

theorem zip_unique {α β} : ∀ {ks : List α} {l : List β} {a : α} {b c : β}, ks.Nodup → (a, b) ∈ ks.zip l → (a, c) ∈ ks.zip l → b = c
  | [], _, _, _, _, _, h, _ => by simp at h
  | _ :: _, [], _, _, _, _, h, _ => by simp at h
  | k :: ks, x :: l, a, b, c, hn, h1, h2 => by
    rw [List.nodup_cons] at hn
    simp only [List.zip_cons_cons, List.mem_cons, Prod.mk.injEq] at h1 h2
    rcases h1 with ⟨e1, e2⟩ | h1 <;> rcases h2 with ⟨e3, e4⟩ | h2
    · rw [e2, e4]
    · exact absurd (e1 ▸ (List.of_mem_zip h2).1) hn.1
    · exact absurd (e3 ▸ (List.of_mem_zip h1).1) hn.1
    · exact zip_unique hn.2 h1 h2

theorem all₂_get {α β} {R : α → β → Prop} {l : List α} {l' : List β} (h : All₂ R l l') : ∀ (i : Nat) (h1 : i < l.length)
    (h2 : i < l'.length), R l[i] l'[i] := by
  induction h with
  | nil => intro i h1; simp at h1
  | cons h _ ih =>
    intro i h1 h2
    cases i with
    | zero => exact h
    | succ i => exact ih i (by simpa using h1) (by simpa using h2)

mutual
theorem node_admits {E : Env} (hE : E.Fair) {κ : SeqKind} {root : Str} {Γ : List TDecl} (hN : Names Γ root) : ∀ (n : Node) (v : Val),
    Tidy E.S κ n → NodeAll (NeatHdr root) n → (∀ d ∈ (n.abs E).decls, Defines Γ d.name d.body) →
    Fits κ (n.hash E.S) v → Admits Γ (aref (n.abs E)) v
  | .mk h kids, v, ht, hn, hd, hf => by
    have hself := hd
    simp only [Tidy] at ht
    simp only [NodeAll] at hn
    have hw := nodes_wf hE (root := root) kids (tidyList_trim kids ht.2.2) hn.2
    have hi := tidy_iterate (E := E) ht.1 ht.2.1
    have hw1 : ∀ a ∈ absList E kids, WFT (aref a) := by
      intro a ha
      rw [absList_eq_map] at ha
      obtain ⟨k, hkm, rfl⟩ := List.mem_map.mp ha
      exact (hw k hkm).1
    have hrec := nodes_admits hE (κ := κ) hN kids ht.2.2 hn.2 (by
      intro k hk d hkd
      exact hd d (decls_kid hi (by rw [absList_eq_map]; exact List.mem_map_of_mem hk) hkd))
    have hmem : ∀ k ∈ kids, k.abs E ∈ absList E kids := by
      intro k hk; rw [absList_eq_map]; exact List.mem_map_of_mem hk
    have hdef : ((Node.mk h kids).abs E).perm = true → Defines Γ ((Node.mk h kids).abs E).name ((Node.mk h kids).abs E).body := by
      intro hp
      exact hd ⟨h.name, aBody E h (absList E kids)⟩ (decls_self hp)
    have hT := ht.1
    simp only [Node.hash, hashList_eq_map] at hf
    unfold TidyHdr at hT
    cases hk : h.kind with
    | inst =>
      simp only [hashOf, hk, Fits] at hf
      refine aref_admits (t := atom E h.ty) ?_ hdef ?_
      · simp only [Node.abs, aCombine, aBody, hk]
      · rw [← hf.2]
        exact atom_admits E hN.shadow v (hN.ty (hf.2 ▸ hn.1.2.1))
    | seq k =>
      rw [hk] at hT
      by_cases hkt : k = .tuple
      · subst hkt
        refine aref_admits (t := aTuple E.S (absList E kids)) ?_ hdef ?_
        · simp only [Node.abs, aCombine, aBody, hk, hi]
        · simp only [hashOf, hk] at hf
          unfold aTuple
          split
          · rename_i hS
            rw [hS] at hf
            simp only [reduceCtorEq, if_false, Fits] at hf
            obtain ⟨ty, es, rfl, hes⟩ := hf
            split
            · exact .tupleOf (hN.shadow _ (by decide)) (fun e _ => .any e (hN.shadow _ (by decide)))
            · rename_i hne
              have he := fitsEach_iff.mp hes
              have hkne : kids ≠ [] := by
                rintro rfl
                exact hne rfl
              have hat : aTypes (absList E kids) = kids.map (fun k => aref (k.abs E)) := by
                unfold aTypes
                rw [if_neg (by rw [absList_eq_map]; simpa using hkne), absList_eq_map, List.map_map]
                rfl
              rw [hat]
              have hl := All₂.length_eq he
              rw [List.length_map] at hl
              refine .tuple (hN.shadow _ (by decide)) (by simpa using hl) ?_
              rintro ⟨t, e⟩ hp
              rw [List.mem_iff_getElem] at hp
              obtain ⟨i, hi1, hp⟩ := hp
              simp only [List.length_zip, List.length_map] at hi1
              simp only [List.getElem_zip, List.getElem_map, Prod.mk.injEq] at hp
              have hik : i < kids.length := by omega
              have hie : i < es.length := by omega
              have hfi : Fits κ (kids[i].hash E.S) es[i] := by
                have := all₂_get he i (by simpa using hik) hie
                simpa using this
              rw [← hp.1, ← hp.2]
              exact hrec kids[i] (List.getElem_mem _) _ hfi
          · rename_i hS
            rw [hS] at hf
            simp only [if_true, Fits] at hf
            have hκ : κ = .tuple := by
              rcases hT.1 with h | h
              · exact h.symm
              · rw [hS] at h; exact absurd h.2 (by decide)
            subst hκ
            rcases hf with ⟨ty, es, rfl, hpl, hes⟩ | ⟨ty, ks, vs, rfl, hne, hlen, hit, _⟩
            · refine .tupleOf (hN.shadow _ (by decide)) ?_
              intro e he
              obtain ⟨x, hx, hfx⟩ := fitsSome_iff.mp (hes e he)
              obtain ⟨k, hkm, rfl⟩ := List.mem_map.mp hx
              exact aAlias_admits hN hw1 (hmem k hkm) (hrec k hkm e hfx)
            · exact (no_items hne hlen hit (by
                intro x hx
                obtain ⟨k, hkm, rfl⟩ := List.mem_map.mp hx
                exact tidy_plainH (tidyList_iff.mp ht.2.2 k hkm))).elim
      · refine aref_admits (t := .app (seqCon E.S k) (aAlias (absList E kids))) ?_ hdef ?_
        · show aBody E h (absList E kids) = _
          rw [seqCon_of hk hkt, hi]
        · have hf : Fits κ (.set (kids.map fun n => n.hash E.S)) v := by
            have : hashOf E.S h (kids.map fun n => n.hash E.S) = .set (kids.map fun n => n.hash E.S) := by
              unfold hashOf
              rw [hk]
              cases k with
              | tuple => exact absurd rfl hkt
              | _ => rfl
            rw [← this]; exact hf
          simp only [Fits] at hf
          have hκ : k = κ := by
            rcases hT.1 with h | h
            · exact h
            · exact absurd h.1 hkt
          rcases hf with ⟨ty, es, rfl, hpl, hes⟩ | ⟨ty, ks, vs, rfl, hne, hlen, hit, _⟩
          · rw [← hκ]
            refine .app (hN.shadow _ seqCon_typing) (seqCon_fits hkt) ?_
            intro e he
            obtain ⟨x, hx, hfx⟩ := fitsSome_iff.mp (hes e he)
            obtain ⟨k, hkm, rfl⟩ := List.mem_map.mp hx
            exact aAlias_admits hN hw1 (hmem k hkm) (hrec k hkm e hfx)
          · exact (no_items hne hlen hit (by
              intro x hx
              obtain ⟨k, hkm, rfl⟩ := List.mem_map.mp hx
              exact tidy_plainH (tidyList_iff.mp ht.2.2 k hkm))).elim
    | dict data m =>
      rw [hk] at hT
      obtain ⟨a1, a2, a3, a4, a5⟩ := hT
      simp only [hashOf, hk] at hf
      by_cases hty : m.isTyped E.S = true
      · rw [if_pos hty] at hf
        simp only [Fits] at hf
        rcases hf with ⟨ty, es, rfl, hpl, hes⟩ | ⟨ty, ks, vs, rfl, hne, hlen, hit, hreq⟩
        · exfalso
          obtain ⟨x, hx⟩ := List.exists_mem_of_ne_nil _ (zip_ne a1 ht.2.1 (fun n => n.hash E.S))
          exact hpl _ (List.mem_map_of_mem hx)
        · have hp : ((Node.mk h kids).abs E).perm = true := by
            simp [Node.abs, aCombine, permOf, hk, hty]
          have hb : ((Node.mk h kids).abs E).body = recordBody E data m ((h.slots.map (·.key)).zip (absList E kids)) := by
            simp only [Node.abs, aCombine, aBody, hk, hty, if_true]
          have hdf := hdef hp
          rw [hb] at hdf
          have hr : aref ((Node.mk h kids).abs E) = .name h.name := by
            unfold aref
            rw [if_pos hp]
            rfl
          rw [hr]
          have hent : ∀ s k, (Key.str s, k) ∈ (h.slots.map (·.key)).zip kids →
              aEntry E m s (k.abs E) ∈ aEntries E m ((h.slots.map (·.key)).zip (absList E kids)) := by
            intro s k hm
            refine mem_aEntries.mpr ⟨s, k.abs E, ?_, rfl⟩
            rw [absList_eq_map, List.zip_map_right]
            exact List.mem_map_of_mem hm
          refine .record hdf ?_ ?_ ?_
          · intro e he _
            obtain ⟨s, a, hm, rfl⟩ := mem_aEntries.mp he
            rw [absList_eq_map, List.zip_map_right] at hm
            obtain ⟨⟨x, k⟩, hxk, e⟩ := List.mem_map.mp hm
            simp only [Prod.map, Prod.mk.injEq, id] at e
            obtain ⟨rfl, rfl⟩ := e
            refine hreq (.typed (.str s) (k.hash E.S)) ?_ _ _ rfl
            refine List.mem_map.mpr ⟨(.str s, k.hash E.S), ?_, rfl⟩
            rw [List.zip_map_right]
            exact List.mem_map.mpr ⟨(.str s, k), hxk, rfl⟩
          · intro key hkey
            obtain ⟨i, hi1, rfl⟩ := List.mem_iff_getElem.mp hkey
            obtain ⟨x, hx, hok⟩ := fitsItem_iff.mp (hit (ks[i], vs[i]'(by omega)) (by
              rw [List.mem_iff_getElem]
              exact ⟨i, by simp only [List.length_zip]; omega, by simp⟩))
            obtain ⟨⟨k1, h1⟩, hkh, rfl⟩ := List.mem_map.mp hx
            rw [List.zip_map_right] at hkh
            obtain ⟨⟨x, k⟩, hxk, e⟩ := List.mem_map.mp hkh
            simp only [Prod.map, Prod.mk.injEq, id] at e
            obtain ⟨rfl, rfl⟩ := e
            obtain ⟨sl, hsl, hse⟩ := List.mem_map.mp (List.of_mem_zip hxk).1
            obtain ⟨s, hs⟩ := isTyped_str hty _ (a3 sl hsl).2
            rw [hse] at hs
            subst hs
            exact ⟨_, hent s k hxk, hok.1.symm⟩
          · rintro ⟨key, w⟩ hkv e he hke
            obtain ⟨s, a, hm, rfl⟩ := mem_aEntries.mp he
            rw [absList_eq_map, List.zip_map_right] at hm
            obtain ⟨⟨x, k⟩, hxk, e⟩ := List.mem_map.mp hm
            simp only [Prod.map, Prod.mk.injEq, id] at e
            obtain ⟨rfl, rfl⟩ := e
            obtain ⟨x, hx, hok⟩ := fitsItem_iff.mp (hit _ hkv)
            obtain ⟨⟨k1, h1⟩, hkh, rfl⟩ := List.mem_map.mp hx
            rw [List.zip_map_right] at hkh
            obtain ⟨⟨x, k'⟩, hxk', e⟩ := List.mem_map.mp hkh
            simp only [Prod.map, Prod.mk.injEq, id] at e
            obtain ⟨rfl, rfl⟩ := e
            have hx' : x = .str s := by
              have := hok.1
              dsimp only at this hke
              rw [this, hke]
              rfl
            subst hx'
            have hkk := zip_unique a2 hxk hxk'
            subst hkk
            have hadm := hrec k (List.of_mem_zip hxk).2 w hok.2
            simp only [aEntry]
            split
            · rename_i hpk
              rw [toCamel_camelName (hw k (List.of_mem_zip hxk).2).2.1]
              unfold aref at hadm
              rw [if_pos hpk] at hadm
              exact hadm
            · exact hadm
      · rw [if_neg hty] at hf
        simp only [Fits] at hf
        rcases hf with ⟨ty, es, rfl, hpl, hes⟩ | ⟨ty, ks, vs, rfl, hne, hlen, hit, hreq⟩
        · exfalso
          obtain ⟨x, hx⟩ := List.exists_mem_of_ne_nil _ (zip_ne a1 ht.2.1 (fun n => n.hash E.S))
          exact hpl _ (List.mem_map_of_mem hx)
        · refine aref_admits (t := mapExpr E h (absList E kids)) ?_ hdef ?_
          · simp only [Node.abs, aCombine, aBody, hk, hty, if_false, hi, Bool.false_eq_true]
          · have hitem : ∀ kv ∈ ks.zip vs, ∃ x k, (x, k) ∈ (h.slots.map (·.key)).zip kids ∧ x.ty = kv.1.ty ∧
                Fits κ (k.hash E.S) kv.2 := by
              intro kv hkv
              obtain ⟨x, hx, hok⟩ := fitsItem_iff.mp (hit _ hkv)
              obtain ⟨⟨k1, h1⟩, hkh, rfl⟩ := List.mem_map.mp hx
              rw [List.zip_map_right] at hkh
              obtain ⟨⟨x, k⟩, hxk, e⟩ := List.mem_map.mp hkh
              simp only [Prod.map, Prod.mk.injEq, id] at e
              obtain ⟨rfl, rfl⟩ := e
              exact ⟨_, k, hxk, hok.1, hok.2⟩
            have hfit := mapCon_fits (S := E.S) a5.2
            refine .mapping (hN.shadow _ hfit.2) hfit.1 ?_ ?_
            · intro key hkey
              obtain ⟨i, hi1, rfl⟩ := List.mem_iff_getElem.mp hkey
              obtain ⟨x, k, hxk, e, _⟩ := hitem (ks[i], vs[i]'(by omega)) (by
                rw [List.mem_iff_getElem]
                exact ⟨i, by simp only [List.length_zip]; omega, by simp⟩)
              rw [← e]
              refine keyExpr_admits hN ?_ (List.of_mem_zip hxk).1
              intro k hk
              obtain ⟨s, hs, rfl⟩ := List.mem_map.mp hk
              exact hn.1.2.2.1 s hs
            · intro w hw'
              obtain ⟨i, hi1, rfl⟩ := List.mem_iff_getElem.mp hw'
              obtain ⟨x, k, hxk, _, hfk⟩ := hitem (ks[i]'(by omega), vs[i]) (by
                rw [List.mem_iff_getElem]
                exact ⟨i, by simp only [List.length_zip]; omega, by simp⟩)
              have hkm := (List.of_mem_zip hxk).2
              exact aAlias_admits hN hw1 (hmem k hkm) (hrec k hkm _ hfk)
    | _ => rw [hk] at hT; exact hT.elim
theorem nodes_admits {E : Env} (hE : E.Fair) {κ : SeqKind} {root : Str} {Γ : List TDecl} (hN : Names Γ root) : ∀ (l : List Node),
    TidyList E.S κ l → NodeAllList (NeatHdr root) l → (∀ n ∈ l, ∀ d ∈ (n.abs E).decls, Defines Γ d.name d.body) →
    ∀ n ∈ l, ∀ v, Fits κ (n.hash E.S) v → Admits Γ (aref (n.abs E)) v
  | [], _, _, _, n, h => by simp at h
  | k :: r, ht, hn, hd, n, h => by
    intro v hv
    rcases List.mem_cons.mp h with e | h
    · rw [e] at hv ⊢
      exact node_admits hE (κ := κ) hN k v ht.1 hn.1 (hd k (by simp)) hv
    · exact nodes_admits hE (κ := κ) hN r ht.2 hn.2 (fun n hn => hd n (by simp [hn])) n h v hv
end

/-! ### Neat data is regular -/

theorem neatTy_ok {U : Uni} {t : Ty} (h : NeatTy t) : TyOk U t := by
  refine Props.ascii_word (fun c hc => ?_)
  have := asciiAlnum_iff.mp (h.2 c hc)
  exact ⟨this.1, .inl this.2⟩

theorem neatKey_ok {U : Uni} {k : Key} (h : NeatKey k) : KeyOk U k := by
  cases k with
  | str s => exact caseSafe_ascii (fun c hc => (h c hc).1)
  | none => trivial
  | other t r => exact ⟨neatTy_ok h.1, caseSafe_ascii h.2⟩

mutual
theorem every_imp {p q : Val → Prop} (h : ∀ v, p v → q v) : ∀ (v : Val), Every p v → Every q v
  | .inst _ _, hv | .cls _ _, hv | .module _, hv | .io _, hv | .ndarray _ _, hv | .func _, hv => h _ hv
  | .seq _ _ es, hv => ⟨h _ hv.1, everyList_imp h es hv.2⟩
  | .map _ _ _ vs, hv => ⟨h _ hv.1, everyList_imp h vs hv.2⟩
theorem everyList_imp {p q : Val → Prop} (h : ∀ v, p v → q v) : ∀ (l : List Val), EveryList p l → EveryList q l
  | [], _ => trivial
  | v :: l, hv => ⟨every_imp h v hv.1, everyList_imp h l hv.2⟩
end

/-- Everything besides functions that are not lambdas and data frames with labels that are not literals. -/
def PlainAt : Val → Prop
  | .inst _ _ | .seq _ _ _ | .map .dict _ _ _ | .map .proxy _ _ _ | .module _ | .io _ => True
  | .cls _ n | .ndarray _ n => PlainName n
  | .func f => Counted f
  | .map (.frame i) _ _ _ => i.literalLabels = true

theorem counted_ok {f : FuncInfo} (h : Counted f) : FuncOk f := by
  rcases h with h | ⟨hl, text, n, h⟩
  · exact ⟨by rw [h]; simp, fun _ _ e => by rw [h] at e; cases e⟩
  · exact ⟨by rw [h]; simp, fun _ _ _ e => by rw [hl] at e; cases e⟩

theorem plain_printable {v : Val} (h : Every PlainAt v) : Every Printable v :=
  every_imp (fun w hw => by
    cases w with
    | cls => exact (plainName_not hw).2.2
    | ndarray => exact (plainName_not hw).2.2
    | map k => cases k <;> first | exact hw | trivial
    | _ => first | trivial | exact hw.elim) v h

mutual
theorem plain_func : ∀ v : Val, Every PlainAt v → ∀ {p q}, ValAll p q (fun _ => True) v → ValAll p q FuncOk v
  | .inst .., _, _, _, h => h
  | .seq k t es, h, _, _, h' => ⟨h'.1, plains_func es h.2 h'.2⟩
  | .map _ t ks vs, h, _, _, h' => ⟨h'.1, h'.2.1, plains_func vs h.2 h'.2.2⟩
  | .func _, h, _, _, h' => ⟨h'.1, counted_ok h⟩
  | .cls .., _, _, _, h => h
  | .module _, _, _, _, h => h
  | .io _, _, _, _, h => h
  | .ndarray .., _, _, _, h => h
theorem plains_func : ∀ l : List Val, EveryList PlainAt l → ∀ {p q}, ValAllList p q (fun _ => True) l → ValAllList p q FuncOk l
  | [], _, _, _, _ => trivial
  | v :: r, h, _, _, h' => ⟨plain_func v h.1 h'.1, plains_func r h.2 h'.2⟩
end

theorem plainAt_regular {U : Uni} {v : Val} (ht : Every PlainAt v) (hn : Neat v) : Regular U v :=
  ⟨valAll_imp (fun _ => neatTy_ok) (fun _ => neatKey_ok) (fun _ h => h) (plain_func v ht hn), plain_printable ht⟩

theorem tame_plainAt {S : Strategies} {κ : SeqKind} {v : Val} (h : Tame S κ v) : Every PlainAt v :=
  every_imp (fun w hw => by
    cases w with
    | map k => cases k <;> first | exact hw.elim | trivial
    | _ => first | exact hw.elim | trivial) v h

theorem coherent_plainAt {S : Strategies} {v : Val} (h : Coherent S v) : Every PlainAt v :=
  every_imp (fun w hw => by
    cases w with
    | map k =>
      cases k with
      | dict => trivial
      | proxy => trivial
      | frame i => exact hw.1.1
    | _ => first | exact hw | exact hw.elim | trivial) v h

theorem neat_regular {U : Uni} {S : Strategies} {κ : SeqKind} {v : Val} (ht : Tame S κ v) (hn : Neat v) : Regular U v :=
  plainAt_regular (tame_plainAt ht) hn

mutual
theorem valAll_and {p p' : Ty → Prop} {q q' : Key → Prop} : ∀ v : Val, ValAll p q (fun _ => True) v → ValAll p' q' (fun _ => True) v →
    ValAll (fun t => p t ∧ p' t) (fun k => q k ∧ q' k) (fun _ => True) v
  | .inst .., h, h' => ⟨h, h'⟩
  | .seq k t es, h, h' => ⟨⟨h.1, h'.1⟩, valAllList_and es h.2 h'.2⟩
  | .map _ t ks vs, h, h' => ⟨⟨h.1, h'.1⟩, fun k hk => ⟨h.2.1 k hk, h'.2.1 k hk⟩, valAllList_and vs h.2.2 h'.2.2⟩
  | .func _, h, h' => ⟨⟨h.1, h'.1⟩, trivial⟩
  | .cls .., h, h' => ⟨h, h'⟩
  | .module _, h, h' => ⟨h, h'⟩
  | .io _, h, h' => ⟨h, h'⟩
  | .ndarray .., h, h' => ⟨h, h'⟩
theorem valAllList_and {p p' : Ty → Prop} {q q' : Key → Prop} : ∀ l : List Val, ValAllList p q (fun _ => True) l →
    ValAllList p' q' (fun _ => True) l → ValAllList (fun t => p t ∧ p' t) (fun k => q k ∧ q' k) (fun _ => True) l
  | [], _, _ => trivial
  | v :: r, h, h' => ⟨valAll_and v h.1 h'.1, valAllList_and r h.2 h'.2⟩
end

/-! ### The root -/

theorem mem_dedup_wf {l : List TDecl} (hw : ∀ d ∈ l, WFDecl d) {d : TDecl} (hd : d ∈ l) : d ∈ dedupDecls l := by
  obtain ⟨e, he, hp⟩ := mem_dedupDecls hd
  have h1 := decl_read (hw d hd)
  have h2 := decl_read (hw e (dedupDecls_mem he))
  rw [hp, h1] at h2
  injection h2 with h2
  exact h2 ▸ he

theorem defines_of_nodup {Γ : List TDecl} (hn : (Γ.map (·.name)).Nodup) {d : TDecl} (hd : d ∈ Γ) : Defines Γ d.name d.body := by
  refine ⟨hd, ?_⟩
  intro e he hne
  induction Γ with
  | nil => simp at hd
  | cons x r ih =>
    rw [List.map_cons, List.nodup_cons] at hn
    rcases List.mem_cons.mp hd with rfl | hd' <;> rcases List.mem_cons.mp he with rfl | he'
    · rfl
    · exact absurd (hne ▸ List.mem_map_of_mem he') hn.1
    · exact absurd (hne ▸ List.mem_map_of_mem hd') hn.1
    · exact ih hn.2 hd' he'

theorem root_decl {E : Env} {n : Node} (hr : n.hdr.root = true) : (n.abs E).perm = true ∧ (n.abs E).decl ∈ (n.abs E).emitted := by
  cases n with
  | mk h kids =>
    have hr : h.root = true := hr
    have hp : (aCombine E h (absList E kids)).perm = true := by
      simp only [aCombine, permOf, hr]
      split <;> simp
    refine ⟨hp, ?_⟩
    show (⟨h.name, aBody E h (absList E kids)⟩ : TDecl) ∈ aEmit h (aCombine E h (absList E kids)).perm _ (absList E kids)
    unfold aEmit
    rw [hp, hr]
    split
    · simp
    · simp

/-- The texts of a tidy tree of neat data, read back. -/
theorem root_texts {E : Env} (hE : E.Fair) {name : Str} {n : Node} (ht : Trim E.S n) (hn : NodeAll (NeatHdr name) n)
    (hr : n.hdr.root = true) :
    readText ((dedupDecls (n.abs E).emitted).map TDecl.print) = some (dedupDecls (n.abs E).emitted) ∧
    (∀ d ∈ dedupDecls (n.abs E).emitted, WFDecl d ∧ name <+: d.name) ∧
    (∀ d ∈ (n.abs E).decls, d ∈ dedupDecls (n.abs E).emitted) := by
  have hw := (node_wf hE n ht hn).2.2
  have hwe : ∀ d ∈ (n.abs E).emitted, WFDecl d ∧ name <+: d.name := fun d hd => hw d (List.mem_append_left _ hd)
  refine ⟨text_read (fun d hd => (hwe d (dedupDecls_mem hd)).1), fun d hd => hwe d (dedupDecls_mem hd), ?_⟩
  intro d hd
  refine mem_dedup_wf (fun d hd => (hwe d hd).1) ?_
  rcases List.mem_append.mp hd with hd | hd
  · exact hd
  · rw [if_pos (root_decl hr).1] at hd
    simp only [List.mem_singleton] at hd
    rw [hd]
    exact (root_decl hr).2

theorem neat_build {E : Env} (hE : E.Fair) {name : Str} {v : Val} (hc : CamelName name) (hv : Neat v) (hf : Fresh name v) {f : Nat}
    {root : Bool} {n : Node} (hb : build E f root name v = .ok n) (hd : v.depth < f) : NodeAll (NeatHdr name) n := by
  have hp : DataP name v := ⟨valAll_and v hv hf.2.1, hf.2.2⟩
  have h := build_ens hE (neat_inv (E := E) (root := name) (hf.1 _ (by simp)) (hf.1 _ (by simp))) f root name v
    ⟨hc, List.prefix_rfl⟩ hp hd
  rw [hb] at h
  exact h.1.1

/-- A tidy tree of neat data admits the values it stands for, under the declarations that are read back. -/
theorem root_admits {E : Env} (hE : E.Fair) {κ : SeqKind} {name : Str} {n : Node} {v : Val} (ht : Tidy E.S κ n)
    (hn : NodeAll (NeatHdr name) n) (hr : n.hdr.root = true) (hnm : n.name = name)
    (hfix : ∀ m ∈ py!"int" :: py!"str" :: py!"dict" :: typingNames, ¬ name <+: m) (hfit : Fits κ (n.hash E.S) v)
    (hnd : ((dedupDecls (n.abs E).emitted).map (·.name)).Nodup) : Admits (dedupDecls (n.abs E).emitted) (.name name) v := by
  obtain ⟨_, h2, h3⟩ := root_texts hE (tidy_trim n ht) hn hr
  have hN : Names (dedupDecls (n.abs E).emitted) name := ⟨hfix, by rintro x ⟨d, hd, rfl⟩; exact (h2 d hd).2⟩
  have := node_admits hE hN n v ht hn (fun d hd => defines_of_nodup hnd (h3 d hd)) hfit
  unfold aref at this
  rw [if_pos (root_decl hr).1, abs_name, hnm] at this
  exact this

end Verif
