import Verif.Lemmas.Keyed
import Verif.Lemmas.Scope
import Verif.Lemmas.Unused
import Verif.Spec.Refers
/-
Parents mention the declarations of their children.
-/
namespace Verif
open Verif.Spec

theorem camelName_ofWord {s : Str} (h : CamelName s) : ∀ c ∈ s, ofWord c = true := by
  intro c hc
  have h1 := camelName_alnum h c hc
  exact asciiAlnum_cases (P := fun c => ofWord c = true) (by decide +kernel) h1

theorem lexemes_camel {s : Str} (h : CamelName s) : lexemes s = [s] := by
  refine lexemes_word ?_ (camelName_ofWord h)
  obtain ⟨c, r, rfl, _⟩ := h
  simp

theorem camelName_ne_int {s : Str} (h : CamelName s) : s ≠ py!"int" := by
  rintro rfl
  obtain ⟨c, r, e, hu, _⟩ := h
  injection e with e1 _
  subst e1
  revert hu
  decide

theorem aTypes_mention {kids : List AOut} {k : AOut} (hk : k ∈ kids) : aref k ∈ aTypes kids := by
  unfold aTypes
  have : kids.isEmpty = false := by cases kids with | nil => simp at hk | cons => rfl
  rw [this]
  exact List.mem_map_of_mem hk

theorem aAlias_mention {kids : List AOut} {k : AOut} (hk : k ∈ kids) {x : Str} (hi : x ≠ py!"int") (hx : x ∈ lexemes (aref k).print) :
    x ∈ lexemes (aAlias kids).print := by
  unfold aAlias
  rw [← formatTypes_print, aUnique_print]
  refine formatTypes_mem (s := (aref k).print) (mem_uniqueTypes.mpr ⟨List.mem_map_of_mem (aTypes_mention hk), ?_⟩) hx
  rintro ⟨h, _⟩
  rw [h, show lexemes py!"int" = [py!"int"] by decide, List.mem_singleton] at hx
  exact hi hx

theorem aTuple_mention {S : Strategies} {kids : List AOut} {k : AOut} (hk : k ∈ kids) {x : Str} (hi : x ≠ py!"int") (hx : x ∈ lexemes (aref k).print) :
    x ∈ lexemes (aTuple S kids).print := by
  unfold aTuple
  split
  · split
    · rename_i h
      have h1 : (aref k).print ∈ (aTypes kids).map TExpr.print := List.mem_map_of_mem (aTypes_mention hk)
      rw [h, List.mem_singleton] at h1
      rw [h1] at hx
      simp only [TExpr.print]
      rw [lexemes_tupleOf]
      exact List.mem_cons_of_mem _ hx
    · simp only [TExpr.print]
      rw [mem_lexemes_tuple]
      refine .inr ⟨(aref k).print, ?_, hx⟩
      rw [printList_map]
      exact List.mem_map_of_mem (aTypes_mention hk)
  · simp only [TExpr.print]
    rw [lexemes_tupleOf]
    exact List.mem_cons_of_mem _ (aAlias_mention hk hi hx)

/-- Headers of trees whose declarations are all referred to. -/
def LinkHdr (E : Env) (h : Hdr) : Prop := CamelName h.name ∧ KeyedHdr (fun k => literalKey k = true) h ∧ CleanHdr E h

theorem iterate_zip {α} {slots : List Slot} {kids : List α} {k : α} (h : k ∈ iterate slots kids) : ∃ s, (s, k) ∈ slots.zip kids := by
  unfold iterate at h
  obtain ⟨sk, hsk, rfl⟩ := List.mem_map.mp h
  exact ⟨sk.1, List.takeWhile_subset _ hsk⟩

theorem body_mentions {E : Env} {h : Hdr} {kids : List AOut} (hh : LinkHdr E h) {k : AOut} (hk : k ∈ iterate h.slots kids) (hc : CamelName k.name)
    {x : Str} (hi : x ≠ py!"int") (hx : x ∈ lexemes (aref k).print) : RefersTo ⟨h.name, aBody E h kids⟩ x := by
  have hkey := hh.2.1
  obtain ⟨s, hs⟩ := iterate_zip hk
  have hslot := (List.of_mem_zip hs).1
  have hz : (s.key, k) ∈ (h.slots.map (·.key)).zip kids := by
    rw [List.zip_map_left]
    exact List.mem_map.mpr ⟨_, hs, rfl⟩
  have leaf : h.slots = [] → False := fun e => by rw [e] at hslot; simp at hslot
  have map : x ∈ lexemes (mapExpr E h (iterate h.slots kids)).print := by
    unfold mapExpr
    simp only [TExpr.print]
    rw [lexemes_mapping]
    exact List.mem_append_right _ (List.mem_append_right _ (aAlias_mention hk hi hx))
  unfold RefersTo
  dsimp only
  unfold aBody
  dsimp only
  unfold KeyedHdr at hkey
  cases hkd : h.kind with
  | seq kd =>
    cases kd
    case tuple => exact ⟨_, List.mem_singleton.mpr rfl, aTuple_mention hk hi hx⟩
    all_goals
      refine ⟨_, List.mem_singleton.mpr rfl, ?_⟩
      simp only [TExpr.print]
      rw [lexemes_bracket]
      exact List.mem_append_right _ (aAlias_mention hk hi hx)
  | dict data m =>
    rw [hkd] at hkey
    dsimp only
    split
    · rename_i ht
      obtain ⟨str, hstr⟩ := isTyped_str ht _ (hkey.2 _ (hkey.1 s hslot))
      rw [hstr] at hz
      refine ⟨(aEntry E m str k).type, List.mem_map_of_mem (mem_aEntries.mpr ⟨str, k, hz, rfl⟩), ?_⟩
      simp only [aEntry]
      split
      · rename_i hp
        rw [toCamel_camelName hc]
        simpa only [aref, hp, if_true] using hx
      · exact hx
    · exact ⟨_, List.mem_singleton.mpr rfl, map⟩
  | proxy => exact ⟨_, List.mem_singleton.mpr rfl, map⟩
  | frame i =>
    rw [hkd] at hkey
    dsimp only [frameBody]
    split
    · rename_i he
      rw [List.isEmpty_iff] at he
      rw [he] at hz
      simp at hz
    · refine ⟨aref k, ?_, hx⟩
      simp only [Body.types, List.map_map]
      exact List.mem_map.mpr ⟨(s.key, k), List.mem_filter.mpr ⟨hz, hkey s hslot⟩, rfl⟩
  | _ =>
    rw [hkd] at hkey
    exact (leaf hkey).elim

/-- A rendering is named in camel case, and its declarations are referred to by others or by its reference. -/
structure Linked (a : AOut) : Prop where
  camel : CamelName a.name
  names : ∀ d ∈ a.decls, CamelName d.name
  link : ∀ d ∈ a.decls, (∃ e ∈ a.decls, RefersTo e d.name) ∨ d.name ∈ lexemes (aref a).print

/-- A node without a declaration of its own is described by an expression. -/
theorem inline_alias {E : Env} {h : Hdr} {kids : List AOut} (hc : CleanHdr E h) (hp : (aCombine E h kids).perm = false) :
    ∃ t, aBody E h kids = .alias t := by
  have hcl := hc.2.2.2
  have hp : permOf E.S h (aHeight h (iterate h.slots kids)) = false := hp
  unfold permOf at hp
  unfold aBody
  dsimp only at hp ⊢
  cases hkd : h.kind with
  | func f => rw [hkd] at hp; cases hp
  | seq k => cases k <;> exact ⟨_, rfl⟩
  | dict data m =>
    rw [hkd] at hp
    dsimp only at hp ⊢
    cases htd : m.isTyped E.S with
    | true => rw [htd] at hp; simp at hp
    | false => exact ⟨_, rfl⟩
  | frame i =>
    rw [hkd] at hp hcl
    dsimp only at hp hcl
    rcases hcl with h' | h' <;> rw [h'] at hp <;> simp at hp
  | _ => exact ⟨_, rfl⟩

/-- Where the declarations of a node come from. -/
theorem decls_from {E : Env} {h : Hdr} {kids : List AOut} {d : TDecl} (hd : d ∈ (aCombine E h kids).decls) :
    ((aCombine E h kids).perm = true ∧ d = ⟨h.name, aBody E h kids⟩) ∨ ∃ k ∈ iterate h.slots kids, d ∈ k.decls := by
  have top : d ∈ (if (aCombine E h kids).perm then [(aCombine E h kids).decl] else []) →
      (aCombine E h kids).perm = true ∧ d = ⟨h.name, aBody E h kids⟩ := by
    intro hd
    split at hd
    · rename_i hp
      exact ⟨hp, List.mem_singleton.mp hd⟩
    · simp at hd
  rcases List.mem_append.mp hd with hd | hd
  · have hd : d ∈ aEmit h (aCombine E h kids).perm ⟨h.name, aBody E h kids⟩ kids := hd
    unfold aEmit at hd
    split at hd
    · split at hd
      · rename_i hp
        rw [Bool.and_eq_true] at hp
        exact .inl ⟨hp.2, List.mem_singleton.mp hd⟩
      · simp at hd
    · rcases List.mem_append.mp hd with hd | hd
      · obtain ⟨k, hk, hd⟩ := List.mem_flatMap.mp hd
        exact .inr ⟨k, hk, hd⟩
      · exact .inl (top hd)
  · exact .inl (top hd)

theorem emitted_kids {E : Env} {h : Hdr} {kids : List AOut} {k : AOut} (hk : k ∈ iterate h.slots kids) {d : TDecl} (hd : d ∈ k.decls) :
    d ∈ (aCombine E h kids).emitted ∧ ((aCombine E h kids).perm = true → (⟨h.name, aBody E h kids⟩ : TDecl) ∈ (aCombine E h kids).emitted) := by
  have hne : kids.isEmpty = false := by
    cases kids with
    | nil => simp [iterate] at hk
    | cons => rfl
  have e : (aCombine E h kids).emitted = aEmit h (aCombine E h kids).perm ⟨h.name, aBody E h kids⟩ kids := rfl
  rw [e]
  unfold aEmit
  rw [hne]
  simp only [Bool.false_eq_true, if_false]
  refine ⟨List.mem_append_left _ (List.mem_flatMap.mpr ⟨k, hk, hd⟩), fun hp => ?_⟩
  rw [if_pos hp]
  exact List.mem_append_right _ (List.mem_singleton.mpr rfl)

theorem linked_combine {E : Env} {h : Hdr} {kids : List AOut} (hh : LinkHdr E h) (hk : ∀ k ∈ kids, Linked k) : Linked (aCombine E h kids) := by
  have hit : ∀ k ∈ iterate h.slots kids, k ∈ kids := fun k hk => by
    obtain ⟨s, hs⟩ := iterate_zip hk
    exact (List.of_mem_zip hs).2
  refine ⟨hh.1, ?_, ?_⟩
  · intro d hd
    rcases decls_from hd with ⟨_, rfl⟩ | ⟨k, hkm, hd⟩
    · exact hh.1
    · exact (hk k (hit k hkm)).names d hd
  · intro d hd
    rcases decls_from hd with ⟨hp, rfl⟩ | ⟨k, hkm, hd⟩
    · right
      have : aref (aCombine E h kids) = .name h.name := by unfold aref; rw [if_pos hp]; rfl
      rw [this]
      simp only [TExpr.print]
      rw [lexemes_camel hh.1]
      exact List.mem_singleton.mpr rfl
    · have hl := hk k (hit k hkm)
      rcases hl.link d hd with ⟨e, he, hm⟩ | hx
      · exact .inl ⟨e, List.mem_append_left _ (emitted_kids hkm he).1, hm⟩
      · have hm := body_mentions hh hkm hl.camel (camelName_ne_int (hl.names d hd)) hx
        cases hp : (aCombine E h kids).perm with
        | true => exact .inl ⟨_, List.mem_append_left _ ((emitted_kids hkm hd).2 hp), hm⟩
        | false =>
          right
          obtain ⟨t, ht⟩ := inline_alias (kids := kids) hh.2.2 hp
          have : aref (aCombine E h kids) = t := by
            unfold aref
            rw [if_neg (by rw [hp]; decide)]
            have e : (aCombine E h kids).body = .alias t := ht
            rw [e]
          rw [this]
          obtain ⟨u, hu, hxu⟩ := hm
          have hu : u ∈ (aBody E h kids).types := hu
          rw [ht] at hu
          rw [List.mem_singleton.mp hu] at hxu
          exact hxu

mutual
theorem linked_abs {E : Env} : ∀ (n : Node), NodeAll (LinkHdr E) n → Linked (n.abs E)
  | .mk _ kids, hn => linked_combine hn.1 (linked_absList kids hn.2)
theorem linked_absList {E : Env} : ∀ (l : List Node), NodeAllList (LinkHdr E) l → ∀ k ∈ absList E l, Linked k
  | [], _ => by simp [absList]
  | n :: r, hn => by
    intro k hk
    simp only [absList, List.mem_cons] at hk
    rcases hk with e | hk
    · rw [e]; exact linked_abs n hn.1
    · exact linked_absList r hn.2 k hk
end

/-- At the root every declaration is the root's, or referred to. -/
theorem linked_root {E : Env} {h : Hdr} {kids : List Node} (hn : NodeAll (LinkHdr E) (.mk h kids)) (hr : h.root = true) :
    AllReferenced h.name ((Node.mk h kids).abs E).emitted := by
  intro d hd
  have hp : (aCombine E h (absList E kids)).perm = true := by
    show permOf E.S h _ = true
    unfold permOf
    rw [hr]
    cases h.kind <;> simp
  rcases decls_from (List.mem_append_left _ hd) with ⟨_, rfl⟩ | ⟨k, hkm, hd⟩
  · exact .inl rfl
  · have hl := linked_absList kids hn.2 k (by obtain ⟨s, hs⟩ := iterate_zip hkm; exact (List.of_mem_zip hs).2)
    rcases hl.link d hd with ⟨e, he, hm⟩ | hx
    · exact .inr ⟨e, (emitted_kids hkm he).1, hm⟩
    · exact .inr ⟨_, (emitted_kids hkm hd).2 hp, body_mentions hn.1 hkm hl.camel (camelName_ne_int (hl.names d hd)) hx⟩

/-- Names are in camel case for neat data. -/
theorem camel_inv {E : Env} : Inv E (ValAll NeatTy NeatKey (fun _ => True)) (fun k v => NeatKey k ∧ ValAll NeatTy NeatKey (fun _ => True) v)
    CamelName (fun h => CamelName h.name ∧ NeatTy h.ty) (fun _ => True) where
  seqElem h he := valAllList_iff.mp h.2 _ he
  mapEntry h hkv := ⟨h.2.1 _ (List.of_mem_zip hkv).1, valAllList_iff.mp h.2.2 _ (List.of_mem_zip hkv).2⟩
  entry h := h.2
  dict h := valAll_dict ⟨by decide, by decide⟩ h
  nameElem hs hv := camelName_append hs (Alnum.capitalize (valAll_ty hv).2)
  nameNum hs := camelName_append hs (alnum_natStr _)
  nameKey := by
    intro s k v hs hk
    refine camelName_append hs ?_
    have hk := hk.1
    cases k with
    | str t => exact alnum_toCamel (fun c hc => (hk c hc).1)
    | none => show Alnum (Key.none.ty.name); intro c hc; revert c; decide
    | other t r => exact hk.1.2
  nameLabel := by
    intro s k v hs hk
    refine camelName_append hs ?_
    have hk := hk.1
    unfold labelSuffix
    dsimp only
    split
    · intro c hc; revert c; decide
    · apply alnum_toCamel
      cases k with
      | str t => exact fun c hc => (hk c hc).1
      | none => intro c hc; revert c; decide
      | other t r => exact hk.2
  nameTy hs hh := camelName_append hs (Alnum.capitalize hh.2.2)
  rename hh hn := ⟨camelName_renameTimes hn _ hh.1, hh.2⟩
  hdr hn hv _ := ⟨hn, valAll_ty hv⟩
  merge hh _ _ := hh
  bad _ _ _ := trivial
  sig _ _ := trivial
  noTrees _ := trivial

theorem link_hdrs {E : Env} (hE : E.Fair) (hm : 0 < E.S.merge) {name : Str} {v : Val} (hc : CamelName name) (hv : Regular E.U v) (hn : Neat v)
    (hl : Every (LabelsOk (fun k => literalKey k = true)) v) {n : Node} (hb : fromData E name v = .ok n) : NodeAll (LinkHdr E) n := by
  obtain ⟨_, h2, h3, _⟩ := regular_build hE hm hv hb
  have hcam : NodeAll (fun h => CamelName h.name ∧ NeatTy h.ty) n := by
    have h := build_ens hE camel_inv (v.depth + 1) true name v hc hn (by omega)
    rw [h2] at h
    exact h.1.1
  have hkey := keyed_build hE (v.depth + 1) hl (by omega) h2
  exact nodeAll_imp (fun _ h => ⟨h.1.1.1, h.1.2, h.2.2.2⟩) (nodeAll_and n (nodeAll_and n hcam hkey) h3)

end Verif
