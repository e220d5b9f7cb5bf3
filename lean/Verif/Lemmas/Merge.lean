import Verif.Lemmas.Clean
import Verif.Lemmas.Float
/-
Dictionaries inside one sequence: metadata, comparison and merging.
-/
namespace Verif
open Verif.Spec

theorem ite_congr' {p q : Prop} [Decidable p] [Decidable q] {α} {a b : α} (h : p ↔ q) : (if p then a else b) = if q then a else b := by
  by_cases hp : p
  · simp [hp, h.mp hp]
  · simp [hp, mt h.mpr hp]

theorem lookupKey_append {α} {x : Key} : ∀ {a b : List (Key × α)}, lookupKey x (a ++ b) = (lookupKey x a).or (lookupKey x b)
  | [], b => by simp [lookupKey]
  | (k, v) :: r, b => by
    simp only [List.cons_append, lookupKey]
    split
    · simp
    · exact lookupKey_append

theorem lookupKey_map {α β} {x : Key} {g : Key → α → β} : ∀ {l : List (Key × α)},
    lookupKey x (l.map (fun kb => (kb.1, g kb.1 kb.2))) = (lookupKey x l).map (g x)
  | [] => rfl
  | (k, v) :: r => by
    simp only [List.map_cons, lookupKey]
    split
    · rename_i h; subst h; rfl
    · exact lookupKey_map

theorem lookupKey_const {α β} {x : Key} {b : β} : ∀ {l : List (Key × α)},
    lookupKey x (l.map (fun kv => (kv.1, b))) = if x ∈ l.map (·.1) then some b else none
  | [] => rfl
  | (k, v) :: r => by
    simp only [List.map_cons, lookupKey, List.mem_cons]
    by_cases h : k = x
    · simp [h]
    · simp only [h, if_false, lookupKey_const (l := r), Ne.symm h, false_or]

theorem lookupKey_none {α} {x : Key} {l : List (Key × α)} : lookupKey x l = none ↔ x ∉ l.map (·.1) := by
  induction l with
  | nil => simp [lookupKey]
  | cons kv r ih =>
    obtain ⟨k, v⟩ := kv
    simp only [lookupKey, List.map_cons, List.mem_cons]
    by_cases h : k = x
    · simp [h]
    · simp only [h, if_false, ih, Ne.symm h, false_or]

theorem lookupKey_mem {α} {x : Key} {v : α} : ∀ {l : List (Key × α)}, lookupKey x l = some v → (x, v) ∈ l
  | [], h => by simp [lookupKey] at h
  | (k, w) :: r, h => by
    simp only [lookupKey] at h
    split at h
    · rename_i e; subst e; injection h with h; subst h; simp
    · exact List.mem_cons_of_mem _ (lookupKey_mem h)

theorem lookupKey_isSome {α} {x : Key} {l : List (Key × α)} : (lookupKey x l).isSome ↔ x ∈ l.map (·.1) := by
  rw [← Option.ne_none_iff_isSome, Ne, lookupKey_none, Decidable.not_not]

theorem mem_visible {ks : List Str} {k : Str} : k ∈ visible ks ↔ k ∈ ks ∧ (Key.str k).hidden = false := by
  simp [visible, Key.hidden]

theorem shown_hidden {d : Dct} {k : Str} (h : k ∈ shown d) : (Key.str k).hidden = false := (mem_visible.mp h).2

theorem mem_allKeys {ds : List Dct} {k : Str} : k ∈ allKeys ds ↔ ∃ d ∈ ds, k ∈ shown d := by
  simp [allKeys, mem_dedup]

theorem mem_commonKeys {ds : List Dct} {k : Str} (hne : ds ≠ []) : k ∈ commonKeys ds ↔ ∀ d ∈ ds, k ∈ shown d := by
  unfold commonKeys
  rw [List.mem_filter, mem_allKeys]
  simp only [List.all_eq_true, List.contains_iff_mem]
  constructor
  · exact fun h => h.2
  · intro h
    cases ds with
    | nil => exact absurd rfl hne
    | cons d r => exact ⟨⟨d, by simp, h d (by simp)⟩, h⟩

/-! ### Metadata of one dictionary, possibly updated with equal ones -/

/-- The metadata describes a dictionary with visible keys `K`. -/
structure Meta (K : List Str) (m : DMeta) : Prop where
  strs : ∀ kv ∈ m.data, ∃ s, kv.1 = .str s
  init : ∀ s, (Key.str s).hidden = false → (Key.str s ∈ m.init ↔ s ∈ K)
  data : ∀ s, (Key.str s).hidden = false → (Key.str s ∈ m.data.map (·.1) ↔ s ∈ K)
  req : ∀ s, lookupKey (.str s) m.req = if s ∈ K then some true else none
  hid : ∀ s ∈ K, (Key.str s).hidden = false

theorem lookup_update_req {m o : DMeta} {x : Key} :
    lookupKey x (m.update o).req =
      ((lookupKey x m.req).or (if x ∈ (m.update o).data.map (·.1) ∧ x.hidden = false ∧ lookupKey x m.req = none then some false else none)).map
      (fun b => if o.init.isEmpty then false else if m.init.contains x && !o.init.contains x then false else b) := by
  have h1 : lookupKey x (m.req ++ (((m.update o).data.filter (fun kv => !kv.1.hidden && (lookupKey kv.1 m.req).isNone)).map fun kv => (kv.1, false))) =
      (lookupKey x m.req).or (if x ∈ (m.update o).data.map (·.1) ∧ x.hidden = false ∧ lookupKey x m.req = none then some false else none) := by
    rw [lookupKey_append, lookupKey_const]
    congr 1
    apply ite_congr' 
    simp only [List.mem_map, List.mem_filter, Bool.and_eq_true, Bool.not_eq_true', Option.isNone_iff_eq_none]
    constructor
    · rintro ⟨kv, ⟨h, h2⟩, rfl⟩; exact ⟨⟨kv, h, rfl⟩, h2⟩
    · rintro ⟨⟨kv, h, rfl⟩, h2⟩; exact ⟨kv, ⟨h, h2⟩, rfl⟩
  have h2 : (m.update o).req = (m.req ++ (((m.update o).data.filter (fun kv => !kv.1.hidden && (lookupKey kv.1 m.req).isNone)).map fun kv => (kv.1, false))).map
      (fun kb => (kb.1, (fun (x : Key) (b : Bool) => if o.init.isEmpty then false else if m.init.contains x && !o.init.contains x then false else b) kb.1 kb.2)) := by
    simp only [DMeta.update]
    split
    · apply List.map_congr_left; intro kb _; rfl
    · apply List.map_congr_left; intro kb _; rfl
  rw [h2, lookupKey_map (g := fun (x : Key) (b : Bool) => if o.init.isEmpty then false else if m.init.contains x && !o.init.contains x then false else b), h1]

theorem mem_update_keys {m o : DMeta} {x : Key} : x ∈ (m.update o).data.map (·.1) ↔ x ∈ m.data.map (·.1) ∨ x ∈ o.data.map (·.1) := by
  simp only [DMeta.update, List.map_append, List.mem_append, List.mem_map, List.mem_filter]
  constructor
  · rintro (h | ⟨kv, ⟨h1, _⟩, rfl⟩)
    · exact .inl h
    · exact .inr ⟨kv, h1, rfl⟩
  · rintro (h | ⟨kv, h1, rfl⟩)
    · exact .inl h
    · by_cases h : kv.1 ∈ m.data.map (·.1)
      · exact .inl (List.mem_map.mp h)
      · exact .inr ⟨kv, ⟨h1, by rw [Option.isNone_iff_eq_none, lookupKey_none]; exact h⟩, rfl⟩

theorem update_init (m o : DMeta) : (m.update o).init = m.init := rfl

/-- Updating with the metadata of a dictionary with the same visible keys changes nothing visible. -/
theorem Meta.update {K K' : List Str} {m o : DMeta} (hm : Meta K m) (ho : Meta K' o) (hk : ∀ s, s ∈ K ↔ s ∈ K') :
    Meta K (m.update o) where
  strs kv hkv := by
    rcases mem_update_data hkv with h | h
    · exact hm.strs kv h
    · exact ho.strs kv h
  init := hm.init
  data s hs := by rw [mem_update_keys, hm.data s hs, ho.data s hs, hk]; simp
  req s := by
    rw [lookup_update_req, hm.req]
    by_cases h : s ∈ K
    · have hs := hm.hid s h
      have hi : Key.str s ∈ o.init := (ho.init s hs).mpr ((hk s).mp h)
      have hne : o.init.isEmpty = false := by
        cases hoi : o.init with
        | nil => rw [hoi] at hi; simp at hi
        | cons a r => rfl
      simp [h, hne, hi]
    · have : ¬ (Key.str s ∈ (m.update o).data.map (·.1) ∧ (Key.str s).hidden = false ∧ (none : Option Bool) = none) := by
        rintro ⟨h1, h2, _⟩
        rw [mem_update_keys, hm.data s h2, ho.data s h2, ← hk] at h1
        simp [h] at h1
      rw [if_neg h, if_neg this]; rfl
  hid := hm.hid

theorem dictOf_items (d : Dct) : (d.map (fun kv => Key.str kv.1)).zip (d.map (·.2)) = d.map (fun kv => (Key.str kv.1, kv.2)) := by
  induction d with
  | nil => rfl
  | cons a r ih => simp [ih]

theorem str_mem_map {α} {s : Str} {d : List (Str × α)} {f : Str × α → Key} (hf : ∀ kv, f kv = .str kv.1) :
    Key.str s ∈ d.map f ↔ s ∈ d.map (·.1) := by
  simp only [List.mem_map, hf, Key.str.injEq]

theorem Meta.ofData (d : Dct) : Meta (shown d) (DMeta.ofData (d.map (fun kv => (Key.str kv.1, kv.2)))) where
  strs kv hkv := by
    obtain ⟨x, _, rfl⟩ := List.mem_map.mp hkv
    exact ⟨x.1, rfl⟩
  init s hs := by
    simp only [DMeta.ofData, List.map_map, shown, mem_visible, hs, and_true]
    exact str_mem_map (fun _ => rfl)
  data s hs := by
    simp only [DMeta.ofData, List.map_map, shown, mem_visible, hs, and_true]
    exact str_mem_map (fun _ => rfl)
  req s := by
    simp only [DMeta.ofData]
    rw [lookupKey_const]
    apply ite_congr' 
    simp only [List.mem_map, List.mem_filter, shown, mem_visible]
    constructor
    · rintro ⟨kv, ⟨⟨x, hx, rfl⟩, h2⟩, e⟩
      simp only [Key.str.injEq] at e
      subst e
      exact ⟨⟨x, hx, rfl⟩, by simpa using h2⟩
    · rintro ⟨⟨x, hx, rfl⟩, h2⟩
      exact ⟨_, ⟨⟨x, hx, rfl⟩, by simpa using h2⟩, rfl⟩
  hid s hs := shown_hidden hs

/-! ### Nodes for dictionaries -/

/-- The node represents the dictionary `d`, possibly updated with dictionaries of the pool that have the same keys. -/
structure Rep (E : Env) (pool : List Dct) (d : Dct) (n : Node) : Prop where
  info : ∃ m, nodeMeta n = some m ∧ nodeData n = m.data ∧ Meta (shown d) m ∧ m.init = d.map (fun kv => Key.str kv.1) ∧
    (∀ kv ∈ m.data, ∃ e ∈ pool, ∃ s, kv.1 = .str s ∧ (s, kv.2) ∈ e) ∧ (m.data.map (·.1)).Nodup
  slots : n.hdr.slots.map (·.key) = (shown d).map Key.str
  len : n.hdr.slots.length = n.kids.length

theorem Rep.typed {E : Env} {pool : List Dct} {d : Dct} {n : Node} (hS : E.S.dict = .typedDict) (h : Rep E pool d n) :
    isTypedDict E.S n = true := by
  obtain ⟨m, hm, _, hg, _⟩ := h.info
  cases n with
  | mk hd kids =>
    cases hk : hd.kind with
    | dict a b =>
      simp only [nodeMeta, hk, Option.some.injEq] at hm
      subst hm
      simp only [isTypedDict, hk, DMeta.isTyped, Bool.and_eq_true, decide_eq_true_eq]
      refine ⟨?_, hS⟩
      unfold allStr
      rw [List.all_eq_true]
      intro kv hkv
      obtain ⟨s, hs⟩ := hg.strs kv hkv
      rw [hs]; rfl
    | _ => simp [nodeMeta, hk] at hm

theorem hashList_eq_map {S : Strategies} : ∀ l : List Node, hashList S l = l.map (fun n => n.hash S)
  | [] => rfl
  | n :: r => by simp [hashList, hashList_eq_map r]

/-- Hash of a TypedDict node. -/
theorem typed_hash {S : Strategies} {n : Node} (h : isTypedDict S n = true) :
    n.hash S = .set (((n.hdr.slots.map (·.key)).zip (n.kids.map (fun k => k.hash S))).map fun kh => .typed kh.1 kh.2) := by
  cases n with
  | mk hd kids =>
    cases hk : hd.kind with
    | dict a b =>
      simp only [isTypedDict, hk] at h
      simp [Node.hash, hashOf, hk, h, hashList_eq_map, Node.hdr, Node.kids]
    | _ => simp [isTypedDict, hk] at h

theorem allIn_iff {b : List H} : ∀ {a : List H}, H.allIn a b = true ↔ ∀ x ∈ a, ∃ y ∈ b, H.eqv x y = true
  | [] => by simp [H.allIn]
  | x :: r => by simp [H.allIn, allIn_iff (a := r)]

theorem anyEq_iff {y : H} : ∀ {a : List H}, H.anyEq a y = true ↔ ∃ x ∈ a, H.eqv x y = true
  | [] => by simp [H.anyEq]
  | x :: r => by simp [H.anyEq, anyEq_iff (a := r)]

theorem eqv_set {a b : List H} : H.eqv (.set a) (.set b) = true ↔
    (∀ x ∈ a, ∃ y ∈ b, H.eqv x y = true) ∧ ∀ y ∈ b, ∃ x ∈ a, H.eqv x y = true := by
  simp only [H.eqv, Bool.and_eq_true, allIn_iff, List.all_eq_true, anyEq_iff]

theorem mem_zip_left {α β} {x : α} : ∀ {a : List α} {b : List β}, a.length = b.length → x ∈ a → ∃ y, (x, y) ∈ a.zip b
  | [], _, _, h => by simp at h
  | _ :: _, [], h, _ => by simp at h
  | c :: a, d :: b, hl, h => by
    rcases List.mem_cons.mp h with rfl | h
    · exact ⟨d, by simp⟩
    · obtain ⟨y, hy⟩ := mem_zip_left (a := a) (b := b) (by simpa using hl) h
      exact ⟨y, by simp [hy]⟩

/-- Equal TypedDict nodes have the same visible keys. -/
theorem nodeEq_keys {S : Strategies} {a b : Node} {K K' : List Str} (ta : isTypedDict S a = true) (tb : isTypedDict S b = true)
    (ha : a.hdr.slots.map (·.key) = K.map Key.str) (hb : b.hdr.slots.map (·.key) = K'.map Key.str)
    (la : a.hdr.slots.length = a.kids.length) (lb : b.hdr.slots.length = b.kids.length) (h : nodeEq S a b = true) :
    ∀ s, s ∈ K ↔ s ∈ K' := by
  unfold nodeEq at h
  rw [Bool.and_eq_true, typed_hash ta, typed_hash tb, eqv_set] at h
  obtain ⟨_, h1, h2⟩ := h
  have key : ∀ {k : Key} {x : H} {L : List (Key × H)} {y : H}, y ∈ L.map (fun kh => H.typed kh.1 kh.2) →
      (H.eqv (.typed k x) y = true ∨ H.eqv y (.typed k x) = true) → ∃ z, (k, z) ∈ L := by
    intro k x L y hy he
    obtain ⟨kh, hkh, rfl⟩ := List.mem_map.mp hy
    simp only [H.eqv, Bool.and_eq_true, decide_eq_true_eq] at he
    rcases he with ⟨he, _⟩ | ⟨he, _⟩
    · subst he; exact ⟨kh.2, hkh⟩
    · subst he; exact ⟨kh.2, hkh⟩
  intro s
  constructor
  · intro hs
    have : Key.str s ∈ a.hdr.slots.map (·.key) := by rw [ha]; exact List.mem_map_of_mem hs
    obtain ⟨y, hy⟩ := mem_zip_left (b := a.kids.map (fun k => k.hash S)) (by simpa using la) this
    obtain ⟨z, hz, he⟩ := h1 _ (List.mem_map_of_mem hy)
    obtain ⟨w, hw⟩ := key hz (.inl he)
    have := (List.of_mem_zip hw).1
    rw [hb] at this
    obtain ⟨s', hs', e⟩ := List.mem_map.mp this
    injection e with e
    rw [← e]; exact hs'
  · intro hs
    have : Key.str s ∈ b.hdr.slots.map (·.key) := by rw [hb]; exact List.mem_map_of_mem hs
    obtain ⟨y, hy⟩ := mem_zip_left (b := b.kids.map (fun k => k.hash S)) (by simpa using lb) this
    obtain ⟨z, hz, he⟩ := h2 _ (List.mem_map_of_mem hy)
    obtain ⟨w, hw⟩ := key hz (.inr he)
    have := (List.of_mem_zip hw).1
    rw [ha] at this
    obtain ⟨s', hs', e⟩ := List.mem_map.mp this
    injection e with e
    rw [← e]; exact hs'

theorem Rep.eq_keys {E : Env} {pool : List Dct} {d d' : Dct} {n n' : Node} (hS : E.S.dict = .typedDict)
    (h : Rep E pool d n) (h' : Rep E pool d' n') (he : nodeEq E.S n n' = true) : ∀ s, s ∈ shown d ↔ s ∈ shown d' :=
  nodeEq_keys (h.typed hS) (h'.typed hS) h.slots h'.slots h.len h'.len he

theorem nodup_update_data {m o : DMeta} (hm : (m.data.map (·.1)).Nodup) (ho : (o.data.map (·.1)).Nodup) :
    ((m.update o).data.map (·.1)).Nodup := by
  simp only [DMeta.update, List.map_append]
  rw [List.nodup_append]
  refine ⟨hm, List.Nodup.sublist (List.Sublist.map _ List.filter_sublist) ho, ?_⟩
  intro x hx y hy
  obtain ⟨kv, hkv, rfl⟩ := List.mem_map.mp hy
  have := (List.mem_filter.mp hkv).2
  rw [Option.isNone_iff_eq_none, lookupKey_none] at this
  rintro rfl
  exact this hx

/-- Updating a node with an equal one. -/
theorem Rep.update {E : Env} {pool : List Dct} {d d' : Dct} {n n' : Node} (h : Rep E pool d n) (h' : Rep E pool d' n')
    (hk : ∀ s, s ∈ shown d ↔ s ∈ shown d') : Rep E pool d (updateNode n n') := by
  obtain ⟨m, hm, hd, hg, hi, hp, hnd⟩ := h.info
  obtain ⟨m', hm', hd', hg', hi', hp', hnd'⟩ := h'.info
  cases n with
  | mk a ka =>
    cases n' with
    | mk b kb =>
      cases hak : a.kind with
      | dict x y =>
        cases hbk : b.kind with
        | dict x' y' =>
          simp only [nodeMeta, hak, hbk, Option.some.injEq] at hm hm'
          subst hm hm'
          simp only [updateNode, hak, hbk]
          refine ⟨⟨y.update y', by simp [nodeMeta], by simp [nodeData], hg.update hg' hk, hi, ?_, nodup_update_data hnd hnd'⟩, h.slots, h.len⟩
          intro kv hkv
          rcases mem_update_data hkv with h | h
          · exact hp kv h
          · exact hp' kv h
        | _ => simp [nodeMeta, hbk] at hm'
      | _ => simp [nodeMeta, hak] at hm

theorem shareEqual_kids_length (E : Env) (parent : Str) (kids : List (Key × Node)) :
    (shareEqual E parent kids).2.length = kids.length := by simp [shareEqual]

theorem visibleItems_keys (d : Dct) : (visibleItems (d.map (fun kv => (Key.str kv.1, kv.2)))).map (·.1) = (shown d).map Key.str := by
  have := visible_keys_strs (ks := d.map (·.1)) (vs := d.map (·.2)) (by simp)
  rw [List.map_map] at this
  have e : (d.map (Key.str ∘ fun x => x.1)).zip (d.map (·.2)) = d.map (fun kv => (Key.str kv.1, kv.2)) := dictOf_items d
  rw [e] at this
  exact this

/-- The node built for a dictionary. -/
theorem build_rep {E : Env} {pool : List Dct} {f : Nat} {root : Bool} {name : Str} {d : Dct} {n : Node} (hS : E.S.dict = .typedDict)
    (hd : IsDict d) (hp : d ∈ pool) (h : build E f root name (dictOf d) = .ok n) : Rep E pool d n ∧ n.name = name := by
  cases f with
  | zero => cases h
  | succ f =>
    obtain ⟨kids, hk, rfl⟩ := build_dict h
    rw [dictOf_items] at hk ⊢
    have hdd : dictData E.S (d.map (fun kv => (Key.str kv.1, kv.2))) = d.map (fun kv => (Key.str kv.1, kv.2)) := by
      simp [dictData, hS]
    rw [hdd] at hk ⊢
    have hkeys := mapKids_keys hk
    rw [visibleItems_keys] at hkeys
    refine ⟨⟨⟨_, rfl, rfl, Meta.ofData d, ?_, ?_, ?_⟩, ?_, ?_⟩, rfl⟩
    · simp [DMeta.ofData]
    · intro kv hkv
      obtain ⟨x, hx, rfl⟩ := List.mem_map.mp hkv
      exact ⟨d, hp, x.1, rfl, hx⟩
    · simp only [DMeta.ofData, List.map_map]
      have : (d.map (fun kv => Key.str kv.1)) = (d.map (·.1)).map Key.str := by simp
      rw [show ((fun x : Key × Val => x.1) ∘ fun kv : Str × Val => (Key.str kv.1, kv.2)) = fun kv => Key.str kv.1 from rfl, this]
      rw [List.nodup_iff_pairwise_ne, List.pairwise_map]
      refine List.Pairwise.imp ?_ (List.nodup_iff_pairwise_ne.mp hd)
      intro a b hab e
      injection e with e
      exact hab e
    · show ((shareEqual E name kids).1).map (·.key) = _
      rw [shareEqual_keys, hkeys]
    · exact shareEqual_length E name kids

/-! ### The loop over the elements of a sequence -/

/-- State of the loop after the dictionaries `done`. -/
structure FoldInv (E : Env) (pool done : List Dct) (kids : List Node) (names : List Str) : Prop where
  rep : ∀ k ∈ kids, ∃ d ∈ done, Rep E pool d k
  cover : ∀ d ∈ done, ∃ k ∈ kids, ∃ d' ∈ done, Rep E pool d' k ∧ ∀ s, s ∈ shown d ↔ s ∈ shown d'
  nms : kids.map Node.name = names
  nodup : names.Nodup
  long : ∀ s ∈ names, 'D' ∈ s
  few : (∀ d ∈ done, shown d = []) → kids.length ≤ 1

/-- Nodes of dictionaries without visible keys are equal. -/
theorem Rep.eq_empty {E : Env} {pool : List Dct} {d d' : Dct} {n n' : Node} (hS : E.S.dict = .typedDict)
    (h : Rep E pool d n) (h' : Rep E pool d' n') (e : shown d = []) (e' : shown d' = []) : nodeEq E.S n n' = true := by
  have tag : ∀ {m : Node}, isTypedDict E.S m = true → m.hdr.kind.tag = .dict := by
    intro m hm
    cases m with
    | mk hd kids =>
      cases hk : hd.kind with
      | dict a b => simp [Node.hdr, hk, NKind.tag]
      | _ => simp [isTypedDict, hk] at hm
  unfold nodeEq
  rw [tag (h.typed hS), tag (h'.typed hS), typed_hash (h.typed hS), typed_hash (h'.typed hS), h.slots, h'.slots, e, e']
  simp [H.eqv, H.allIn]

theorem fresh_long {U : Uni} (parent : Str) (names : List Str) : 'D' ∈ freshName (parent ++ U.capitalize Ty.dict.name) names := by
  have h : U.capitalize Ty.dict.name = py!"Dict" := by
    show U.capitalize py!"dict" = _
    have e1 := U.title_ascii 'd' (by decide)
    have e2 := U.lower_ascii 'i' (by decide)
    have e3 := U.lower_ascii 'c' (by decide)
    have e4 := U.lower_ascii 't' (by decide)
    simp only [Uni.capitalize, List.flatMap_cons, List.flatMap_nil, e1, e2, e3, e4]
    decide
  rw [h]
  rcases freshName_spec (parent ++ py!"Dict") names with h | ⟨k, h⟩
  · rw [h]; simp
  · rw [h]; simp

theorem foldInv_step {E : Env} {pool done : List Dct} {kids : List Node} {names : List Str} {f : Nat} {parent : Str} {d : Dct}
    {r : List Node × List Str} (hS : E.S.dict = .typedDict) (hd : IsDict d) (hp : d ∈ pool) (I : FoldInv E pool done kids names)
    (h : setStep E (build E f false) parent (kids, names) (dictOf d) = .ok r) : FoldInv E pool (done ++ [d]) r.1 r.2 := by
  unfold setStep at h
  dsimp only at h
  cases hb : build E f false (freshName (parent ++ E.U.capitalize (dictOf d).ty.name) names) (dictOf d) with
  | error e => rw [hb] at h; cases h
  | ok child =>
    obtain ⟨hr, hn⟩ := build_rep hS hd hp hb
    rw [hb] at h
    simp only [bind, Except.bind, pure, Except.pure] at h
    by_cases ha : kids.any (nodeEq E.S child) = true
    · rw [if_pos ha, if_pos (hr.typed hS)] at h
      injection h with h
      subst h
      dsimp only
      refine ⟨?_, ?_, ?_, I.nodup, I.long, fun h => by
        rw [List.length_map]; exact I.few (fun d' hd' => h d' (by simp [hd']))⟩
      · intro k hk
        obtain ⟨k', hk', rfl⟩ := List.mem_map.mp hk
        obtain ⟨d', hd', hr'⟩ := I.rep k' hk'
        by_cases he : nodeEq E.S child k' = true
        · rw [if_pos he]
          exact ⟨d', by simp [hd'], hr'.update hr (fun s => (hr.eq_keys hS hr' he s).symm)⟩
        · rw [if_neg he]
          exact ⟨d', by simp [hd'], hr'⟩
      · intro e he
        rcases List.mem_append.mp he with he | he
        · obtain ⟨k, hk, d', hd', hr', hs⟩ := I.cover e he
          refine ⟨if nodeEq E.S child k then updateNode k child else k, List.mem_map_of_mem (f := fun k => if nodeEq E.S child k then updateNode k child else k) hk, d', by simp [hd'], ?_, hs⟩
          by_cases hek : nodeEq E.S child k = true
          · rw [if_pos hek]
            exact hr'.update hr (fun s => (hr.eq_keys hS hr' hek s).symm)
          · rw [if_neg hek]; exact hr'
        · simp only [List.mem_singleton] at he
          subst he
          obtain ⟨k, hk, hek⟩ := List.any_eq_true.mp ha
          obtain ⟨d', hd', hr'⟩ := I.rep k hk
          refine ⟨if nodeEq E.S child k then updateNode k child else k, List.mem_map_of_mem (f := fun k => if nodeEq E.S child k then updateNode k child else k) hk, d', by simp [hd'], ?_, hr.eq_keys hS hr' hek⟩
          rw [if_pos hek]
          exact hr'.update hr (fun s => (hr.eq_keys hS hr' hek s).symm)
      · rw [List.map_map, ← I.nms]
        apply List.map_congr_left
        intro k _
        simp only [Function.comp]
        split
        · exact name_updateNode
        · rfl
    · rw [if_neg ha] at h
      injection h with h
      subst h
      dsimp only
      refine ⟨?_, ?_, ?_, ?_, ?_, ?_⟩
      · intro k hk
        rcases List.mem_append.mp hk with hk | hk
        · obtain ⟨d', hd', hr'⟩ := I.rep k hk
          exact ⟨d', by simp [hd'], hr'⟩
        · simp only [List.mem_singleton] at hk
          subst hk
          exact ⟨d, by simp, hr⟩
      · intro e he
        rcases List.mem_append.mp he with he | he
        · obtain ⟨k, hk, d', hd', hr', hs⟩ := I.cover e he
          exact ⟨k, by simp [hk], d', by simp [hd'], hr', hs⟩
        · simp only [List.mem_singleton] at he
          subst he
          exact ⟨child, by simp, e, by simp, hr, fun _ => Iff.rfl⟩
      · simp [I.nms, hn]
      · rw [List.nodup_append]
        refine ⟨I.nodup, by simp, ?_⟩
        intro a ha' b hb' e
        simp only [List.mem_singleton] at hb'
        subst e hb'
        exact Props.fresh_name_unused _ _ ha'
      · intro s hs
        rcases List.mem_append.mp hs with hs | hs
        · exact I.long s hs
        · simp only [List.mem_singleton] at hs
          subst hs
          exact fresh_long _ _
      · intro hall
        have : kids = [] := by
          cases hks : kids with
          | nil => rfl
          | cons k r =>
            refine absurd ?_ ha
            obtain ⟨d', hd', hr'⟩ := I.rep k (by rw [hks]; simp)
            rw [List.any_eq_true]
            exact ⟨k, by rw [hks]; simp, hr.eq_empty hS hr' (hall d (by simp)) (hall d' (by simp [hd']))⟩
        rw [this]; simp

theorem foldInv_all {E : Env} {pool : List Dct} {f : Nat} {parent : Str} (hS : E.S.dict = .typedDict) :
    ∀ {ds done : List Dct} {acc r : List Node × List Str}, (∀ d ∈ ds, IsDict d ∧ d ∈ pool) → FoldInv E pool done acc.1 acc.2 →
    foldE (setStep E (build E f false) parent) acc (ds.map dictOf) = .ok r → FoldInv E pool (done ++ ds) r.1 r.2
  | [], done, acc, r, _, I, h => by
    simp only [List.map_nil, foldE] at h
    injection h with h
    subst h
    simpa using I
  | d :: ds, done, acc, r, hds, I, h => by
    simp only [List.map_cons, foldE] at h
    cases hs : setStep E (build E f false) parent acc (dictOf d) with
    | error e => rw [hs] at h; cases h
    | ok b =>
      rw [hs] at h
      dsimp only at h
      have h1 := foldInv_step hS (hds d (by simp)).1 (hds d (by simp)).2 I hs
      have := foldInv_all hS (done := done ++ [d]) (fun e he => hds e (by simp [he])) h1 h
      simpa using this

/-! ### Comparison -/

theorem str_inj_nodup {l : List Str} (h : l.Nodup) : (l.map Key.str).Nodup := by
  rw [List.nodup_iff_pairwise_ne, List.pairwise_map]
  refine List.Pairwise.imp ?_ (List.nodup_iff_pairwise_ne.mp h)
  intro a b hab e
  injection e with e
  exact hab e

theorem addValueType_single {τ : Key → Ty} {acc : List (Key × List Ty)} {kv : Key × Val}
    (h : ∀ x ∈ acc, x.2 = [τ x.1]) (hkv : kv.2.ty = τ kv.1) : ∀ x ∈ addValueType acc kv, x.2 = [τ x.1] := by
  intro x hx
  unfold addValueType at hx
  cases hl : lookupKey kv.1 acc with
  | none =>
    rw [hl] at hx
    simp only [Option.getD_none, List.not_mem_nil, and_false, if_false, List.nil_append] at hx
    rcases mem_setKey hx with rfl | hx
    · simp [hkv]
    · exact h x hx
  | some l =>
    have h1 := h _ (lookupKey_mem hl)
    simp only at h1
    subst h1
    rw [hl] at hx
    simp only [Option.getD_some, List.mem_singleton] at hx
    have h2 : ¬ (kv.2.ty = Ty.float ∧ Ty.int = τ kv.1) := by
      rintro ⟨h1, h2⟩
      rw [hkv, ← h2] at h1
      revert h1; decide
    rw [if_neg h2] at hx
    rw [if_pos (by simp [hkv])] at hx
    rcases mem_setKey hx with rfl | hx
    · rfl
    · exact h x hx

theorem foldl_addValueType {τ : Key → Ty} : ∀ {l : List (Key × Val)} {acc : List (Key × List Ty)},
    (∀ x ∈ acc, x.2 = [τ x.1]) → (∀ kv ∈ l, kv.2.ty = τ kv.1) → ∀ x ∈ l.foldl addValueType acc, x.2 = [τ x.1]
  | [], _, h, _ => h
  | kv :: l, acc, h, hl => by
    simp only [List.foldl_cons]
    exact foldl_addValueType (addValueType_single h (hl kv (by simp))) (fun x hx => hl x (by simp [hx]))

/-- Agreeing dictionaries assign one class to every key. -/
theorem agree_fun {ds : List Dct} (h : Agree ds) : ∃ τ : Key → Ty, ∀ d ∈ ds, ∀ k v, (k, v) ∈ d → v.ty = τ (.str k) := by
  refine ⟨fun x => match ds.flatten.find? (fun kv => decide (Key.str kv.1 = x)) with
    | some kv => kv.2.ty
    | none => .int, ?_⟩
  intro d hd k v hkv
  dsimp only
  split
  · rename_i kv hf
    have h1 := List.find?_some hf
    have h2 := List.mem_of_find?_eq_some hf
    simp only [decide_eq_true_eq, Key.str.injEq] at h1
    obtain ⟨e, he, hke⟩ := List.mem_flatten.mp h2
    exact h d hd e he (k, v) hkv kv hke h1.symm
  · rename_i hf
    rw [List.find?_eq_none] at hf
    exact absurd (by simp) (hf (k, v) (List.mem_flatten.mpr ⟨d, hd, hkv⟩))

theorem keys_of_meta {K : List Str} {m : DMeta} (h : Meta K m) {x : Key} : x ∈ m.keys ↔ ∃ s ∈ K, x = .str s := by
  unfold DMeta.keys
  rw [mem_dedup, List.mem_filter]
  constructor
  · rintro ⟨h1, h2⟩
    obtain ⟨kv, hkv, rfl⟩ := List.mem_map.mp h1
    obtain ⟨s, hs⟩ := h.strs kv hkv
    rw [hs] at h1 h2 ⊢
    exact ⟨s, (h.data s (by simpa using h2)).mp h1, rfl⟩
  · rintro ⟨s, hs, rfl⟩
    have := h.hid s hs
    exact ⟨(h.data s this).mpr hs, by simp [this]⟩

/-- What comparing the metadata of nodes for `ds` computes. -/
theorem compareDicts_spec {ds : List Dct} {ms : List DMeta} (hne : ms ≠ [])
    (h1 : ∀ m ∈ ms, ∃ d ∈ ds, Meta (shown d) m) (h2 : ∀ d ∈ ds, ∃ m ∈ ms, Meta (shown d) m) :
    (compareDicts ms).1 = (commonKeys ds).length ∧ (compareDicts ms).2.1 = (allKeys ds).length := by
  cases ms with
  | nil => exact absurd rfl hne
  | cons m r =>
    obtain ⟨d0, hd0, hm0⟩ := h1 m (by simp)
    have hdne : ds ≠ [] := by rintro rfl; simp at hd0
    simp only [compareDicts]
    refine ⟨?_, ?_⟩
    · have hp : (m.keys.filter (fun k => r.all (fun m' => m'.keys.contains k))).Perm ((commonKeys ds).map Key.str) := by
        apply perm_of_nodup_mem
        · exact (nodup_dedup _).filter _
        · exact str_inj_nodup ((nodup_dedup _).filter _)
        · intro x
          simp only [List.mem_filter, List.all_eq_true, List.contains_iff_mem, List.mem_map]
          constructor
          · rintro ⟨hx, hr⟩
            obtain ⟨s, hs, rfl⟩ := (keys_of_meta hm0).mp hx
            refine ⟨s, (mem_commonKeys hdne).mpr ?_, rfl⟩
            intro d hd
            obtain ⟨m', hm', hmd⟩ := h2 d hd
            have : Key.str s ∈ m'.keys := by
              rcases List.mem_cons.mp hm' with rfl | hm'
              · exact hx
              · exact hr m' hm'
            obtain ⟨s', hs', e⟩ := (keys_of_meta hmd).mp this
            injection e with e
            subst e; exact hs'
          · rintro ⟨s, hs, rfl⟩
            have hs := (mem_commonKeys hdne).mp hs
            refine ⟨(keys_of_meta hm0).mpr ⟨s, hs d0 hd0, rfl⟩, ?_⟩
            intro m' hm'
            obtain ⟨d, hd, hmd⟩ := h1 m' (by simp [hm'])
            exact (keys_of_meta hmd).mpr ⟨s, hs d hd, rfl⟩
      rw [hp.length_eq, List.length_map]
    · have hp : (dedup ((m :: r).flatMap DMeta.keys)).Perm ((allKeys ds).map Key.str) := by
        apply perm_of_nodup_mem (nodup_dedup _) (str_inj_nodup (nodup_dedup _))
        intro x
        rw [mem_dedup, List.mem_flatMap, List.mem_map]
        constructor
        · rintro ⟨m', hm', hx⟩
          obtain ⟨d, hd, hmd⟩ := h1 m' hm'
          obtain ⟨s, hs, rfl⟩ := (keys_of_meta hmd).mp hx
          exact ⟨s, mem_allKeys.mpr ⟨d, hd, hs⟩, rfl⟩
        · rintro ⟨s, hs, rfl⟩
          obtain ⟨d, hd, hs⟩ := mem_allKeys.mp hs
          obtain ⟨m', hm', hmd⟩ := h2 d hd
          exact ⟨m', hm', (keys_of_meta hmd).mpr ⟨s, hs, rfl⟩⟩
      rw [hp.length_eq, List.length_map]

theorem Meta.congr {K K' : List Str} {m : DMeta} (h : Meta K m) (hk : ∀ s, s ∈ K ↔ s ∈ K') : Meta K' m where
  strs := h.strs
  init s hs := by rw [h.init s hs, hk]
  data s hs := by rw [h.data s hs, hk]
  req s := by rw [h.req]; exact ite_congr' (hk s)
  hid s hs := h.hid s ((hk s).mpr hs)

/-- The merge test on the nodes of agreeing dictionaries. -/
theorem shouldMerge_iff {E : Env} {ds : List Dct} {ns : List Node} (hag : Agree ds) (hne : ns ≠ [])
    (h1 : ∀ k ∈ ns, ∃ d ∈ ds, Rep E ds d k)
    (h2 : ∀ d ∈ ds, ∃ k ∈ ns, ∃ d' ∈ ds, Rep E ds d' k ∧ ∀ s, s ∈ shown d ↔ s ∈ shown d') :
    shouldMerge E.S ns = decide (E.S.merge ≤ percentSimilarity (commonKeys ds).length (allKeys ds).length) := by
  have hm1 : ∀ m ∈ ns.filterMap nodeMeta, ∃ d ∈ ds, Meta (shown d) m ∧ ∀ kv ∈ m.data, ∃ e ∈ ds, ∃ s, kv.1 = .str s ∧ (s, kv.2) ∈ e := by
    intro m hm
    obtain ⟨n, hn, hnm⟩ := List.mem_filterMap.mp hm
    obtain ⟨d, hd, hr⟩ := h1 n hn
    obtain ⟨m', hm', _, hg, _, hp, _⟩ := hr.info
    rw [hnm] at hm'
    injection hm' with hm'
    subst hm'
    exact ⟨d, hd, hg, hp⟩
  have hm2 : ∀ d ∈ ds, ∃ m ∈ ns.filterMap nodeMeta, Meta (shown d) m := by
    intro d hd
    obtain ⟨k, hk, d', _, hr, hs⟩ := h2 d hd
    obtain ⟨m', hm', _, hg, _⟩ := hr.info
    exact ⟨m', List.mem_filterMap.mpr ⟨k, hk, hm'⟩, hg.congr (fun s => (hs s).symm)⟩
  have hmne : ns.filterMap nodeMeta ≠ [] := by
    cases ns with
    | nil => exact absurd rfl hne
    | cons n r =>
      obtain ⟨d, hd, _⟩ := h1 n (by simp)
      obtain ⟨m, hm, _⟩ := hm2 d hd
      intro h; rw [h] at hm; simp at hm
  obtain ⟨c1, c2⟩ := compareDicts_spec hmne (fun m hm => by obtain ⟨d, hd, hg, _⟩ := hm1 m hm; exact ⟨d, hd, hg⟩) hm2
  have c3 : (compareDicts (ns.filterMap nodeMeta)).2.2 = true := by
    obtain ⟨τ, hτ⟩ := agree_fun hag
    cases hms : ns.filterMap nodeMeta with
    | nil => exact absurd hms hmne
    | cons m r =>
      simp only [compareDicts, List.all_eq_true, decide_eq_true_eq]
      intro x hx
      rw [foldl_addValueType (τ := τ) (by simp) ?_ x hx]
      · rfl
      · intro kv hkv
        obtain ⟨m', hm', hkv⟩ := List.mem_flatMap.mp hkv
        rw [← hms] at hm'
        obtain ⟨_, _, _, hp⟩ := hm1 m' hm'
        obtain ⟨e, he, s, hs, hmem⟩ := hp kv hkv
        rw [hs]
        exact hτ e he s kv.2 hmem
  unfold shouldMerge
  rw [← c1, ← c2]
  simp only [c3, Bool.and_true]

/-! ### Metadata of several dictionaries merged -/

/-- The metadata of dictionaries with visible keys `Ks`, the first of them `K₀`. -/
structure MetaAll (K₀ : List Str) (Ks : List (List Str)) (m : DMeta) : Prop where
  first : K₀ ∈ Ks
  strs : ∀ kv ∈ m.data, ∃ s, kv.1 = .str s
  init : ∀ s, (Key.str s).hidden = false → (Key.str s ∈ m.init ↔ s ∈ K₀)
  data : ∀ s, (Key.str s).hidden = false → (Key.str s ∈ m.data.map (·.1) ↔ ∃ K ∈ Ks, s ∈ K)
  req : ∀ s, lookupKey (.str s) m.req = if ∃ K ∈ Ks, s ∈ K then some (decide (∀ K ∈ Ks, s ∈ K)) else none
  hid : ∀ K ∈ Ks, ∀ s ∈ K, (Key.str s).hidden = false

theorem Meta.all {K : List Str} {m : DMeta} (h : Meta K m) : MetaAll K [K] m where
  first := by simp
  strs := h.strs
  init := h.init
  data s hs := by simp [h.data s hs]
  req s := by
    rw [h.req]
    by_cases hs : s ∈ K
    · simp [hs]
    · simp [hs]
  hid K' hK' := by
    simp only [List.mem_singleton] at hK'
    subst hK'
    exact h.hid

theorem MetaAll.update {K₀ K : List Str} {Ks : List (List Str)} {m o : DMeta} (hm : MetaAll K₀ Ks m) (ho : Meta K o) :
    MetaAll K₀ (Ks ++ [K]) (m.update o) where
  first := by simp [hm.first]
  strs kv hkv := by
    rcases mem_update_data hkv with h | h
    · exact hm.strs kv h
    · exact ho.strs kv h
  init := hm.init
  data s hs := by
    rw [mem_update_keys, hm.data s hs, ho.data s hs]
    simp only [List.mem_append, List.mem_singleton, or_and_right, exists_or, exists_eq_left]
  req s := by
    rw [lookup_update_req, hm.req]
    have hex : (∃ K' ∈ Ks ++ [K], s ∈ K') ↔ (∃ K' ∈ Ks, s ∈ K') ∨ s ∈ K := by
      simp only [List.mem_append, List.mem_singleton, or_and_right, exists_or, exists_eq_left]
    have hall : (∀ K' ∈ Ks ++ [K], s ∈ K') ↔ (∀ K' ∈ Ks, s ∈ K') ∧ s ∈ K := by
      simp only [List.mem_append, List.mem_singleton, or_imp, forall_and, forall_eq]
    have hdec : decide (∀ K' ∈ Ks ++ [K], s ∈ K') = (decide (∀ K' ∈ Ks, s ∈ K') && decide (s ∈ K)) := by
      rw [Bool.eq_iff_iff]; simp only [Bool.and_eq_true, decide_eq_true_eq]; exact hall
    rw [ite_congr' hex, hdec]
    by_cases h : ∃ K' ∈ Ks, s ∈ K'
    · have h' : (∃ K' ∈ Ks, s ∈ K') ∨ s ∈ K := .inl h
      rw [if_pos h, if_pos h']
      clear h'
      obtain ⟨K', hK', hs'⟩ := h
      have hs := hm.hid K' hK' s hs'
      simp only [Option.some_or, Option.map_some, Option.some.injEq]
      by_cases hK : s ∈ K
      · have hi : Key.str s ∈ o.init := (ho.init s hs).mpr hK
        have hne : o.init.isEmpty = false := by
          cases hoi : o.init with
          | nil => rw [hoi] at hi; simp at hi
          | cons a r => rfl
        simp [hne, hi, hK]
      · have hi : ¬ Key.str s ∈ o.init := mt (ho.init s hs).mp hK
        simp only [hK, decide_false, Bool.and_false]
        by_cases hne : o.init.isEmpty = true
        · simp [hne]
        · by_cases h0 : s ∈ K₀
          · simp [(hm.init s hs).mpr h0, hi]
          · have : ¬ ∀ K' ∈ Ks, s ∈ K' := fun h => h0 (h K₀ hm.first)
            simp [this]
    · rw [if_neg h]
      have hK0 : s ∉ K₀ := fun hs => h ⟨K₀, hm.first, hs⟩
      by_cases hK : s ∈ K
      · have hs := ho.hid s hK
        have h1 : Key.str s ∈ (m.update o).data.map (·.1) := by
          rw [mem_update_keys, ho.data s hs]; exact .inr hK
        have h' : (∃ K' ∈ Ks, s ∈ K') ∨ s ∈ K := .inr hK
        have hn2 : ¬ ∀ K' ∈ Ks, s ∈ K' := fun h => hK0 (h K₀ hm.first)
        rw [if_pos ⟨h1, hs, rfl⟩, if_pos h']
        simp [hn2]
      · have : ¬ (Key.str s ∈ (m.update o).data.map (·.1) ∧ (Key.str s).hidden = false ∧ (none : Option Bool) = none) := by
          rintro ⟨h1, h2, _⟩
          rw [mem_update_keys, hm.data s h2, ho.data s h2] at h1
          exact h1.elim h hK
        have h' : ¬ ((∃ K' ∈ Ks, s ∈ K') ∨ s ∈ K) := fun x => x.elim h hK
        rw [if_neg this, if_neg h']
        rfl
  hid K' hK' := by
    rcases List.mem_append.mp hK' with h | h
    · exact hm.hid K' h
    · simp only [List.mem_singleton] at h
      subst h
      exact ho.hid

theorem MetaAll.foldl {K₀ : List Str} : ∀ {ms : List DMeta} {Ls Ks : List (List Str)} {m : DMeta}, MetaAll K₀ Ks m →
    All₂ (fun (o : DMeta) L => Meta L o) ms Ls → MetaAll K₀ (Ks ++ Ls) (ms.foldl DMeta.update m)
  | [], _, _, _, hm, .nil => by simpa using hm
  | o :: ms, L :: Ls, Ks, m, hm, .cons ho h => by
    have := MetaAll.foldl (hm.update ho) h
    simpa using this

theorem all₂_of_forall {α β} {R : α → β → Prop} : ∀ {l : List α}, (∀ a ∈ l, ∃ b, R a b) → ∃ l', All₂ R l l'
  | [], _ => ⟨[], .nil⟩
  | a :: l, h => by
    obtain ⟨b, hb⟩ := h a (by simp)
    obtain ⟨l', hl'⟩ := all₂_of_forall (l := l) (fun x hx => h x (by simp [hx]))
    exact ⟨b :: l', .cons hb hl'⟩

theorem All₂.imp {α β} {R R' : α → β → Prop} (hR : ∀ a b, R a b → R' a b) {l l'} (h : All₂ R l l') : All₂ R' l l' := by
  induction h with
  | nil => exact .nil
  | cons h _ ih => exact .cons (hR _ _ h) ih

theorem All₂.mem_left {α β} {R : α → β → Prop} {l l'} (h : All₂ R l l') : ∀ a ∈ l, ∃ b ∈ l', R a b := by
  induction h with
  | nil => simp
  | cons h _ ih =>
    intro b hb
    rcases List.mem_cons.mp hb with rfl | hb
    · exact ⟨_, by simp, h⟩
    · obtain ⟨a, ha, hr⟩ := ih b hb
      exact ⟨a, by simp [ha], hr⟩

theorem keys_setKey_eq {α} {k : Key} {v : α} : ∀ {d : List (Key × α)},
    (setKey k v d).map (·.1) = if k ∈ d.map (·.1) then d.map (·.1) else d.map (·.1) ++ [k]
  | [] => by simp [setKey]
  | (k', v') :: r => by
    simp only [setKey]
    by_cases h : k' = k
    · simp [h]
    · rw [if_neg h, List.map_cons, keys_setKey_eq (d := r)]
      simp only [List.map_cons, List.mem_cons, Ne.symm h, false_or]
      split <;> simp

theorem nodup_setKey {α} {k : Key} {v : α} {d : List (Key × α)} (h : (d.map (·.1)).Nodup) : ((setKey k v d).map (·.1)).Nodup := by
  rw [keys_setKey_eq]
  split
  · exact h
  · rename_i hk
    rw [List.nodup_append]
    refine ⟨h, by simp, ?_⟩
    intro a ha b hb e
    simp only [List.mem_singleton] at hb
    subst e hb
    exact hk ha

theorem nodup_updateDict {α} : ∀ {e d : List (Key × α)}, (d.map (·.1)).Nodup → ((updateDict d e).map (·.1)).Nodup
  | [], _, h => h
  | kv :: e, d, h => by
    have : updateDict d (kv :: e) = updateDict (setKey kv.1 kv.2 d) e := rfl
    rw [this]
    exact nodup_updateDict (nodup_setKey h)

theorem foldl_updateDict_nodup : ∀ {ns : List Node} {d : List (Key × Val)}, (d.map (·.1)).Nodup →
    ((ns.foldl (fun acc n => updateDict acc (nodeData n)) d).map (·.1)).Nodup
  | [], _, h => h
  | n :: ns, d, h => by
    simp only [List.foldl_cons]
    exact foldl_updateDict_nodup (nodup_updateDict h)

theorem foldl_updateDict_keys {x : Key} : ∀ {ns : List Node} {d : List (Key × Val)},
    x ∈ (ns.foldl (fun acc n => updateDict acc (nodeData n)) d).map (·.1) ↔
      x ∈ d.map (·.1) ∨ ∃ n ∈ ns, x ∈ (nodeData n).map (·.1)
  | [], d => by simp
  | n :: ns, d => by
    simp only [List.foldl_cons]
    rw [foldl_updateDict_keys, keys_updateDict]
    simp only [List.mem_cons, or_and_right, exists_or, exists_eq_left, or_assoc]

/-- A node for the dictionaries `ds` together. -/
structure RecNode (E : Env) (ds : List Dct) (n : Node) : Prop where
  info : ∃ data m, n.hdr.kind = .dict data m ∧ (∀ kv ∈ m.data, ∃ s, kv.1 = .str s) ∧
    ∀ s ∈ allKeys ds, lookupKey (.str s) m.req = some (decide (s ∈ commonKeys ds))
  slots : ∃ K : List Str, n.hdr.slots.map (·.key) = K.map Key.str ∧ K.Perm (allKeys ds)
  len : n.hdr.slots.length = n.kids.length

theorem nodup_visible {l : List Str} (h : l.Nodup) : (visible l).Nodup := h.filter _

theorem Rep.recNode {E : Env} {pool : List Dct} {d : Dct} {n : Node} (h : Rep E pool d n) (hd : IsDict d) : RecNode E [d] n := by
  obtain ⟨m, hm, _, hg, _⟩ := h.info
  cases n with
  | mk a ka =>
    cases hak : a.kind with
    | dict x y =>
      simp only [nodeMeta, hak, Option.some.injEq] at hm
      subst hm
      refine ⟨⟨x, y, hak, hg.strs, ?_⟩, ⟨shown d, h.slots, ?_⟩, h.len⟩
      · intro s hs
        have hs' : s ∈ shown d := by simpa [mem_allKeys] using hs
        have : s ∈ commonKeys [d] := (mem_commonKeys (by simp)).mpr (by simpa using hs')
        rw [hg.req]; simp [hs', this]
      · refine perm_of_nodup_mem (nodup_visible hd) (nodup_dedup _) ?_
        intro s; simp [mem_allKeys]
    | _ => simp [nodeMeta, hak] at hm

/-- Merging nodes for `ds`. -/
theorem mergeDicts_spec {E : Env} {f : Nat} {ds : List Dct} {ns : List Node} {n : Node} (hS : E.S.dict = .typedDict)
    (h1 : ∀ k ∈ ns, ∃ d ∈ ds, Rep E ds d k)
    (h2 : ∀ d ∈ ds, ∃ k ∈ ns, ∃ d' ∈ ds, Rep E ds d' k ∧ ∀ s, s ∈ shown d ↔ s ∈ shown d')
    (h : mergeDicts (build E f false) ns = .ok n) : RecNode E ds n ∧ ∃ k ∈ ns, n.name = k.name := by
  cases ns with
  | nil => cases h
  | cons k ks =>
    simp only [mergeDicts] at h
    generalize hdata : (k :: ks).foldl (fun acc n => updateDict acc (nodeData n)) [] = data at h
    generalize hname : ks.foldl (fun acc n => minStr acc n.name) k.name = name at h
    have hkeys : ∀ x, x ∈ data.map (·.1) ↔ ∃ n ∈ k :: ks, x ∈ (nodeData n).map (·.1) := by
      intro x
      rw [← hdata, foldl_updateDict_keys]
      simp
    have hnd : (data.map (·.1)).Nodup := by rw [← hdata]; exact foldl_updateDict_nodup (by simp)
    have hstr : ∀ kv ∈ data, ∃ s, kv.1 = .str s := by
      intro kv hkv
      obtain ⟨n', hn', hx⟩ := (hkeys kv.1).mp (List.mem_map_of_mem hkv)
      obtain ⟨d, _, hr⟩ := h1 n' hn'
      obtain ⟨m, _, hd, hg, _⟩ := hr.info
      rw [hd] at hx
      obtain ⟨kv', hkv', e⟩ := List.mem_map.mp hx
      obtain ⟨s, hs⟩ := hg.strs kv' hkv'
      exact ⟨s, by rw [← e, hs]⟩
    obtain ⟨D, hD⟩ : ∃ D : Dct, data = D.map (fun kv => (Key.str kv.1, kv.2)) := by
      clear hdata hkeys hnd h
      induction data with
      | nil => exact ⟨[], rfl⟩
      | cons a r ih =>
        obtain ⟨D, hD⟩ := ih (fun kv hkv => hstr kv (by simp [hkv]))
        obtain ⟨s, hs⟩ := hstr a (by simp)
        refine ⟨(s, a.2) :: D, ?_⟩
        rw [hD, List.map_cons, ← hs]
    have hval : Val.dict data = dictOf D := by
      rw [hD]; simp [Val.dict, dictOf, Function.comp_def]
    have hDd : IsDict D := by
      rw [hD, List.map_map] at hnd
      have e : D.map ((fun x : Key × Val => x.1) ∘ fun kv : Str × Val => (Key.str kv.1, kv.2)) = (D.map (·.1)).map Key.str := by simp
      rw [e] at hnd
      unfold IsDict
      rw [List.nodup_iff_pairwise_ne, List.pairwise_map] at hnd
      exact List.nodup_iff_pairwise_ne.mpr (hnd.imp (fun hab e => hab (by rw [e])))
    rw [hval] at h
    cases hb : build E f false name (dictOf D) with
    | error e => rw [hb] at h; cases h
    | ok n' =>
      obtain ⟨hr, hn'⟩ := build_rep hS hDd (pool := [D]) (by simp) hb
      rw [hb] at h
      cases n' with
      | mk hd kids =>
        simp only [bind, Except.bind, pure, Except.pure, Except.ok.injEq] at h
        subst h
        have hname' : ∃ k' ∈ k :: ks, name = k'.name := by
          rcases foldl_minStr_mem (ns := ks) (s := k.name) with h | ⟨k', hk', h⟩
          · exact ⟨k, by simp, by rw [← hname, h]⟩
          · exact ⟨k', by simp [hk'], by rw [← hname, h]⟩
        -- the metadata
        obtain ⟨d0, hd0, hr0⟩ := h1 k (by simp)
        obtain ⟨m0, hm0, _, hg0, _⟩ := hr0.info
        have hmm : ∀ m ∈ (k :: ks).filterMap nodeMeta, ∃ L, ∃ d ∈ ds, L = shown d ∧ Meta L m := by
          intro m hm
          obtain ⟨n', hn', e⟩ := List.mem_filterMap.mp hm
          obtain ⟨d, hd, hr⟩ := h1 n' hn'
          obtain ⟨m', hm', _, hg, _⟩ := hr.info
          rw [e] at hm'
          injection hm' with hm'
          subst hm'
          exact ⟨_, d, hd, rfl, hg⟩
        obtain ⟨Ls, hLs⟩ := all₂_of_forall hmm
        have hall := MetaAll.foldl hg0.all (ms := (k :: ks).filterMap nodeMeta) (Ls := Ls) (by
          exact hLs.imp (fun _ _ h => by obtain ⟨_, _, _, h⟩ := h; exact h))
        have hin : ∀ L ∈ [shown d0] ++ Ls, ∃ d ∈ ds, L = shown d := by
          intro L hL
          rcases List.mem_append.mp hL with h | h
          · simp only [List.mem_singleton] at h; exact ⟨d0, hd0, h⟩
          · obtain ⟨_, _, d, hd, e, _⟩ := hLs.mem_right L h
            exact ⟨d, hd, e⟩
        have hout : ∀ d ∈ ds, ∃ L ∈ [shown d0] ++ Ls, ∀ s, s ∈ shown d ↔ s ∈ L := by
          intro d hd
          obtain ⟨k', hk', d', hd', hr', hs⟩ := h2 d hd
          obtain ⟨m', hm', _, hg, _⟩ := hr'.info
          obtain ⟨L, hL, e, he, hLe, hLm⟩ := hLs.mem_left m' (List.mem_filterMap.mpr ⟨k', hk', hm'⟩)
          refine ⟨L, by simp [hL], ?_⟩
          intro s
          rw [hs]
          have a1 := hg.req s
          have a2 := hLm.req s
          rw [a1] at a2
          by_cases x1 : s ∈ shown d'
          · by_cases x2 : s ∈ L
            · simp [x1, x2]
            · rw [if_pos x1, if_neg x2] at a2; cases a2
          · by_cases x2 : s ∈ L
            · rw [if_neg x1, if_pos x2] at a2; cases a2
            · simp [x1, x2]
        have hdne : ds ≠ [] := by rintro rfl; simp at hd0
        have hexi : ∀ s, (∃ L ∈ [shown d0] ++ Ls, s ∈ L) ↔ s ∈ allKeys ds := by
          intro s
          rw [mem_allKeys]
          constructor
          · rintro ⟨L, hL, hs⟩
            obtain ⟨d, hd, e⟩ := hin L hL
            exact ⟨d, hd, e ▸ hs⟩
          · rintro ⟨d, hd, hs⟩
            obtain ⟨L, hL, e⟩ := hout d hd
            exact ⟨L, hL, (e s).mp hs⟩
        have hfor : ∀ s, (∀ L ∈ [shown d0] ++ Ls, s ∈ L) ↔ s ∈ commonKeys ds := by
          intro s
          rw [mem_commonKeys hdne]
          constructor
          · intro h d hd
            obtain ⟨L, hL, e⟩ := hout d hd
            exact (e s).mpr (h L hL)
          · intro h L hL
            obtain ⟨d, hd, e⟩ := hin L hL
            exact e ▸ h d hd
        refine ⟨⟨⟨data, _, rfl, ?_, ?_⟩, ⟨shown D, hr.slots, ?_⟩, hr.len⟩, ?_⟩
        · rw [hm0]; exact hall.strs
        · intro s hs
          rw [hm0, Option.getD_some, hall.req, if_pos ((hexi s).mpr hs), decide_eq_decide.mpr (hfor s)]
        · refine perm_of_nodup_mem (nodup_visible hDd) (nodup_dedup _) ?_
          intro s
          rw [← hexi, shown, mem_visible]
          have hk : ∀ x, Key.str x ∈ data.map (·.1) ↔ x ∈ D.map (·.1) := by
            intro x; rw [hD, List.map_map]; exact str_mem_map (fun _ => rfl)
          rw [← hk, hkeys]
          constructor
          · rintro ⟨⟨n', hn', hx⟩, hh⟩
            obtain ⟨d, hd, hr'⟩ := h1 n' hn'
            obtain ⟨m', _, hd', hg, _⟩ := hr'.info
            rw [hd', hg.data s hh] at hx
            obtain ⟨L, hL, e⟩ := hout d hd
            exact ⟨L, hL, (e s).mp hx⟩
          · rintro ⟨L, hL, hs⟩
            have hh := hall.hid L hL s hs
            refine ⟨?_, hh⟩
            obtain ⟨d, hd, e⟩ := hin L hL
            obtain ⟨k', hk', d', _, hr', hs'⟩ := h2 d hd
            obtain ⟨m', _, hd', hg, _⟩ := hr'.info
            refine ⟨k', hk', ?_⟩
            rw [hd', hg.data s hh, ← hs', ← e]
            exact hs
        · obtain ⟨k', hk', e⟩ := hname'
          exact ⟨k', hk', by rw [← e, ← hn']; rfl⟩

/-- The children of a sequence of agreeing dictionaries. -/
theorem dictSeq_children {E : Env} (hE : E.Fair) (hS : E.S.dict = .typedDict) (hm0 : 0 < E.S.merge)
    {ds : List Dct} {f : Nat} {parent : Str} {slots : List Slot} {kids : List Node} (hne : ds ≠ []) (hd : ∀ d ∈ ds, IsDict d)
    (hl : limit E.S.checkMax (ds.map dictOf) = ds.map dictOf)
    (h : setChildren E (build E f false) parent (ds.map dictOf) = .ok (slots, kids)) :
    slots = kids.map (fun _ => Slot.seq 1) ∧ (kids.map Node.name).Nodup ∧ (∀ k ∈ kids, 'D' ∈ k.name) ∧
    ((∀ d ∈ ds, shown d = []) → kids.length ≤ 1) ∧
    ∃ b, (Agree ds → b = decide (E.S.merge ≤ percentSimilarity (commonKeys ds).length (allKeys ds).length)) ∧
    if b = true then ∃ n, kids = [n] ∧ RecNode E ds n
    else (∀ k ∈ kids, ∃ d ∈ ds, Rep E ds d k) ∧
      ∀ d ∈ ds, ∃ k ∈ kids, ∃ d' ∈ ds, Rep E ds d' k ∧ ∀ s, s ∈ shown d ↔ s ∈ shown d' := by
  unfold setChildren at h
  rw [hl] at h
  cases hf : foldE (setStep E (build E f false) parent) ([], []) (ds.map dictOf) with
  | error e => rw [hf] at h; cases h
  | ok acc =>
    obtain ⟨ks, names⟩ := acc
    rw [hf] at h
    have I : FoldInv E ds ds ks names := by
      have := foldInv_all (pool := ds) (done := []) (r := (ks, names)) hS (fun d hd' => ⟨hd d hd', hd'⟩)
        (acc := ([], [])) ⟨by simp, by simp, rfl, by simp, by simp, by simp⟩ hf
      simpa using this
    have hfil : ∀ i, (E.order i ks).filter (isTypedDict E.S) = E.order i ks := by
      intro i
      rw [List.filter_eq_self]
      intro k hk
      obtain ⟨d, _, hr⟩ := I.rep k ((hE i ks).mem_iff.mp hk)
      exact hr.typed hS
    have hrep : ∀ i, ∀ k ∈ E.order i ks, ∃ d ∈ ds, Rep E ds d k := fun i k hk => I.rep k ((hE i ks).mem_iff.mp hk)
    have hcov : ∀ i, ∀ d ∈ ds, ∃ k ∈ E.order i ks, ∃ d' ∈ ds, Rep E ds d' k ∧ ∀ s, s ∈ shown d ↔ s ∈ shown d' := by
      intro i d hd'
      obtain ⟨k, hk, h⟩ := I.cover d hd'
      exact ⟨k, (hE i ks).mem_iff.mpr hk, h⟩
    have hksne : E.order 0 ks ≠ [] := by
      cases ds with
      | nil => exact absurd rfl hne
      | cons d r =>
        obtain ⟨k, hk, _⟩ := hcov 0 d (by simp)
        intro e; rw [e] at hk; simp at hk
    simp only [bind, Except.bind, hfil] at h
    have hsm := fun hag => shouldMerge_iff (E := E) hag hksne (hrep 0) (hcov 0)
    generalize shouldMerge E.S (E.order 0 ks) = b at h hsm
    by_cases hc : b = true
    · simp only [hc, if_true] at h
      cases hmd : mergeDicts (build E f false) (E.order 1 ks) with
      | error e => rw [hmd] at h; cases h
      | ok n =>
        obtain ⟨hr, k, hk, hkn⟩ := mergeDicts_spec hS (hrep 1) (hcov 1) hmd
        rw [hmd] at h
        have hnil : ks.filter (fun k => !isTypedDict E.S k) = [] := by
          rw [List.filter_eq_nil_iff]
          intro k hk
          obtain ⟨d, _, hr⟩ := I.rep k hk
          simp [hr.typed hS]
        have hone : E.order 2 [n] = [n] := by
          have := hE 2 [n]
          exact List.perm_singleton.mp this
        simp only [pure, Except.pure, hnil, List.nil_append, hone] at h
        injection h with h
        injection h with h1 h2
        subst h1 h2
        refine ⟨rfl, by simp, ?_, by simp, b, hsm, by rw [if_pos hc]; exact ⟨n, rfl, hr⟩⟩
        intro k' hk'
        simp only [List.mem_singleton] at hk'
        subst hk'
        rw [hkn]
        apply I.long
        rw [← I.nms]
        exact List.mem_map_of_mem ((hE 1 ks).mem_iff.mp hk)
    · simp only [hc, Bool.false_eq_true, if_false, pure, Except.pure] at h
      injection h with h
      injection h with h1 h2
      subst h1 h2
      refine ⟨rfl, ?_, ?_, fun h => by rw [(hE 0 ks).length_eq]; exact I.few h, b, hsm, by rw [if_neg hc]; exact ⟨hrep 0, hcov 0⟩⟩
      · exact ((hE 0 ks).map Node.name).nodup_iff.mpr (by rw [I.nms]; exact I.nodup)
      · intro k hk
        apply I.long
        rw [← I.nms]
        exact List.mem_map_of_mem ((hE 0 ks).mem_iff.mp hk)

/-! ### Rendering -/

theorem absList_eq_map {E : Env} : ∀ l : List Node, absList E l = l.map (fun n => n.abs E)
  | [] => rfl
  | n :: r => by simp [absList, absList_eq_map r]

theorem abs_name {E : Env} {n : Node} : (n.abs E).name = n.name := by
  cases n; rfl

/-- A record that describes the dictionaries `ds`: one entry per key, required exactly if all of them have it. -/
theorem aEntries_keys {E : Env} {m : DMeta} : ∀ {K : List Str} {os : List AOut}, K.length ≤ os.length →
    (aEntries E m ((K.map Key.str).zip os)).map (·.key) = K ∧
    ∀ e ∈ aEntries E m ((K.map Key.str).zip os), e.required = (lookupKey (.str e.key) m.req).getD true
  | [], _, _ => by simp [aEntries]
  | k :: K, [], h => by simp at h
  | k :: K, o :: os, h => by
    have ih := aEntries_keys (E := E) (m := m) (K := K) (os := os) (by simpa using h)
    simp only [List.map_cons, List.zip_cons_cons, aEntries, List.filterMap_cons]
    constructor
    · exact congrArg (k :: ·) ih.1
    · intro e he
      rcases List.mem_cons.mp he with rfl | he
      · rfl
      · exact ih.2 e he

theorem recNode_abs {E : Env} (hS : E.S.dict = .typedDict) {ds : List Dct} {n : Node} (h : RecNode E ds n) :
    (n.abs E).perm = true ∧ ∃ f doc es, (n.abs E).body = .record f doc es ∧ (es.map (·.key)).Perm (allKeys ds) ∧
      ∀ e ∈ es, e.required = decide (e.key ∈ commonKeys ds) := by
  cases n with
  | mk hd kids =>
    obtain ⟨data, m, hk, hstr, hreq⟩ := h.info
    obtain ⟨K, hK, hp⟩ := h.slots
    have hk : hd.kind = .dict data m := hk
    have hK : hd.slots.map (·.key) = K.map Key.str := hK
    have hlen : hd.slots.length = kids.length := h.len
    have ht : m.isTyped E.S = true := by
      simp only [DMeta.isTyped, Bool.and_eq_true, decide_eq_true_eq]
      refine ⟨?_, hS⟩
      unfold allStr
      rw [List.all_eq_true]
      intro kv hkv
      obtain ⟨s, hs⟩ := hstr kv hkv
      rw [hs]; rfl
    have hKl : K.length ≤ (absList E kids).length := by
      have := congrArg List.length hK
      simp only [List.length_map] at this
      rw [absList_eq_map, List.length_map]; omega
    obtain ⟨e1, e2⟩ := aEntries_keys (E := E) (m := m) hKl
    refine ⟨?_, ?_⟩
    · simp [Node.abs, aCombine, permOf, hk, ht]
    · simp only [Node.abs, aCombine, aBody, hk, ht, if_true, recordBody, hK]
      refine ⟨_, _, _, rfl, ?_, ?_⟩
      · rw [e1]; exact hp
      · intro e he
        rw [e2 e he]
        have : e.key ∈ allKeys ds := by
          rw [← hp.mem_iff, ← e1]
          exact List.mem_map_of_mem he
        rw [hreq _ this]; rfl

theorem unionOf_one {t : TExpr} : unionOf [t] = t := rfl

theorem unionOf_many {ts : List TExpr} (h : 2 ≤ ts.length) : unionOf ts = .union ts := by
  match ts, h with
  | _ :: _ :: _, _ => rfl

/-- The alias of a sequence whose children are all records with distinct names. -/
theorem aAlias_names {kids : List AOut} (hne : kids ≠ []) (hp : ∀ k ∈ kids, k.perm = true) (hn : (kids.map (·.name)).Nodup)
    (hd : ∀ k ∈ kids, 'D' ∈ k.name) : ∃ Xs : List Str, Xs.Perm (kids.map (·.name)) ∧ aAlias kids = unionOf (Xs.map .name) := by
  have h1 : aTypes kids = (kids.map (·.name)).map .name := by
    unfold aTypes
    have : kids.isEmpty = false := by cases kids; exact absurd rfl hne; rfl
    rw [this, List.map_map]
    simp only [Bool.false_eq_true, if_false]
    apply List.map_congr_left
    intro k hk
    simp [aref, hp k hk]
  have h2 : ((kids.map (·.name)).map TExpr.name).map TExpr.print = kids.map (·.name) := by
    rw [List.map_map]
    conv => rhs; rw [← List.map_id (kids.map (·.name))]
    apply List.map_congr_left
    intro k _
    simp [TExpr.print]
  refine ⟨uniqueTypes (kids.map (·.name)), ?_, ?_⟩
  · have hint : (kids.map (·.name)).contains py!"int" = false := by
      rw [← Bool.not_eq_true, List.contains_iff_mem]
      intro h
      obtain ⟨k, hk, e⟩ := List.mem_map.mp h
      have := hd k hk
      rw [e] at this
      revert this; decide
    unfold uniqueTypes
    simp only [hint, Bool.and_false, Bool.false_eq_true, if_false]
    rw [dedup_of_nodup hn]
    exact sortStr_perm _
  · unfold aAlias aUnique
    rw [h1, h2]
    congr 1
    apply List.map_congr_left
    intro x hx
    have hx := (mem_uniqueTypes.mp hx).1
    have : x ∈ ((kids.map (·.name)).map TExpr.name).map TExpr.print := by rw [h2]; exact hx
    obtain ⟨e1, e2⟩ := pick_print this
    obtain ⟨y, hy, e⟩ := List.mem_map.mp e2
    rw [← e] at e1 ⊢
    simp only [TExpr.print] at e1
    rw [e1]

end Verif
