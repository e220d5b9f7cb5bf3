import Verif.Lemmas.Unique
import Verif.Spec.Clear
/-
The declarations for clear data have different names.
-/
namespace Verif
open Verif.Spec

/-! ### Names -/

theorem Separate.symm {a b : Str} (h : Separate a b) : Separate b a := ⟨h.2, h.1⟩

theorem separate_append {p a b : Str} : Separate (p ++ a) (p ++ b) ↔ Separate a b := by
  have key : ∀ a b : Str, Continues (p ++ a) (p ++ b) ↔ Continues a b := by
    intro a b
    unfold Continues
    constructor
    · rintro ⟨s, e, h⟩
      rw [List.append_assoc] at e
      exact ⟨s, List.append_cancel_left e, h⟩
    · rintro ⟨s, e, h⟩
      exact ⟨s, by rw [e, List.append_assoc], h⟩
  unfold Separate
  rw [key, key]

theorem Separate.ne {a b s s' : Str} (h : Separate a b) (hs : Tail s) (hs' : Tail s') : a ++ s ≠ b ++ s' := by
  intro e
  rcases List.append_eq_append_iff.mp e with ⟨u, h1, h2⟩ | ⟨u, h1, h2⟩
  · refine h.1 ⟨u, h1, ?_⟩
    cases u with
    | nil => exact .inl rfl
    | cons c r =>
      rcases hs with rfl | ⟨d, t, rfl, hd⟩
      · simp at h2
      · injection h2 with h2 _
        exact .inr ⟨c, r, rfl, h2 ▸ hd⟩
  · refine h.2 ⟨u, h1, ?_⟩
    cases u with
    | nil => exact .inl rfl
    | cons c r =>
      rcases hs' with rfl | ⟨d, t, rfl, hd⟩
      · simp at h2
      · injection h2 with h2 _
        exact .inr ⟨c, r, rfl, h2 ▸ hd⟩

theorem Token.separate {s t : Str} (hs : Token s) (ht : Token t) (h : s ≠ t) : Separate s t := by
  have key : ∀ {s t : Str}, Token s → Token t → s ≠ t → ¬ Continues s t := by
    rintro s t ⟨c, r, rfl, hc, hr⟩ ⟨d, q, rfl, hd, hq⟩ h ⟨u, e, hu⟩
    rcases hu with rfl | ⟨x, y, rfl, hx⟩
    · rw [List.append_nil] at e; exact h e.symm
    · rw [List.cons_append] at e
      injection e with _ e
      have := hq x (by rw [e]; simp)
      rw [this] at hx
      cases hx
  exact ⟨key hs ht h, key ht hs (Ne.symm h)⟩

/-- A text that begins with a capital. -/
def Start (s : Str) : Prop := ∃ c r, s = c :: r ∧ c.isUpper = true

theorem Token.start {s : Str} (h : Token s) : Start s := by
  obtain ⟨c, r, e, hc, _⟩ := h
  exact ⟨c, r, e, hc⟩

theorem Start.tail {s t : Str} (h : Start s) : Tail (s ++ t) := by
  obtain ⟨c, r, rfl, hc⟩ := h
  exact .inr ⟨c, r ++ t, rfl, hc⟩

theorem Start.ne {s : Str} (h : Start s) : s ≠ [] := by
  obtain ⟨c, r, rfl, _⟩ := h
  simp

theorem upper_of_alpha {c : Char} (ha : isAscii c = true) (hc : c.isAlpha = true) : c.toUpper.isUpper = true := by
  have h : asciiAlnum c = true := asciiAlnum_iff.mpr ⟨ha, by simp [Char.isAlphanum, hc]⟩
  have := asciiAlnum_cases (P := fun c => c.isAlpha = true → c.toUpper.isUpper = true) (by decide +kernel) h
  exact this hc

theorem className_capitalize {U : Uni} {t : Ty} (h : LetterFirst t) {s : Str} (hs : ∀ c ∈ s, c.isDigit = true) :
    ClassWord t (U.capitalize t.name ++ s) := by
  obtain ⟨c, r, e, hc, ha⟩ := h
  refine ⟨c, r, s, e, hs, ?_⟩
  rw [e]
  simp only [Uni.capitalize]
  rw [U.title_ascii c (asciiAlnum_iff.mp (ha c (by simp))).1]
  have : r.flatMap U.lower = r.map Char.toLower := by
    have : ∀ l : Str, (∀ d ∈ l, asciiAlnum d = true) → l.flatMap U.lower = l.map Char.toLower := by
      intro l
      induction l with
      | nil => intro _; rfl
      | cons d l ih =>
        intro h
        rw [List.flatMap_cons, List.map_cons, ih (fun x hx => h x (by simp [hx])), U.lower_ascii d (asciiAlnum_iff.mp (h d (by simp))).1]
        rfl
    exact this r (fun d hd => ha d (by simp [hd]))
  rw [this]
  rfl

theorem camelSlots_camelFrom {U : Uni} : ∀ {s : Str} {b : Bool}, (∀ c ∈ s, isAscii c = true) →
    (camelSlots U b s).flatten = camelFrom b s
  | [], _, _ => by simp [camelSlots, camelFrom]
  | c :: r, b, h => by
    have hc := h c (by simp)
    have hr : ∀ c ∈ r, isAscii c = true := fun c hc => h c (by simp [hc])
    have e : (!U.isAlpha c && !U.isNumeric c) = !c.isAlphanum := by
      rw [U.alpha_ascii c hc, U.numeric_ascii c hc, Char.isAlphanum]
      simp
    simp only [camelSlots, camelFrom, e]
    cases c.isAlphanum with
    | false => simp [camelSlots_camelFrom hr]
    | true => cases b <;> simp [camelSlots_camelFrom hr, U.upper_ascii c hc]

theorem keySuffix_letter {U : Uni} {k : Key} (h : AlphaKey k) : keySuffix U k = keyName k ∧ Start (keyName k) := by
  cases k with
  | none => exact absurd h (by simp [AlphaKey])
  | other t r => exact absurd h (by simp [AlphaKey])
  | str s =>
    obtain ⟨⟨c, r, rfl, hc⟩, ha⟩ := h
    have hac := ha c (by simp)
    have hal : c.isAlphanum = true := by simp [Char.isAlphanum, hc]
    have hnd : U.isDecimal c = false := by
      rw [U.decimal_ascii c hac]
      have := asciiAlnum_cases (P := fun c => c.isAlpha = true → c.isDigit = false) (by decide +kernel) (asciiAlnum_iff.mpr ⟨hac, hal⟩)
      exact this hc
    refine ⟨?_, c.toUpper, camelFrom false r, by simp [keyName, camelFrom, hal], upper_of_alpha hac hc⟩
    have hr : ∀ c ∈ r, isAscii c = true := fun c hc => ha c (by simp [hc])
    have e : (!U.isAlpha c && !U.isNumeric c) = false := by
      rw [U.alpha_ascii c hac, hc]; rfl
    simp only [keySuffix, keyName, toCamel, List.dropWhile_cons, hnd, Bool.false_eq_true, if_false, List.length_cons, Nat.lt_irrefl, camelBody,
      camelSlots, e, camelFrom, hal, if_true]
    rw [camelSlots_camelFrom hr]
    simp [Uni.upperStr, U.upper_ascii c hac]

/-! ### Trees -/

/-- Kinds of nodes that are written in place. -/
def plainKind : NKind → Bool
  | .inst | .cls _ | .module | .io | .ndarray _ => true
  | _ => false

/-- A nested node that has no declaration. -/
def PlainNode (n : Node) : Prop := plainKind n.hdr.kind = true ∧ n.hdr.root = false ∧ n.kids = []

mutual
/-- Every child with declarations extends the name of its parent, and such children are the same or have names that cannot be
confused. -/
def NameTree : Node → Prop
  | .mk h kids => (∀ a ∈ kids, ∀ b ∈ kids, PlainNode a ∨ PlainNode b ∨ a = b ∨ Separate a.name b.name) ∧
      (∀ k ∈ kids, PlainNode k ∨ ∃ t, Start t ∧ k.name = h.name ++ t) ∧ NameTrees kids
def NameTrees : List Node → Prop
  | [] => True
  | n :: r => NameTree n ∧ NameTrees r
end

theorem nameTrees_iff : ∀ {l : List Node}, NameTrees l ↔ ∀ k ∈ l, NameTree k
  | [] => by simp [NameTrees]
  | n :: r => by simp [NameTrees, nameTrees_iff (l := r)]

theorem plain_decls {E : Env} {n : Node} (h : PlainNode n) : (n.abs E).decls = [] := by
  cases n with
  | mk hd kids =>
    obtain ⟨g1, g2, g3⟩ := h
    have h1 : plainKind hd.kind = true := g1
    have h2 : hd.root = false := g2
    have h3 : kids = [] := g3
    clear g1 g2 g3
    subst h3
    have hp : ∀ x, permOf E.S hd x = false := by
      intro x
      cases hk : hd.kind <;> rw [hk] at h1 <;> simp only [plainKind, Bool.false_eq_true] at h1 <;>
        simp only [permOf, hk, h2]
    simp [Node.abs, absList, aCombine, AOut.decls, aEmit, h2, hp]

theorem unique_clear {E : Env} {h : Hdr} {kids : List AOut} (hk : ∀ k ∈ kids, Unique k)
    (hn : ∀ a ∈ kids, ∀ b ∈ kids, a.decls = [] ∨ b.decls = [] ∨ a = b ∨ Separate a.name b.name)
    (ht : ∀ k ∈ kids, k.decls = [] ∨ ∃ t, Start t ∧ k.name = h.name ++ t) : Unique (aCombine E h kids) := by
  have below : ∀ k ∈ kids, ∀ d ∈ k.decls, ∃ t s, Start t ∧ Tail s ∧ k.name = h.name ++ t ∧ d.name = k.name ++ s := by
    intro k hkm d hd
    rcases ht k hkm with e | ⟨t, h1, h2⟩
    · rw [e] at hd; cases hd
    · obtain ⟨s, h3, h4⟩ := (hk k hkm).tail d hd
      exact ⟨t, s, h1, h3, h2, h4⟩
  have self : ∀ k ∈ kids, ∀ d ∈ k.decls, d.name ≠ h.name := by
    intro k hkm d hd e
    obtain ⟨t, s, h1, _, h3, h4⟩ := below k hkm d hd
    rw [h4, h3, List.append_assoc] at e
    have := List.append_right_eq_self.mp e
    exact h1.ne (List.append_eq_nil_iff.mp this).1
  constructor
  · intro d hd
    rcases decls_cases hd with rfl | ⟨k, hkm, hd⟩
    · exact ⟨[], .inl rfl, (List.append_nil _).symm⟩
    · obtain ⟨t, s, h1, _, h3, h4⟩ := below k hkm d hd
      exact ⟨t ++ s, h1.tail, by rw [h4, h3, List.append_assoc]; rfl⟩
  · intro d hd e he hde
    rcases decls_cases hd with rfl | ⟨k, hkm, hd⟩
    · rcases decls_cases he with rfl | ⟨k, hkm, he⟩
      · rfl
      · exact absurd hde.symm (self k hkm e he)
    · rcases decls_cases he with rfl | ⟨k', hkm', he⟩
      · exact absurd hde (self k hkm d hd)
      · obtain ⟨t, s, _, h2, _, h4⟩ := below k hkm d hd
        obtain ⟨t', s', _, h2', _, h4'⟩ := below k' hkm' e he
        rcases hn k hkm k' hkm' with h0 | h0 | rfl | h0
        · rw [h0] at hd; cases hd
        · rw [h0] at he; cases he
        · exact (hk k hkm).one d hd e he hde
        · rw [h4, h4'] at hde
          exact absurd hde (Separate.ne h0 h2 h2')

mutual
theorem nameTree_unique {E : Env} : ∀ (n : Node), NameTree n → Unique (n.abs E)
  | .mk h kids, hn => by
    refine unique_clear (nameTrees_unique kids hn.2.2) ?_ ?_
    · intro a ha b hb
      rw [absList_eq_map] at ha hb
      obtain ⟨a, ha', rfl⟩ := List.mem_map.mp ha
      obtain ⟨b, hb', rfl⟩ := List.mem_map.mp hb
      rw [abs_name, abs_name]
      rcases hn.1 a ha' b hb' with h | h | h | h
      · exact .inl (plain_decls h)
      · exact .inr (.inl (plain_decls h))
      · exact .inr (.inr (.inl (by rw [h])))
      · exact .inr (.inr (.inr h))
    · intro k hk
      rw [absList_eq_map] at hk
      obtain ⟨m, hm, rfl⟩ := List.mem_map.mp hk
      rw [abs_name]
      rcases hn.2.1 m hm with h | h
      · exact .inl (plain_decls h)
      · exact .inr h
theorem nameTrees_unique {E : Env} : ∀ (l : List Node), NameTrees l → ∀ k ∈ absList E l, Unique k
  | [], _ => by simp [absList]
  | n :: r, hn => by
    intro k hk
    simp only [absList, List.mem_cons] at hk
    rcases hk with rfl | hk
    · exact nameTree_unique n hn.1
    · exact nameTrees_unique r hn.2 k hk
end

/-! ### Renaming -/

mutual
/-- No node with declarations is shared by several slots. -/
def Single : Node → Prop
  | .mk h kids => h.slots.length = kids.length ∧ (∀ sk ∈ h.slots.zip kids, sk.1.mult = 1 ∨ PlainNode sk.2) ∧ Singles kids
def Singles : List Node → Prop
  | [] => True
  | n :: r => Single n ∧ Singles r
end

theorem singles_iff : ∀ {l : List Node}, Singles l ↔ ∀ k ∈ l, Single k
  | [] => by simp [Singles]
  | n :: r => by simp [Singles, singles_iff (l := r)]

theorem renameList_zip {new : Str} {len c : Nat} : ∀ {slots : List Slot} {kids : List Node}, slots.length = kids.length →
    renameList new len c slots kids = (slots.zip kids).map (fun sk => sk.2.renameAux new len (c * sk.1.mult))
  | [], [], _ => rfl
  | [], _ :: _, h => by simp at h
  | _ :: _, [], h => by simp at h
  | s :: ss, k :: r, h => by
    simp only [renameList, List.zip_cons_cons, List.map_cons]
    rw [renameList_zip (by simpa using h)]

theorem PlainNode.rename {new : Str} {len c : Nat} {n : Node} (h : PlainNode n) : PlainNode (n.renameAux new len c) := by
  cases n with
  | mk hd kids =>
    obtain ⟨h1, h2, h3⟩ := h
    have h3 : kids = [] := h3
    subst h3
    refine ⟨h1, h2, ?_⟩
    simp only [Node.renameAux, Node.kids]
    cases hd.slots <;> rfl

theorem name_renameAux {new : Str} {len c : Nat} {n : Node} : (n.renameAux new len c).name = renameTimes new len c n.name := by
  cases n; rfl

mutual
theorem nameTree_rename {new : Str} {len : Nat} : ∀ (n : Node), len ≤ n.name.length → NameTree n → Single n →
    NameTree (n.renameAux new len 1) ∧ Single (n.renameAux new len 1)
  | .mk h kids, hl, hn, hs => by
    have hl : len ≤ h.name.length := hl
    obtain ⟨s1, s2, s3⟩ := hs
    obtain ⟨n1, n2, n3⟩ := hn
    have ih := nameTrees_rename (new := new) (len := len) kids n3 s3
    have hz := renameList_zip (new := new) (len := len) (c := 1) s1
    have hmem : ∀ k' ∈ renameList new len 1 h.slots kids, ∃ k ∈ kids, (PlainNode k' ∧ PlainNode k) ∨ k' = k.renameAux new len 1 := by
      intro k' hk'
      rw [hz] at hk'
      obtain ⟨sk, hsk, rfl⟩ := List.mem_map.mp hk'
      refine ⟨sk.2, (List.of_mem_zip hsk).2, ?_⟩
      rcases s2 sk hsk with h | h
      · exact .inr (by rw [h])
      · exact .inl ⟨h.rename, h⟩
    have hlen : ∀ k ∈ kids, PlainNode k ∨ len ≤ k.name.length := by
      intro k hk
      rcases n2 k hk with h | ⟨t, _, e⟩
      · exact .inl h
      · refine .inr ?_
        rw [e, List.length_append]; omega
    have hone : ∀ s : Str, renameTimes new len 1 s = new ++ s.drop len := fun _ => rfl
    have hname : ∀ k ∈ kids, ∀ t, k.name = h.name ++ t → (k.renameAux new len 1).name = (new ++ h.name.drop len) ++ t := by
      intro k hk t e
      rw [name_renameAux, hone, e, List.drop_append_of_le_length hl, List.append_assoc]
    have hall : ∀ k' ∈ renameList new len 1 h.slots kids, NameTree k' ∧ Single k' := by
      intro k' hk'
      obtain ⟨k, hk, ⟨h, _⟩ | rfl⟩ := hmem k' hk'
      · obtain ⟨_, _, h3⟩ := h
        have hS := (by
          rw [hz] at hk'
          obtain ⟨sk, hsk, rfl⟩ := List.mem_map.mp hk'
          have := singles_iff.mp s3 sk.2 (List.of_mem_zip hsk).2
          obtain ⟨sl, nd⟩ := sk
          cases nd with
          | mk hd ks =>
            dsimp only at h3 this ⊢
            have e : renameList new len (1 * sl.mult) hd.slots ks = [] := h3
            have e2 : ks = [] := by
              cases ks with
              | nil => rfl
              | cons a b => cases hd' : hd.slots <;> rw [hd'] at e <;> simp [renameList] at e
            subst e2
            simp only [Node.renameAux]
            rw [e]
            have := this.1
            exact ⟨this, by simp, trivial⟩ : Single k')
        refine ⟨?_, hS⟩
        cases k' with
        | mk hd ks =>
          have h3 : ks = [] := h3
          subst h3
          simp [NameTree, NameTrees]
      · rcases ih k hk with h | h
        · obtain ⟨_, _, h3⟩ := h
          cases k with
          | mk hd ks =>
            have h3 : ks = [] := h3
            subst h3
            have hs := singles_iff.mp s3 _ hk
            simp only [Node.renameAux]
            have e : renameList new len 1 hd.slots [] = [] := by cases hd.slots <;> rfl
            rw [e]
            exact ⟨by simp [NameTree, NameTrees], hs.1, by simp, trivial⟩
        · exact h (by
            rcases hlen k hk with h' | h'
            · exact .inl h'
            · exact .inr h')
    constructor
    · refine ⟨?_, ?_, nameTrees_iff.mpr (fun k hk => (hall k hk).1)⟩
      · intro a ha b hb
        obtain ⟨k, hk, ⟨h, _⟩ | rfl⟩ := hmem a ha
        · exact .inl h
        obtain ⟨k2, hk2, ⟨h, _⟩ | rfl⟩ := hmem b hb
        · exact .inr (.inl h)
        rcases n1 k hk k2 hk2 with h | h | h | h
        · exact .inl h.rename
        · exact .inr (.inl h.rename)
        · exact .inr (.inr (.inl (by rw [h])))
        · rcases n2 k hk with h' | ⟨t, _, e⟩
          · exact .inl h'.rename
          rcases n2 k2 hk2 with h' | ⟨t2, _, e2⟩
          · exact .inr (.inl h'.rename)
          refine .inr (.inr (.inr ?_))
          rw [hname k hk t e, hname k2 hk2 t2 e2, separate_append]
          rw [e, e2, separate_append] at h
          exact h
      · intro k' hk'
        obtain ⟨k, hk, ⟨h, _⟩ | rfl⟩ := hmem k' hk'
        · exact .inl h
        · rcases n2 k hk with h' | ⟨t, ht, e⟩
          · exact .inl h'.rename
          · exact .inr ⟨t, ht, hname k hk t e⟩
    · refine ⟨by simp only [hz, List.length_map, List.length_zip, s1, Nat.min_self], ?_, singles_iff.mpr (fun k hk => (hall k hk).2)⟩
      intro sk hsk
      rw [hz] at hsk
      obtain ⟨i, hi, e⟩ := List.mem_iff_getElem.mp hsk
      simp only [List.getElem_zip, List.getElem_map] at e
      subst e
      have hi' : i < (h.slots.zip kids).length := by
        simp only [List.length_zip, List.length_map] at hi ⊢; omega
      rcases s2 _ (List.getElem_mem hi') with h' | h'
      · exact .inl (by simpa using h')
      · exact .inr (by simpa using h'.rename)
theorem nameTrees_rename {new : Str} {len : Nat} : ∀ (l : List Node), NameTrees l → Singles l →
    ∀ k ∈ l, PlainNode k ∨ ((PlainNode k ∨ len ≤ k.name.length) → NameTree (k.renameAux new len 1) ∧ Single (k.renameAux new len 1))
  | [], _, _ => by simp
  | n :: r, hn, hs => by
    intro k hk
    rcases List.mem_cons.mp hk with e | hk
    · rw [e]
      by_cases hp : PlainNode n
      · exact .inl hp
      · refine .inr (fun h => ?_)
        rcases h with h | h
        · exact absurd h hp
        · exact nameTree_rename n h hn.1 hs.1
    · exact nameTrees_rename r hn.2 hs.2 k hk
end

end Verif
