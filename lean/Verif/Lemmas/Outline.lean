import Verif.Spec.Outline
import Verif.Lemmas.Formed
import Verif.Lemmas.Fuel
/-
Printed outlines of trees, and how they are read back.
-/
namespace Verif
open Verif.Spec

theorem flatten_blanks : ∀ d, (List.replicate d py!"    ").flatten = List.replicate (4 * d) ' '
  | 0 => rfl
  | d + 1 => by
    rw [List.replicate_succ, List.flatten_cons, flatten_blanks d, show 4 * (d + 1) = 4 * d + 1 + 1 + 1 + 1 by omega]
    rfl

mutual
/-- Trees without `None` keys, with one slot per child. -/
def Keyed : Node → Prop
  | .mk h kids => h.slots.length = kids.length ∧ (∀ s ∈ h.slots, s.key ≠ .none) ∧ KeyedList kids
def KeyedList : List Node → Prop
  | [] => True
  | k :: r => Keyed k ∧ KeyedList r
end

mutual
theorem keyed_of : ∀ {n : Node}, n.hdr.slots.length = n.kids.length → FormedList n.kids → NodeAll (fun h => ∀ s ∈ h.slots, s.key ≠ .none) n →
    Keyed n
  | .mk h kids, h1, h2, h3 => by
    simp only [NodeAll] at h3
    simp only [Keyed]
    exact ⟨h1, h3.1, keyedList_of h2 h3.2⟩
theorem keyedList_of : ∀ {l : List Node}, FormedList l → NodeAllList (fun h => ∀ s ∈ h.slots, s.key ≠ .none) l → KeyedList l
  | [], _, _ => by simp [KeyedList]
  | k :: r, h2, h3 => by
    simp only [FormedList] at h2
    simp only [NodeAllList] at h3
    simp only [KeyedList]
    refine ⟨?_, keyedList_of h2.2 h3.2⟩
    obtain ⟨h, kids⟩ := k
    have h4 := h2.1
    simp only [Formed] at h4
    exact keyed_of h4.2.1 h4.2.2 h3.1
end

mutual
/-- A tree without `None` keys is printed completely. -/
theorem print_keyed (b : Bool) : ∀ (d : Nat) (n : Node), Keyed n → n.printAllChildren b d = (treeOutline n).lines d
  | d, .mk h kids, hk => by
    simp only [Keyed] at hk
    simp only [Node.printAllChildren, treeOutline, Outline.lines, flatten_blanks]
    rw [printKids_keyed b (d + 1) h.slots kids hk.1 hk.2.1 hk.2.2]
theorem printKids_keyed (b : Bool) : ∀ (d : Nat) (slots : List Slot) (kids : List Node), slots.length = kids.length →
    (∀ s ∈ slots, s.key ≠ .none) → KeyedList kids → printKids b d slots kids = outlineLines d (treeOutlines kids)
  | _, [], [], _, _, _ => by simp [printKids, treeOutlines, outlineLines]
  | _, [], _ :: _, h, _, _ => by simp at h
  | _, _ :: _, [], h, _, _ => by simp at h
  | d, s :: slots, k :: kids, h, hs, hk => by
    simp only [KeyedList] at hk
    simp only [printKids, treeOutlines, outlineLines]
    rw [if_neg (hs s (by simp)), print_keyed b d k hk.1,
      printKids_keyed b d slots kids (by simpa using h) (fun t ht => hs t (by simp [ht])) hk.2]
end

mutual
/-- No label begins with a blank. -/
def Unindented : Outline → Prop
  | .item label below => (∃ c r, label = c :: r ∧ c ≠ ' ') ∧ UnindentedList below
def UnindentedList : List Outline → Prop
  | [] => True
  | o :: r => Unindented o ∧ UnindentedList r
end

theorem takeWhile_blanks {label : Str} (h : ∃ c r, label = c :: r ∧ c ≠ ' ') : ∀ n,
    (List.replicate n ' ' ++ label).takeWhile (· = ' ') = List.replicate n ' ' ∧
    (List.replicate n ' ' ++ label).dropWhile (· = ' ') = label
  | 0 => by
    obtain ⟨c, r, rfl, hc⟩ := h
    simp [hc]
  | n + 1 => by
    have := takeWhile_blanks h n
    simp only [List.replicate_succ, List.cons_append]
    simpa using this

theorem indent_line {label : Str} (h : ∃ c r, label = c :: r ∧ c ≠ ' ') (n : Nat) :
    blanksBefore (List.replicate n ' ' ++ label) = n := by
  unfold blanksBefore
  rw [(takeWhile_blanks h n).1]
  simp

mutual
theorem lines_indent : ∀ (d : Nat) (o : Outline), Unindented o → ∀ l ∈ o.lines d, 4 * d ≤ blanksBefore l
  | d, .item label below, ho => by
    simp only [Unindented] at ho
    simp only [Outline.lines]
    intro l hl
    rcases List.mem_cons.mp hl with rfl | hl
    · rw [indent_line ho.1]; omega
    · have := outlineLines_indent (d + 1) below ho.2 l hl
      omega
theorem outlineLines_indent : ∀ (d : Nat) (os : List Outline), UnindentedList os → ∀ l ∈ outlineLines d os, 4 * d ≤ blanksBefore l
  | _, [], _ => by simp [outlineLines]
  | d, o :: r, ho => by
    simp only [UnindentedList] at ho
    simp only [outlineLines]
    intro l hl
    rcases List.mem_append.mp hl with hl | hl
    · exact lines_indent d o ho.1 l hl
    · exact outlineLines_indent d r ho.2 l hl
end

theorem takeWhile_split {α} {p : α → Bool} {a b : List α} (ha : ∀ x ∈ a, p x = true) (hb : ∀ x r, b = x :: r → p x = false) :
    (a ++ b).takeWhile p = a ∧ (a ++ b).dropWhile p = b := by
  induction a with
  | nil =>
    cases b with
    | nil => exact ⟨rfl, rfl⟩
    | cons x r =>
      have := hb x r rfl
      simp [this]
  | cons x a ih =>
    have hx := ha x (by simp)
    have := ih (fun y hy => ha y (by simp [hy]))
    simp only [List.cons_append, List.takeWhile_cons, List.dropWhile_cons, hx, if_true]
    exact ⟨by rw [this.1], this.2⟩

/-- What is printed is read back. -/
theorem read_lines : ∀ (fuel d : Nat) (os : List Outline), UnindentedList os → (outlineLines d os).length ≤ fuel →
    readOutline fuel (outlineLines d os) = os
  | 0, _, [], _, _ => rfl
  | _ + 1, _, [], _, _ => rfl
  | 0, d, .item label below :: r, _, hf => by simp [outlineLines, Outline.lines] at hf
  | fuel + 1, d, .item label below :: r, ho, hf => by
    simp only [UnindentedList, Unindented] at ho
    simp only [outlineLines, Outline.lines, List.cons_append, List.length_cons, List.length_append] at hf ⊢
    simp only [readOutline]
    have e := takeWhile_split (p := fun l => decide (blanksBefore (List.replicate (4 * d) ' ' ++ label) < blanksBefore l))
      (a := outlineLines (d + 1) below) (b := outlineLines d r)
      (fun l hl => by
        have := outlineLines_indent (d + 1) below ho.1.2 l hl
        rw [indent_line ho.1.1, decide_eq_true_eq]; omega)
      (fun l rest hl => by
        cases r with
        | nil => simp [outlineLines] at hl
        | cons o r =>
          obtain ⟨lab, bel⟩ := o
          have h2 := ho.2
          simp only [UnindentedList, Unindented] at h2
          simp only [outlineLines, Outline.lines, List.cons_append, List.cons.injEq] at hl
          rw [← hl.1, indent_line ho.1.1, indent_line h2.1.1]
          simp)
    rw [e.1, e.2, (takeWhile_blanks ho.1.1 (4 * d)).2, read_lines fuel (d + 1) below ho.1.2 (by omega),
      read_lines fuel d r ho.2 (by omega)]

theorem repr_start (h : Hdr) : ∃ c r, h.repr = c :: r ∧ c ≠ ' ' := by
  obtain ⟨kind, name, root, ty, slots⟩ := h
  cases kind with
  | seq k => cases k <;> exact ⟨_, _, rfl, by decide⟩
  | _ => exact ⟨_, _, rfl, by decide⟩

mutual
theorem unindented_tree : ∀ n : Node, Unindented (treeOutline n)
  | .mk h kids => by
    simp only [treeOutline, Unindented]
    exact ⟨repr_start h, unindented_trees kids⟩
theorem unindented_trees : ∀ l : List Node, UnindentedList (treeOutlines l)
  | [] => by simp [treeOutlines, UnindentedList]
  | k :: r => by
    simp only [treeOutlines, UnindentedList]
    exact ⟨unindented_tree k, unindented_trees r⟩
end

mutual
/-- `recursive` has no influence. -/
theorem print_recursive (b : Bool) : ∀ (d : Nat) (n : Node), n.printAllChildren b d = n.printAllChildren true d
  | d, .mk h kids => by
    simp only [Node.printAllChildren]
    rw [printKids_recursive b (d + 1) h.slots kids]
theorem printKids_recursive (b : Bool) : ∀ (d : Nat) (slots : List Slot) (kids : List Node),
    printKids b d slots kids = printKids true d slots kids
  | _, [], _ => by simp [printKids]
  | _, _ :: _, [] => by simp [printKids]
  | d, s :: slots, k :: kids => by
    simp only [printKids]
    rw [print_recursive b d k, printKids_recursive b d slots kids]
end

/-- The keys of slots are keys of the data. -/
theorem keys_inv {E : Env} : Inv E NoNoneKeys (fun k v => k ≠ .none ∧ NoNoneKeys v) (fun _ => True)
    (fun h => ∀ s ∈ h.slots, s.key ≠ .none) (fun _ => True) where
  seqElem h he := everyList_iff.mp h.2 _ he
  mapEntry h hkv := ⟨fun e => h.1 (e ▸ (List.of_mem_zip hkv).1), everyList_iff.mp h.2 _ (List.of_mem_zip hkv).2⟩
  entry h := h.2
  dict h := by
    refine ⟨?_, ?_⟩
    · intro hn
      obtain ⟨kv, hkv, e⟩ := List.mem_map.mp hn
      exact (h kv hkv).1 e
    · rw [everyList_iff]
      intro v hv
      obtain ⟨kv, hkv, rfl⟩ := List.mem_map.mp hv
      exact (h kv hkv).2
  nameElem _ _ := trivial
  nameNum _ := trivial
  nameKey _ _ := trivial
  nameLabel _ _ := trivial
  nameTy _ _ := trivial
  rename hh _ := hh
  hdr := by
    intro name v root slots _ hv hsl s hs
    rcases hsl s hs with h | ⟨w, h, _⟩
    · rw [h]; simp
    · exact h
  merge hh _ _ := hh
  bad _ _ _ := trivial
  sig _ _ := trivial
  noTrees _ := trivial

theorem build_keyed {E : Env} (hE : E.Fair) {f : Nat} {root : Bool} {name : Str} {v : Val} {n : Node} (hv : NoNoneKeys v)
    (hf : v.depth < f) (h : build E f root name v = .ok n) : Keyed n := by
  have h1 := build_ens hE keys_inv f root name v trivial hv hf
  have h2 := build_formed hE f root name v
  rw [h] at h1 h2
  exact keyed_of h2.2.1 h2.2.2 h1.1.1

end Verif
