import Verif.Spec.Recursion
import Verif.Lemmas.Share
import Verif.Lemmas.Flat
import Verif.Lemmas.Fuel
/-
The recursion of the construction goes exactly as deep as the values are nested.
-/
namespace Verif
open Verif.Spec

/-! ### More recursion changes nothing but failures for lack of it -/

/-- Two results are the same, or the first is the failure for lack of recursion. -/
def Less {α} (a b : Except Err α) : Prop := a = .error .fuel ∨ a = b

theorem Less.rfl {α} {a : Except Err α} : Less a a := .inr (Eq.refl a)

theorem Less.bind {α β} {a b : Except Err α} {f g : α → Except Err β} (h : Less a b) (hf : ∀ x, Less (f x) (g x)) :
    Less (a >>= f) (b >>= g) := by
  rcases h with rfl | rfl
  · exact .inl (Eq.refl _)
  · cases a with
    | error e => exact .rfl
    | ok x => exact hf x

theorem foldE_below {α β} {f g : β → α → Except Err β} (h : ∀ b a, Less (f b a) (g b a)) :
    ∀ (l : List α) (b : β), Less (foldE f b l) (foldE g b l)
  | [], b => .rfl
  | a :: l, b => by
    simp only [foldE]
    rcases h b a with e | e
    · rw [e]; exact .inl (Eq.refl _)
    · rw [e]
      cases g b a with
      | error e => exact .rfl
      | ok b' => exact foldE_below h l b'

section
variable {E : Env} {f g : Str → Val → Except Err Node} (h : ∀ n v, Less (f n v) (g n v))
include h

theorem mergeDicts_below (l : List Node) : Less (mergeDicts f l) (mergeDicts g l) := by
  cases l with
  | nil => exact .rfl
  | cons d ds => exact (h _ _).bind fun n => .rfl

theorem setChildren_below (parent : Str) (es : List Val) : Less (setChildren E f parent es) (setChildren E g parent es) := by
  unfold setChildren
  refine (foldE_below ?_ _ _).bind ?_
  · intro b a
    exact (h _ _).bind fun _ => .rfl
  · intro x
    dsimp only
    split
    · exact (mergeDicts_below h _).bind fun _ => .rfl
    · exact .rfl

theorem tupleChildren_below (parent : Str) (es : List Val) : Less (tupleChildren E f parent es) (tupleChildren E g parent es) := by
  unfold tupleChildren
  refine (foldE_below ?_ _ _).bind ?_
  · intro b a
    exact (h _ _).bind fun _ => .rfl
  · intro x
    dsimp only
    split
    · exact (mergeDicts_below h _).bind fun _ => .rfl
    · exact .rfl

theorem mapKids_below (parent : Str) (suffix : Key → Str) : ∀ l, Less (mapKids f parent suffix l) (mapKids g parent suffix l)
  | [] => .rfl
  | (k, v) :: r => (h _ _).bind fun _ => (mapKids_below parent suffix r).bind fun _ => .rfl

theorem mapChildren_below (parent : Str) (l : List (Key × Val)) : Less (mapChildren E f parent l) (mapChildren E g parent l) :=
  (mapKids_below h _ _ _).bind fun _ => .rfl

theorem frameChildren_below (parent : Str) (l : List (Key × Val)) : Less (frameChildren E f parent l) (frameChildren E g parent l) :=
  (mapKids_below h _ _ _).bind fun _ => .rfl
end

theorem build_below (E : Env) : ∀ (f : Nat) (root : Bool) (name : Str) (v : Val), Less (build E f root name v) (build E (f + 1) root name v)
  | 0, _, _, _ => .inl (Eq.refl _)
  | f + 1, root, name, v => by
    have ih := build_below E f false
    have node : ∀ {hdr : List Slot → Hdr} {a b : Except Err (List Slot × List Node)}, Less a b →
        Less (match a with | .ok (slots, kids) => .ok (Node.mk (hdr slots) kids) | .error e => .error e)
          (match b with | .ok (slots, kids) => .ok (Node.mk (hdr slots) kids) | .error e => .error e) := by
      intro hdr a b h
      rcases h with rfl | rfl
      · exact .inl (Eq.refl _)
      · exact .rfl
    cases v with
    | seq k t es =>
      rw [build_seq, build_seq]
      split
      · apply node (hdr := fun slots => ⟨.seq k, name, root, t, slots⟩)
        split
        · exact tupleChildren_below ih _ _
        · exact setChildren_below ih _ _
      · exact .rfl
    | map k t ks vs =>
      cases k with
      | dict => exact node (hdr := fun slots => ⟨_, name, root, t, slots⟩) (mapChildren_below ih _ _)
      | proxy =>
        unfold build
        dsimp only
        split
        · exact node (hdr := fun slots => ⟨_, name, root, t, slots⟩) (mapChildren_below ih _ _)
        · exact .rfl
      | frame i =>
        unfold build
        dsimp only
        split
        · exact node (hdr := fun slots => ⟨_, name, root, t, slots⟩) (frameChildren_below ih _ _)
        · exact .rfl
    | _ => exact .rfl

/-- A result other than the lack of recursion is final. -/
theorem build_final {E : Env} {f g : Nat} (h : f ≤ g) {root : Bool} {name : Str} {v : Val} :
    Less (build E f root name v) (build E g root name v) := by
  induction h with
  | refl => exact .rfl
  | step _ ih =>
    rcases ih with e | e
    · exact .inl e
    · rcases build_below E _ root name v with e' | e'
      · exact .inl (e.trans e')
      · exact .inr (e.trans e')

/-! ### Success needs as much recursion as there are levels -/

theorem foldE_ok_all {α β} {f : β → α → Except Err β} : ∀ {l : List α} {b r : β}, foldE f b l = .ok r →
    ∀ a ∈ l, ∃ b b', f b a = .ok b'
  | [], _, _, _, a, ha => by cases ha
  | x :: l, b, r, h, a, ha => by
    simp only [foldE] at h
    cases hx : f b x with
    | error e => rw [hx] at h; cases h
    | ok b' =>
      rw [hx] at h
      rcases List.mem_cons.mp ha with rfl | ha
      · exact ⟨b, b', hx⟩
      · exact foldE_ok_all h a ha

theorem bind_ok {α β} {a : Except Err α} {f : α → Except Err β} {r : β} (h : (a >>= f) = .ok r) : ∃ x, a = .ok x ∧ f x = .ok r := by
  cases a with
  | error e => cases h
  | ok x => exact ⟨x, rfl, h⟩

theorem mapKids_ok_all {rec : Str → Val → Except Err Node} {parent : Str} {suffix : Key → Str} :
    ∀ {l : List (Key × Val)} {r}, mapKids rec parent suffix l = .ok r → ∀ e ∈ l, ∃ name n, rec name e.2 = .ok n
  | [], _, _, e, he => by cases he
  | (k, v) :: l, r, h, e, he => by
    obtain ⟨n, hn, h⟩ := bind_ok h
    obtain ⟨rest, hr, _⟩ := bind_ok h
    rcases List.mem_cons.mp he with rfl | he
    · exact ⟨_, n, hn⟩
    · exact mapKids_ok_all hr e he

theorem commentFree_eq {α} (l : List (Key × α)) : commentFree l = (l.filter fun e => !e.1.hidden).map (·.2) := by
  unfold commentFree
  congr 2

theorem build_parts {E : Env} {f : Nat} {root : Bool} {name : Str} {v : Val} {n : Node} (h : build E (f + 1) root name v = .ok n) :
    ∀ w ∈ parts E.S v, ∃ name' n', build E f false name' w = .ok n' := by
  intro w hw
  have onmap : ∀ {l : List (Key × Val)} {r}, mapChildren E (build E f false) name l = .ok r → w ∈ commentFree l →
      ∃ name' n', build E f false name' w = .ok n' := by
    intro l r h hw
    obtain ⟨kids, hk, _⟩ := bind_ok h
    rw [commentFree_eq] at hw
    obtain ⟨e, he, rfl⟩ := List.mem_map.mp hw
    exact mapKids_ok_all hk e he
  cases v with
  | seq k t es =>
    rw [build_seq] at h
    split at h
    case isFalse => cases h
    split at h
    case h_2 => cases h
    rename_i slots kids hc
    split at hc
    · obtain ⟨x, hx, _⟩ := bind_ok hc
      obtain ⟨b, b', hb⟩ := foldE_ok_all hx w hw
      obtain ⟨y, hy, _⟩ := bind_ok hb
      exact ⟨_, _, hy⟩
    · obtain ⟨x, hx, _⟩ := bind_ok hc
      obtain ⟨b, b', hb⟩ := foldE_ok_all hx w hw
      obtain ⟨y, hy, _⟩ := bind_ok hb
      exact ⟨_, _, hy⟩
  | map k t ks vs =>
    cases k with
    | dict =>
      unfold build at h
      dsimp only at h
      split at h
      case h_2 => cases h
      rename_i hc
      exact onmap hc hw
    | proxy =>
      unfold build at h
      dsimp only at h
      split at h
      case isFalse => cases h
      split at h
      case h_2 => cases h
      rename_i hc
      exact onmap hc hw
    | frame i =>
      unfold build at h
      dsimp only at h
      split at h
      case isFalse => cases h
      split at h
      case h_2 => cases h
      rename_i hc
      obtain ⟨kids, hk, _⟩ := bind_ok hc
      obtain ⟨e, he, rfl⟩ := List.mem_map.mp hw
      exact mapKids_ok_all hk e he
  | _ => cases hw

theorem build_nested {E : Env} : ∀ {f : Nat} {root : Bool} {name : Str} {v : Val} {n : Node}, build E f root name v = .ok n → ¬ Nested E.S f v
  | 0, _, _, _, _, h, _ => by cases h
  | f + 1, root, name, v, n, h, hn => by
    obtain ⟨w, hw, hn⟩ := hn
    obtain ⟨name', n', h'⟩ := build_parts h w hw
    exact build_nested h' hn

/-! ### Lack of recursion means that there are as many levels -/

theorem bind_fuel {α β} {a : Except Err α} {f : α → Except Err β} (h : (a >>= f) = .error .fuel) :
    a = .error .fuel ∨ ∃ x, a = .ok x ∧ f x = .error .fuel := by
  cases a with
  | error e => injection h with h; subst h; exact .inl rfl
  | ok x => exact .inr ⟨x, rfl, h⟩

theorem foldE_fuel {α β} {f : β → α → Except Err β} : ∀ {l : List α} {b : β}, foldE f b l = .error .fuel →
    ∃ a ∈ l, ∃ b, f b a = .error .fuel
  | [], _, h => by cases h
  | x :: l, b, h => by
    simp only [foldE] at h
    cases hx : f b x with
    | error e =>
      rw [hx] at h
      injection h with h
      subst h
      exact ⟨x, by simp, b, hx⟩
    | ok b' =>
      rw [hx] at h
      obtain ⟨a, ha, r⟩ := foldE_fuel h
      exact ⟨a, by simp [ha], r⟩

theorem mapKids_fuel {rec : Str → Val → Except Err Node} {parent : Str} {suffix : Key → Str} :
    ∀ {l : List (Key × Val)}, mapKids rec parent suffix l = .error .fuel → ∃ e ∈ l, ∃ name, rec name e.2 = .error .fuel
  | [], h => by cases h
  | (k, v) :: l, h => by
    rcases bind_fuel h with h | ⟨n, _, h⟩
    · exact ⟨(k, v), by simp, _, h⟩
    · rcases bind_fuel h with h | ⟨_, _, h⟩
      · obtain ⟨e, he, r⟩ := mapKids_fuel h
        exact ⟨e, by simp [he], r⟩
      · cases h

/-- The entries of a dictionary. -/
def dictItems : Val → List (Key × Val)
  | .map .dict _ ks vs => ks.zip vs
  | _ => []

/-- The data that a dictionary node holds are among the given entries. -/
def From (P : Key × Val → Prop) (n : Node) : Prop := (∀ x ∈ nodeData n, P x) ∧ ∀ m, nodeMeta n = some m → ∀ x ∈ m.data, P x

theorem From.rename {P} {n : Node} (h : From P n) {new : Str} : From P (n.rename new) := by
  cases n with
  | mk hdr kids => exact h

theorem From.update {P} {k c : Node} (h : From P k) (h' : From P c) : From P (updateNode k c) := by
  obtain ⟨hk, kk⟩ := k
  obtain ⟨hc, kc⟩ := c
  unfold updateNode
  dsimp only
  split
  · rename_i d m d' m' e e'
    have hm : ∀ x ∈ m.data, P x := h.2 m (by simp only [nodeMeta, e])
    have hm' : ∀ x ∈ m'.data, P x := h'.2 m' (by simp only [nodeMeta, e'])
    have hu : ∀ x ∈ (m.update m').data, P x := by
      intro x hx
      simp only [DMeta.update] at hx
      rcases List.mem_append.mp hx with hx | hx
      · exact hm x hx
      · exact hm' x (List.mem_filter.mp hx).1
    refine ⟨by simpa only [nodeData] using hu, ?_⟩
    intro m2 h2
    simp only [nodeMeta] at h2
    injection h2 with h2
    subst h2
    exact hu
  · exact h

theorem build_from {E : Env} {f : Nat} {root : Bool} {name : Str} {v : Val} {n : Node} (h : build E f root name v = .ok n)
    {P : Key × Val → Prop} (hP : ∀ x ∈ dictItems v, P x) : From P n := by
  cases f with
  | zero => cases h
  | succ f =>
    have other : (∀ d m, n.hdr.kind ≠ .dict d m) → From P n := by
      intro hk
      obtain ⟨hdr, kids⟩ := n
      constructor
      · intro x hx
        unfold nodeData at hx
        dsimp only at hx
        split at hx
        · rename_i e; exact absurd e (hk _ _)
        · cases hx
      · intro m hm
        unfold nodeMeta at hm
        dsimp only at hm
        split at hm
        · rename_i e; exact absurd e (hk _ _)
        · cases hm
    cases v with
    | map k t ks vs =>
      cases k with
      | dict =>
        unfold build at h
        dsimp only at h
        split at h
        case h_2 => cases h
        injection h with h
        subst h
        have hd : ∀ x ∈ dictData E.S (ks.zip vs), P x := by
          intro x hx
          apply hP
          unfold dictData limit at hx
          split at hx
          · exact hx
          · split at hx
            · exact hx
            · exact List.mem_of_mem_take hx
        refine ⟨hd, ?_⟩
        intro m hm
        simp only [nodeMeta] at hm
        injection hm with hm
        subst hm
        exact hd
      | proxy =>
        unfold build at h
        dsimp only at h
        split at h
        case isFalse => cases h
        split at h
        case h_2 => cases h
        injection h with h
        subst h
        exact other (by intro d m e; cases e)
      | frame i =>
        unfold build at h
        dsimp only at h
        split at h
        case isFalse => cases h
        split at h
        case h_2 => cases h
        injection h with h
        subst h
        exact other (by intro d m e; cases e)
    | seq k t es =>
      rw [build_seq] at h
      split at h
      case isFalse => cases h
      split at h
      case h_2 => cases h
      injection h with h
      subst h
      exact other (by intro d m e; cases e)
    | func i =>
      unfold build at h
      dsimp only at h
      by_cases hn : nameOk E.U name = true
      · simp only [hn, if_true] at h
        split at h
        · cases h
        · injection h with h
          subst h
          exact other (by intro d m e; cases e)
      · simp only [hn] at h
        cases h
    | _ =>
      unfold build at h
      dsimp only at h
      split at h
      · injection h with h
        subst h
        exact other (by intro d m e; cases e)
      · cases h

theorem mergeDicts_fuel {P : Key × Val → Prop} {rec : Str → Val → Except Err Node} {l : List Node} (hl : ∀ n ∈ l, From P n)
    (h : mergeDicts rec l = .error .fuel) : l ≠ [] ∧ ∃ name data, (∀ x ∈ data, P x) ∧ rec name (.dict data) = .error .fuel := by
  cases l with
  | nil => cases h
  | cons d ds =>
    refine ⟨by simp, ?_⟩
    unfold mergeDicts at h
    rcases bind_fuel h with h | ⟨_, _, h⟩
    · refine ⟨_, _, ?_, h⟩
      intro x hx
      rcases mem_foldl_updateDict hx with hx | ⟨n, hn, hx⟩
      · cases hx
      · exact (hl n hn).1 x hx
    · split at h
      cases h

theorem setStep_from {E : Env} {f : Nat} {parent : Str} {P : Key × Val → Prop} : ∀ {es : List Val} {acc r : List Node × List Str},
    (∀ e ∈ es, ∀ x ∈ dictItems e, P x) → (∀ n ∈ acc.1, From P n) → foldE (setStep E (build E f false) parent) acc es = .ok r →
    ∀ n ∈ r.1, From P n
  | [], acc, r, _, ha, h => by
    simp only [foldE] at h
    injection h with h
    subst h
    exact ha
  | e :: es, acc, r, hp, ha, h => by
    simp only [foldE] at h
    cases hs : setStep E (build E f false) parent acc e with
    | error e => rw [hs] at h; cases h
    | ok b =>
      rw [hs] at h
      refine setStep_from (fun e he => hp e (by simp [he])) ?_ h
      obtain ⟨child, hc, hs⟩ := bind_ok hs
      have hf := build_from hc (hp e (by simp))
      split at hs
      · split at hs
        · injection hs with hs
          subst hs
          intro n hn
          obtain ⟨k, hk, rfl⟩ := List.mem_map.mp hn
          split
          · exact (ha k hk).update hf
          · exact ha k hk
        · injection hs with hs
          subst hs
          exact ha
      · injection hs with hs
        subst hs
        intro n hn
        rcases List.mem_append.mp hn with hn | hn
        · exact ha n hn
        · simp only [List.mem_singleton] at hn
          subst hn
          exact hf

theorem tupleStep_from {E : Env} {f : Nat} {parent : Str} {P : Key × Val → Prop} :
    ∀ {es : List Val} {acc r : List Node × List (Node × Str)},
    (∀ e ∈ es, ∀ x ∈ dictItems e, P x) → (∀ n ∈ acc.1, From P n) → foldE (tupleStep E (build E f false) parent) acc es = .ok r →
    ∀ n ∈ r.1, From P n
  | [], acc, r, _, ha, h => by
    simp only [foldE] at h
    injection h with h
    subst h
    exact ha
  | e :: es, acc, r, hp, ha, h => by
    simp only [foldE] at h
    cases hs : tupleStep E (build E f false) parent acc e with
    | error e => rw [hs] at h; cases h
    | ok b =>
      rw [hs] at h
      refine tupleStep_from (fun e he => hp e (by simp [he])) ?_ h
      obtain ⟨child, hc, hs⟩ := bind_ok hs
      have hf := build_from hc (hp e (by simp))
      split at hs
      · injection hs with hs
        subst hs
        intro n hn
        rcases List.mem_append.mp hn with hn | hn
        · exact ha n hn
        · simp only [List.mem_singleton] at hn
          subst hn
          exact hf.rename
      · injection hs with hs
        subst hs
        intro n hn
        rcases List.mem_append.mp hn with hn | hn
        · exact ha n hn
        · simp only [List.mem_singleton] at hn
          subst hn
          exact hf

theorem foldE_nil_of {α β} {f : β → α → Except Err β} {b r : β} {l : List α} (h : foldE f b l = .ok r) (hne : b ≠ r) : l ≠ [] := by
  intro e
  subst e
  simp only [foldE] at h
  injection h with h
  exact hne h

theorem typed_typedDict {S : Strategies} {n : Node} (h : isTypedDict S n = true) : S.dict = .typedDict := by
  obtain ⟨hdr, kids⟩ := n
  unfold isTypedDict at h
  dsimp only at h
  split at h
  · unfold DMeta.isTyped at h
    simp only [Bool.and_eq_true, decide_eq_true_eq] at h
    exact h.2
  · cases h

theorem zip_unzip {α β} (l : List (α × β)) : (l.map (·.1)).zip (l.map (·.2)) = l := by
  induction l with
  | nil => rfl
  | cons x l ih => simp [ih]

theorem fuel_nested {E : Env} (hE : E.Fair) : ∀ {f : Nat} {root : Bool} {name : Str} {v : Val}, build E f root name v = .error .fuel →
    Nested E.S f v
  | 0, _, _, _, _ => trivial
  | f + 1, root, name, v, h => by
    have ih : ∀ {name v}, build E f false name v = .error .fuel → Nested E.S f v := fun h => fuel_nested hE h
    have onmap : ∀ {l : List (Key × Val)}, mapChildren E (build E f false) name l = .error .fuel →
        ∃ w ∈ commentFree l, Nested E.S f w := by
      intro l h
      rcases bind_fuel h with h | ⟨_, _, h⟩
      · obtain ⟨e, he, nm, hr⟩ := mapKids_fuel h
        refine ⟨e.2, ?_, ih hr⟩
        rw [commentFree_eq]
        exact List.mem_map_of_mem he
      · cases h
    -- dictionaries that are merged have no more levels than those they come from
    have onmerge : ∀ {es : List Val} {l : List Node}, E.S.dict = .typedDict → es ≠ [] →
        (∀ n ∈ l, From (fun x => ∃ e ∈ es, x ∈ dictItems e) n) → mergeDicts (build E f false) l = .error .fuel →
        ∃ w ∈ es, Nested E.S f w := by
      intro es l hd hne hl h
      obtain ⟨_, nm, data, hdata, hr⟩ := mergeDicts_fuel hl h
      cases f with
      | zero =>
        cases es with
        | nil => exact absurd rfl hne
        | cons e es => exact ⟨e, by simp, trivial⟩
      | succ f =>
        obtain ⟨w, hw, hn⟩ := ih hr
        unfold Val.dict at hw
        simp only [parts, lookedAt, hd, if_true, zip_unzip, commentFree_eq] at hw
        obtain ⟨x, hx, rfl⟩ := List.mem_map.mp hw
        obtain ⟨hx, hh⟩ := List.mem_filter.mp hx
        obtain ⟨e, he, hi⟩ := hdata x hx
        refine ⟨e, he, x.2, ?_, hn⟩
        unfold dictItems at hi
        split at hi
        · simp only [parts, lookedAt, hd, if_true, commentFree_eq]
          exact List.mem_map.mpr ⟨x, List.mem_filter.mpr ⟨hi, hh⟩, rfl⟩
        · cases hi
    cases v with
    | seq k t es =>
      rw [build_seq] at h
      split at h
      case isFalse => cases h
      split at h
      · cases h
      rename_i e hc
      injection h with h
      subst h
      show ∃ w ∈ limit E.S.checkMax es, Nested E.S f w
      split at hc
      · rcases bind_fuel hc with hc | ⟨r, hr, hc⟩
        · obtain ⟨a, ha, b, hb⟩ := foldE_fuel hc
          refine ⟨a, ha, ?_⟩
          rcases bind_fuel hb with hb | ⟨_, _, hb⟩
          · exact ih hb
          · split at hb <;> cases hb
        · dsimp only at hc
          split at hc
          · rcases bind_fuel hc with hc | ⟨_, _, hc⟩
            · have hF := tupleStep_from (P := fun x => ∃ e ∈ limit E.S.checkMax es, x ∈ dictItems e) (fun e he x hx => ⟨e, he, hx⟩) (by simp) hr
              have hne := (mergeDicts_fuel (P := fun _ => True) (fun _ _ => ⟨fun _ _ => trivial, fun _ _ _ _ => trivial⟩) hc).1
              obtain ⟨k, hk⟩ := List.exists_mem_of_ne_nil _ hne
              obtain ⟨hk, ht⟩ := List.mem_filter.mp hk
              exact onmerge (typed_typedDict ht) (foldE_nil_of hr (by intro e; rw [← e] at hk; cases hk))
                (fun n hn => hF n (List.mem_filter.mp hn).1) hc
            · cases hc
          · cases hc
      · rcases bind_fuel hc with hc | ⟨r, hr, hc⟩
        · obtain ⟨a, ha, b, hb⟩ := foldE_fuel hc
          refine ⟨a, ha, ?_⟩
          rcases bind_fuel hb with hb | ⟨_, _, hb⟩
          · exact ih hb
          · split at hb
            · split at hb <;> cases hb
            · cases hb
        · dsimp only at hc
          split at hc
          · rcases bind_fuel hc with hc | ⟨_, _, hc⟩
            · have hF := setStep_from (P := fun x => ∃ e ∈ limit E.S.checkMax es, x ∈ dictItems e) (fun e he x hx => ⟨e, he, hx⟩) (by simp) hr
              have hne := (mergeDicts_fuel (P := fun _ => True) (fun _ _ => ⟨fun _ _ => trivial, fun _ _ _ _ => trivial⟩) hc).1
              obtain ⟨k, hk⟩ := List.exists_mem_of_ne_nil _ hne
              obtain ⟨hk, ht⟩ := List.mem_filter.mp hk
              have hk := (hE 1 _).mem_iff.mp hk
              exact onmerge (typed_typedDict ht) (foldE_nil_of hr (by intro e; rw [← e] at hk; cases hk))
                (fun n hn => hF n ((hE 1 _).mem_iff.mp (List.mem_filter.mp hn).1)) hc
            · cases hc
          · cases hc
    | map k t ks vs =>
      cases k with
      | dict =>
        unfold build at h
        dsimp only at h
        split at h
        · cases h
        rename_i e hc
        injection h with h
        subst h
        exact onmap hc
      | proxy =>
        unfold build at h
        dsimp only at h
        split at h
        case isFalse => cases h
        split at h
        · cases h
        rename_i e hc
        injection h with h
        subst h
        exact onmap hc
      | frame i =>
        unfold build at h
        dsimp only at h
        split at h
        case isFalse => cases h
        split at h
        · cases h
        rename_i e hc
        injection h with h
        subst h
        rcases bind_fuel hc with hc | ⟨_, _, hc⟩
        · obtain ⟨e, he, nm, hr⟩ := mapKids_fuel hc
          exact ⟨e.2, List.mem_map_of_mem he, ih hr⟩
        · cases hc
    | func i =>
      unfold build at h
      dsimp only at h
      by_cases hn : nameOk E.U name = true
      · simp only [hn, if_true] at h
        split at h <;> cases h
      · simp only [hn] at h
        cases h
    | _ =>
      unfold build at h
      dsimp only at h
      split at h <;> cases h

/-! ### Memory -/

theorem nested_le {S : Strategies} : ∀ {n : Nat} {v : Val}, Nested S (n + 1) v → Nested S n v
  | 0, _, _ => trivial
  | _ + 1, _, ⟨w, hw, h⟩ => ⟨w, hw, nested_le h⟩

theorem nested_mono {S : Strategies} {a b : Nat} (h : a ≤ b) {v : Val} (hn : Nested S b v) : Nested S a v := by
  induction h with
  | refl => exact hn
  | step _ ih => exact ih (nested_le hn)

theorem mem_few {α} {n : Nat} {l : List α} {x : α} (h : x ∈ few n l) : x ∈ l := by
  unfold few at h
  split at h
  · exact h
  · exact List.mem_of_mem_take h

theorem mem_lookedAt {α} {S : Strategies} {k : MapKind} {l : List (Key × α)} {x : α} (h : x ∈ lookedAt S k l) : ∃ e ∈ l, e.2 = x := by
  have comm : ∀ {l : List (Key × α)}, x ∈ commentFree l → ∃ e ∈ l, e.2 = x := by
    intro l h
    rw [commentFree_eq] at h
    obtain ⟨e, he, rfl⟩ := List.mem_map.mp h
    exact ⟨e, (List.mem_filter.mp he).1, rfl⟩
  cases k with
  | dict =>
    obtain ⟨e, he, rfl⟩ := comm h
    split at he
    · exact ⟨e, he, rfl⟩
    · exact ⟨e, mem_few he, rfl⟩
  | proxy =>
    obtain ⟨e, he, rfl⟩ := comm h
    exact ⟨e, mem_few he, rfl⟩
  | frame i =>
    obtain ⟨e, he, rfl⟩ := List.mem_map.mp h
    exact ⟨e, he, rfl⟩

theorem parts_depth {S : Strategies} {v w : Val} (h : w ∈ parts S v) : w.depth < v.depth := by
  cases v with
  | seq k t es =>
    have := depth_le_depthList (mem_few h)
    simp only [Val.depth]
    omega
  | map k t ks vs =>
    obtain ⟨e, he, rfl⟩ := mem_lookedAt h
    have := depth_le_depthList (List.of_mem_zip he).2
    simp only [Val.depth]
    omega
  | _ => cases h

theorem nested_depth {S : Strategies} : ∀ {n : Nat} {v : Val}, Nested S n v → n ≤ v.depth
  | 0, _, _ => Nat.zero_le _
  | n + 1, v, ⟨w, hw, h⟩ => by
    have := nested_depth h
    have := parts_depth hw
    omega

theorem few_map {α β} (f : α → β) (n : Nat) (l : List α) : few n (l.map f) = (few n l).map f := by
  unfold few
  split
  · rfl
  · exact List.map_take.symm

theorem commentFree_map {α β} (f : α → β) (l : List (Key × α)) : commentFree (l.map fun e => (e.1, f e.2)) = (commentFree l).map f := by
  rw [commentFree_eq, commentFree_eq]
  induction l with
  | nil => rfl
  | cons e l ih =>
    simp only [List.map_cons, List.filter_cons]
    split <;> simp [ih]

theorem lookedAt_map {α β} (S : Strategies) (k : MapKind) (f : α → β) (ks : List Key) (l : List α) :
    lookedAt S k (ks.zip (l.map f)) = (lookedAt S k (ks.zip l)).map f := by
  rw [List.zip_map_right]
  have e : (Prod.map id f : Key × α → Key × β) = fun e => (e.1, f e.2) := by
    funext e; rfl
  rw [e]
  cases k with
  | dict =>
    simp only [lookedAt]
    split
    · exact commentFree_map f _
    · rw [few_map]; exact commentFree_map f _
  | proxy =>
    simp only [lookedAt]
    rw [few_map]; exact commentFree_map f _
  | frame i => simp [lookedAt]

/-- What is inside of what one sees is what one sees of what is inside. -/
theorem parts_seen (S : Strategies) (m : Memory) (n r : Nat) :
    parts S (seenFrom m (n + 1) r) = match m r with
      | .val v => parts S v
      | o => (links S o).map (seenFrom m n) := by
  rw [seenFrom]
  split
  · rename_i v e; rw [e]
  · rename_i e; rw [e]; exact few_map ..
  · rename_i e; rw [e]; exact lookedAt_map ..

theorem endless_nested {S : Strategies} {m : Memory} {path : Nat → Nat} (h : ∀ i, path (i + 1) ∈ links S (m (path i))) :
    ∀ (n k i : Nat), n ≤ k → Nested S n (seenFrom m k (path i))
  | 0, _, _, _ => trivial
  | n + 1, 0, _, h => by omega
  | n + 1, k + 1, i, hk => by
    refine ⟨seenFrom m k (path (i + 1)), ?_, endless_nested h n k (i + 1) (by omega)⟩
    rw [parts_seen]
    have := h i
    split
    · rename_i e
      rw [e] at this
      cases this
    · exact List.mem_map_of_mem this

theorem bound_all {α} {P : Nat → α → Prop} (hm : ∀ a b x, a ≤ b → P a x → P b x) : ∀ {l : List α}, (∀ x, x ∈ l → ∃ n, P n x) → ∃ n, ∀ x ∈ l, P n x
  | [], _ => ⟨0, by simp⟩
  | x :: l, h => by
    obtain ⟨a, ha⟩ := h x (by simp)
    have hl : ∀ y, y ∈ l → ∃ n, P n y := fun y hy => h y (by simp [hy])
    obtain ⟨b, hb⟩ := bound_all hm hl
    refine ⟨max a b, ?_⟩
    intro y hy
    rcases List.mem_cons.mp hy with rfl | hy
    · exact hm _ _ _ (Nat.le_max_left ..) ha
    · exact hm _ _ _ (Nat.le_max_right ..) (hb y hy)

/-- What is seen of the object has less than `n` levels, from however far one looks. -/
def Shallow (S : Strategies) (m : Memory) (n r : Nat) : Prop := ∀ k, ¬ Nested S n (seenFrom m k r)

theorem Shallow.mono {S : Strategies} {m : Memory} {a b r : Nat} (h : a ≤ b) (hs : Shallow S m a r) : Shallow S m b r :=
  fun k hn => hs k (nested_mono h hn)

theorem shallow_step {S : Strategies} {m : Memory} {r : Nat} (h : ∀ r' ∈ links S (m r), ∃ n, Shallow S m n r') : ∃ n, Shallow S m n r := by
  cases hr : m r with
  | val v =>
    refine ⟨v.depth + 1, ?_⟩
    intro k hn
    cases k with
    | zero =>
      obtain ⟨w, hw, _⟩ := hn
      cases hw
    | succ k =>
      have e : seenFrom m (k + 1) r = v := by rw [seenFrom, hr]
      rw [e] at hn
      have := nested_depth hn
      omega
  | _ =>
    obtain ⟨n, hn⟩ := bound_all (P := fun n r' => Shallow S m n r') (fun _ _ _ h hs => hs.mono h) h
    refine ⟨n + 1, ?_⟩
    intro k hk
    obtain ⟨w, hw, hk⟩ := hk
    cases k with
    | zero => cases hw
    | succ k =>
      rw [parts_seen, hr] at hw
      obtain ⟨r', hr', rfl⟩ := List.mem_map.mp hw
      exact hn r' (by rw [hr]; exact hr') k hk

theorem shallow_of_not_endless {S : Strategies} {m : Memory} {r : Nat} (h : ¬ Endless S m r) : ∃ n, Shallow S m n r := by
  apply Classical.byContradiction
  intro hr
  apply h
  have step : ∀ x : {r : Nat // ¬ ∃ n, Shallow S m n r}, ∃ y : {r : Nat // ¬ ∃ n, Shallow S m n r}, y.1 ∈ links S (m x.1) := by
    rintro ⟨x, hx⟩
    apply Classical.byContradiction
    intro hy
    apply hx
    apply shallow_step
    intro r' hr'
    apply Classical.byContradiction
    intro hn
    exact hy ⟨⟨r', hn⟩, hr'⟩
  let next := fun x => Classical.choose (step x)
  let path : Nat → {r : Nat // ¬ ∃ n, Shallow S m n r} := fun n => Nat.rec ⟨r, hr⟩ (fun _ x => next x) n
  exact ⟨fun n => (path n).1, rfl, fun i => Classical.choose_spec (step (path i))⟩

end Verif
