import Verif.Spec.Reader
import Verif.Lemmas.Types
import Verif.Lemmas.ListStr
import Verif.Lemmas.Abs
/-
The reader undoes printing.
-/
namespace Verif
open Verif.Spec

def Ident (n : Str) : Prop := n ≠ [] ∧ ∀ c ∈ n, identChar c = true

def reserved : List Str := [py!"Union", py!"Optional", py!"Tuple", py!"ReadOnly", py!"NotRequired", py!"Callable"]

mutual
/-- Expressions that the reader recovers. -/
def WFT : TExpr → Prop
  | .name n => Ident n ∧ n ≠ py!"..."
  | .quoted n => '"' ∉ n ∧ '\n' ∉ n
  | .object => True
  | .union ts => ts ≠ [] ∧ WFTs ts
  | .app con t => Ident con ∧ con ∉ reserved ∧ WFT t
  | .tuple ts => ts ≠ [] ∧ WFTs ts
  | .tupleOf t => WFT t
  | .mapping con k v => Ident con ∧ con ∉ reserved ∧ WFT k ∧ WFT v
  | .callable _ => True
def WFTs : List TExpr → Prop
  | [] => True
  | t :: r => WFT t ∧ WFTs r
end

theorem wfts_iff : ∀ {ts : List TExpr}, WFTs ts ↔ ∀ t ∈ ts, WFT t
  | [] => by simp [WFTs]
  | t :: r => by simp [WFTs, wfts_iff (ts := r)]

theorem takeWhile_append_stop {p : Char → Bool} : ∀ {a b : Str}, (∀ c ∈ a, p c = true) → (∀ c, b.head? = some c → p c = false) →
    (a ++ b).takeWhile p = a ∧ (a ++ b).dropWhile p = b
  | [], b, _, hb => by
    cases b with
    | nil => simp
    | cons c r => have := hb c rfl; simp [this]
  | c :: a, b, ha, hb => by
    have h1 := ha c (by simp)
    obtain ⟨i1, i2⟩ := takeWhile_append_stop (a := a) (b := b) (fun c hc => ha c (by simp [hc])) hb
    simp [h1, i1, i2]

/-- What may follow an expression. -/
def Stop (rest : Str) : Prop := ∀ c, rest.head? = some c → identChar c = false ∧ c ≠ '['

/-- The text `s` reads as `t`. -/
def Rd (s : Str) (t : TExpr) : Prop :=
  s ≠ [] ∧ ∀ fuel rest, s.length < fuel → Stop rest → readType fuel (s ++ rest) = some (t, rest)

/-- What the reader does after an identifier. -/
def afterName (fuel : Nat) (n rest : Str) : Option (TExpr × Str) :=
  match rest with
  | '[' :: r => if n = py!"Callable" then readCallable r else match readArgs fuel r with
      | some (args, rest) => (mkApp n args).map (fun t => (t, rest))
      | none => none
  | rest => some (.name n, rest)

theorem afterName_bracket (fuel : Nat) (n r : Str) : afterName fuel n ('[' :: r) =
    if n = py!"Callable" then readCallable r else match readArgs fuel r with
      | some (args, rest) => (mkApp n args).map (fun t => (t, rest))
      | none => none := rfl

theorem readType_ident {fuel : Nat} {n rest : Str} (hn : Ident n) (hs : ∀ c, rest.head? = some c → identChar c = false) :
    readType (fuel + 1) (n ++ rest) = afterName fuel n rest := by
  obtain ⟨c, r, rfl⟩ : ∃ c r, n = c :: r := by
    cases n with
    | nil => exact absurd rfl hn.1
    | cons c r => exact ⟨c, r, rfl⟩
  have hc := hn.2 c (by simp)
  obtain ⟨h1, h2⟩ := takeWhile_append_stop hn.2 hs
  have hq : c ≠ '"' := by rintro rfl; revert hc; decide
  rw [readType]
  · rw [h1, h2]
    unfold afterName
    rfl
  · simp
  · intro r' he
    simp only [List.cons_append] at he
    injection he with he _
    exact hq he

theorem rd_name {n : Str} (h : Ident n) : Rd n (.name n) := by
  refine ⟨h.1, ?_⟩
  intro fuel rest hf hs
  obtain ⟨f, rfl⟩ : ∃ f, fuel = f + 1 := ⟨fuel - 1, by omega⟩
  rw [readType_ident h (fun c hc => (hs c hc).1)]
  cases rest with
  | nil => rfl
  | cons c r =>
    have := (hs c rfl).2
    unfold afterName
    split
    · rename_i he; injection he with he _; exact absurd he this
    · rfl

theorem readArgs_spec {ss : List Str} {ts : List TExpr} (h : All₂ Rd ss ts) (hne : ss ≠ []) : ∀ fuel rest,
    (join py!", " ss).length + 1 < fuel → readArgs fuel (join py!", " ss ++ ']' :: rest) = some (ts, rest) := by
  induction h with
  | nil => exact absurd rfl hne
  | @cons s t ss ts hst hr ih =>
    intro fuel rest hf
    obtain ⟨f, rfl⟩ : ∃ f, fuel = f + 1 := ⟨fuel - 1, by omega⟩
    rw [readArgs]
    cases hr with
    | nil =>
      rw [join_singleton] at hf ⊢
      rw [hst.2 f _ (by omega) (by intro c hc; simp at hc; subst hc; decide)]
      rfl
    | @cons s' t' ss' ts' h' hr' =>
      rw [join_cons_cons] at hf ⊢
      simp only [List.append_assoc, List.length_append] at hf ⊢
      rw [hst.2 f _ (by omega) (by intro c hc; simp at hc; subst hc; decide)]
      have : (py!", ").length = 2 := rfl
      have hi := ih (by simp) f rest (by simp at hf ⊢; omega)
      simp only [List.cons_append, List.nil_append, hi]
      rfl

theorem rd_app {con : Str} {ss : List Str} {ts : List TExpr} {t : TExpr} (hc : Ident con) (hcall : con ≠ py!"Callable") (h : All₂ Rd ss ts) (hne : ss ≠ [])
    (hm : mkApp con ts = some t) : Rd (con ++ py!"[" ++ join py!", " ss ++ py!"]") t := by
  refine ⟨by simp, ?_⟩
  intro fuel rest hf _
  obtain ⟨f, rfl⟩ : ∃ f, fuel = f + 1 := ⟨fuel - 1, by omega⟩
  have e : con ++ py!"[" ++ join py!", " ss ++ py!"]" ++ rest = con ++ ('[' :: (join py!", " ss ++ ']' :: rest)) := by simp
  rw [e, readType_ident hc (by intro c hc; simp at hc; subst hc; decide)]
  rw [show afterName f con ('[' :: (join py!", " ss ++ ']' :: rest)) =
    match readArgs f (join py!", " ss ++ ']' :: rest) with
    | some (args, rest) => (mkApp con args).map (fun t => (t, rest))
    | none => none from by rw [afterName_bracket, if_neg hcall]]
  simp only [List.length_append, List.length_cons, List.length_nil] at hf
  rw [readArgs_spec h hne f rest (by omega)]
  simp [hm]

theorem rd_quoted {n : Str} (h : '"' ∉ n) : Rd (py!"\"" ++ n ++ py!"\"") (.quoted n) := by
  refine ⟨by simp, ?_⟩
  intro fuel rest hf _
  obtain ⟨f, rfl⟩ : ∃ f, fuel = f + 1 := ⟨fuel - 1, by omega⟩
  have e : py!"\"" ++ n ++ py!"\"" ++ rest = '"' :: (n ++ ('"' :: rest)) := by simp
  obtain ⟨h1, h2⟩ := takeWhile_append_stop (p := (· != '"')) (a := n) (b := '"' :: rest)
    (by intro c hc; simp only [bne_iff_ne]; rintro rfl; exact h hc) (by intro c hc; simp at hc; subst hc; rfl)
  rw [e, readType]
  simp only [h1, h2]

theorem mkApp_other {con : Str} (h : con ∉ reserved) (args : List TExpr) : mkApp con args = match args with
    | [t] => some (.app con t)
    | [k, v] => some (.mapping con k v)
    | _ => none := by
  simp only [reserved, List.mem_cons, List.not_mem_nil, or_false, not_or] at h
  unfold mkApp
  rw [if_neg h.1, if_neg h.2.1, if_neg h.2.2.1]
  rfl

theorem ident_of_check {n : Str} (h : (!n.isEmpty && n.all identChar) = true) : Ident n := by
  simp only [Bool.and_eq_true, List.all_eq_true] at h
  exact ⟨by rintro rfl; simp at h, h.2⟩

theorem mkApp_tuple {ts : List TExpr} (h : ∀ t ∈ ts, WFT t) : mkApp py!"Tuple" ts = some (.tuple ts) := by
  unfold mkApp
  rw [if_neg (by decide), if_neg (by decide), if_pos rfl]
  match ts, h with
  | [], _ => rfl
  | [_], _ => rfl
  | [t, .name n], h =>
    have := (h (.name n) (by simp)).2
    simp only [if_neg this]
  | [_, .quoted _], _ => rfl
  | [_, .object], _ => rfl
  | [_, .union _], _ => rfl
  | [_, .app _ _], _ => rfl
  | [_, .tuple _], _ => rfl
  | [_, .tupleOf _], _ => rfl
  | [_, .mapping _ _ _], _ => rfl
  | [_, .callable _], _ => rfl
  | _ :: .name _ :: _ :: _, _ => rfl
  | _ :: .quoted _ :: _ :: _, _ => rfl
  | _ :: .object :: _ :: _, _ => rfl
  | _ :: .union _ :: _ :: _, _ => rfl
  | _ :: .app _ _ :: _ :: _, _ => rfl
  | _ :: .tuple _ :: _ :: _, _ => rfl
  | _ :: .tupleOf _ :: _ :: _, _ => rfl
  | _ :: .mapping _ _ _ :: _ :: _, _ => rfl
  | _ :: .callable _ :: _ :: _, _ => rfl

theorem notCall {con : Str} (h : con ∉ reserved) : con ≠ py!"Callable" := by
  rintro rfl
  exact h (by decide)

theorem readParams_spec : ∀ (n fuel : Nat) (rest : Str), n < fuel →
    readParams fuel (join py!", " (List.replicate n py!"Any") ++ ']' :: rest) = some (n, rest)
  | 0, fuel + 1, rest, _ => rfl
  | 1, fuel + 1, rest, _ => rfl
  | n + 2, fuel + 1, rest, h => by
    have ih := readParams_spec (n + 1) fuel rest (by omega)
    rw [List.replicate_succ, show List.replicate (n + 1) py!"Any" = py!"Any" :: List.replicate n py!"Any" from rfl, join_cons_cons]
    rw [show List.replicate (n + 1) py!"Any" = py!"Any" :: List.replicate n py!"Any" from rfl] at ih
    generalize join py!", " (py!"Any" :: List.replicate n py!"Any") = u at ih
    show Option.map _ (readParams fuel (u ++ ']' :: rest)) = _
    rw [ih]
    rfl

theorem join_any_length : ∀ (n : Nat), n ≤ (join py!", " (List.replicate n py!"Any")).length
  | 0 => by simp
  | 1 => by simp [List.replicate]
  | n + 2 => by
    have ih := join_any_length (n + 1)
    rw [List.replicate_succ, show List.replicate (n + 1) py!"Any" = py!"Any" :: List.replicate n py!"Any" from rfl, join_cons_cons]
    rw [show List.replicate (n + 1) py!"Any" = py!"Any" :: List.replicate n py!"Any" from rfl] at ih
    simp only [List.length_append, List.length_cons, List.length_nil]
    omega

theorem readCallable_bracket (x : Str) : readCallable ('[' :: x) = match readParams (x.length + 1) x with
    | some (n, r) => (stripPrefix py!", Any]" r).map (fun rest => (.callable n, rest))
    | none => none := rfl

theorem rd_callable (n : Nat) : Rd (TExpr.callable n).print (.callable n) := by
  refine ⟨by simp [TExpr.print], ?_⟩
  intro fuel rest hf _
  obtain ⟨f, rfl⟩ : ∃ f, fuel = f + 1 := ⟨fuel - 1, by omega⟩
  have e : (TExpr.callable n).print ++ rest =
      py!"Callable" ++ ('[' :: '[' :: (join py!", " (List.replicate n py!"Any") ++ ']' :: (py!", Any]" ++ rest))) := by
    simp [TExpr.print]
  rw [e, readType_ident (ident_of_check (by decide)) (by intro c hc; simp at hc; subst hc; decide)]
  rw [afterName_bracket, if_pos rfl]
  rw [readCallable_bracket]
  rw [readParams_spec n _ _ (by have := join_any_length n; simp only [List.length_append, List.length_cons]; omega)]
  rfl

mutual
theorem rd_print : ∀ {t : TExpr}, WFT t → Rd t.print t
  | .name n, h => rd_name h.1
  | .quoted n, h => rd_quoted h.1
  | .object, _ => by
    have := rd_app (con := py!"Optional") (ident_of_check (by decide)) (by decide)
      (.cons (rd_name (n := py!"object") (ident_of_check (by decide))) .nil) (by simp) (t := .object) (by rfl)
    exact this
  | .union ts, h => by
    simp only [TExpr.print]
    have := rd_app (con := py!"Union") (ident_of_check (by decide)) (by decide) (rds_print h.2) (by
      rw [printList_eq_map]; simpa using h.1) (t := .union ts) (by unfold mkApp; rw [if_pos rfl])
    simpa using this
  | .app con t, h => by
    simp only [TExpr.print]
    have := rd_app h.1 (notCall h.2.1) (.cons (rd_print h.2.2) .nil) (by simp) (mkApp_other h.2.1 [t])
    simpa using this
  | .tuple ts, h => by
    simp only [TExpr.print]
    have := rd_app (con := py!"Tuple") (ident_of_check (by decide)) (by decide) (rds_print h.2) (by
      rw [printList_eq_map]; simpa using h.1) (mkApp_tuple (wfts_iff.mp h.2))
    simpa using this
  | .tupleOf t, h => by
    simp only [TExpr.print]
    have := rd_app (con := py!"Tuple") (ident_of_check (by decide)) (by decide)
      (.cons (rd_print (t := t) h) (.cons (rd_name (n := py!"...") (ident_of_check (by decide))) .nil)) (by simp)
      (t := .tupleOf t) (by unfold mkApp; rw [if_neg (by decide), if_neg (by decide), if_pos rfl]; rfl)
    simpa [join_cons_cons] using this
  | .mapping con k v, h => by
    simp only [TExpr.print]
    have := rd_app h.1 (notCall h.2.1) (.cons (rd_print h.2.2.1) (.cons (rd_print h.2.2.2) .nil)) (by simp) (mkApp_other h.2.1 [k, v])
    simpa [join_cons_cons] using this
  | .callable n, _ => rd_callable n
theorem rds_print : ∀ {ts : List TExpr}, WFTs ts → All₂ Rd (printList ts) ts
  | [], _ => .nil
  | _ :: _, h => .cons (rd_print h.1) (rds_print h.2)
end

theorem rd_all {s : Str} {t : TExpr} (h : Rd s t) : readTypeAll s = some t := by
  have := h.2 (2 * s.length + 2) [] (by omega) (by intro c hc; simp at hc)
  unfold readTypeAll
  rw [List.append_nil] at this
  rw [this]

theorem stripPrefix_append : ∀ (p s : Str), stripPrefix p (p ++ s) = some s
  | [], _ => by simp [stripPrefix]
  | c :: p, s => by simp [stripPrefix, stripPrefix_append p s]

/-! ### Expressions occupy one line -/

theorem nl_ident {n : Str} (h : Ident n) : '\n' ∉ n := by
  intro hm; have := h.2 _ hm; revert this; decide

theorem nl_anys : ∀ n, '\n' ∉ join py!", " (List.replicate n py!"Any")
  | 0 => by simp
  | 1 => by decide
  | n + 2 => by
    have ih := nl_anys (n + 1)
    rw [List.replicate_succ, show List.replicate (n + 1) py!"Any" = py!"Any" :: List.replicate n py!"Any" from rfl, join_cons_cons]
    simp only [List.mem_append, not_or]
    exact ⟨⟨by decide, by decide⟩, ih⟩

mutual
theorem nl_print : ∀ {t : TExpr}, WFT t → '\n' ∉ t.print
  | .name n, h => nl_ident h.1
  | .quoted n, h => by simp [TExpr.print, h.2]
  | .object, _ => by simp only [TExpr.print]; decide
  | .union ts, h => by
    have := nls_print h.2
    simp only [TExpr.print, List.mem_append, not_or]
    exact ⟨⟨by decide, this⟩, by decide⟩
  | .app con t, h => by
    simp only [TExpr.print, List.mem_append, not_or]
    exact ⟨⟨⟨nl_ident h.1, by decide⟩, nl_print h.2.2⟩, by decide⟩
  | .tuple ts, h => by
    have := nls_print h.2
    simp only [TExpr.print, List.mem_append, not_or]
    exact ⟨⟨by decide, this⟩, by decide⟩
  | .tupleOf t, h => by
    simp only [TExpr.print, List.mem_append, not_or]
    exact ⟨⟨by decide, nl_print (t := t) h⟩, by decide⟩
  | .mapping con k v, h => by
    simp only [TExpr.print, List.mem_append, not_or]
    exact ⟨⟨⟨⟨⟨nl_ident h.1, by decide⟩, nl_print h.2.2.1⟩, by decide⟩, nl_print h.2.2.2⟩, by decide⟩
  | .callable n, _ => by
    simp only [TExpr.print, List.mem_append, not_or]
    exact ⟨⟨by decide, nl_anys n⟩, by decide⟩
theorem nls_print : ∀ {ts : List TExpr}, WFTs ts → '\n' ∉ join py!", " (printList ts)
  | [], _ => by simp [printList]
  | [t], h => by simpa [printList] using nl_print h.1
  | t :: u :: r, h => by
    have ih := nls_print (ts := u :: r) h.2
    simp only [printList] at ih ⊢
    rw [join_cons_cons]
    simp only [List.mem_append, not_or]
    exact ⟨⟨nl_print h.1, by decide⟩, ih⟩
end

/-! ### Entries -/

/-- Keys that need no escaping in a string literal. -/
def PlainKey (s : Str) : Prop := '"' ∉ s ∧ '\\' ∉ s ∧ '\n' ∉ s ∧ '\r' ∉ s

/-- Keys that can be written in class syntax. -/
def ClassKey (s : Str) : Prop := ':' ∉ s ∧ '\n' ∉ s

theorem qualifiers_plain {t : TExpr} (h : WFT t) : qualifiers t = (false, true, t) := by
  cases t with
  | app con t =>
    have := h.2.1
    simp only [reserved, List.mem_cons, List.not_mem_nil, or_false, not_or] at this
    simp only [qualifiers]
    rw [if_neg this.2.2.2.1, if_neg this.2.2.2.2.1]
  | _ => rfl

theorem rd_qualified {con : Str} {s : Str} {t : TExpr} (hc : Ident con) (hr : con ∉ [py!"Union", py!"Optional", py!"Tuple", py!"Callable"])
    (h : Rd s t) : Rd (con ++ py!"[" ++ s ++ py!"]") (.app con t) := by
  have := rd_app hc (by rintro rfl; exact hr (by simp)) (.cons h .nil) (by simp) (t := .app con t) (by
    simp only [List.mem_cons, List.not_mem_nil, or_false, not_or] at hr
    unfold mkApp
    rw [if_neg hr.1, if_neg hr.2.1, if_neg hr.2.2.1])
  simpa using this

theorem entry_read (e : Entry) (hw : WFT e.type) (hd : e.doc = none) :
    (readTypeAll e.typeText).map (mkEntry e.key) = some e := by
  have h0 := rd_print hw
  have hq := qualifiers_plain hw
  obtain ⟨key, required, readOnly, type, doc⟩ := e
  dsimp only at hw hd h0 hq
  subst hd
  have hN : ∀ {s t}, Rd s t → Rd (py!"NotRequired[" ++ s ++ py!"]") (.app py!"NotRequired" t) := fun h =>
    rd_qualified (con := py!"NotRequired") (ident_of_check (by decide)) (by decide) h
  have hR : ∀ {s t}, Rd s t → Rd (py!"ReadOnly[" ++ s ++ py!"]") (.app py!"ReadOnly" t) := fun h =>
    rd_qualified (con := py!"ReadOnly") (ident_of_check (by decide)) (by decide) h
  unfold Entry.typeText
  dsimp only
  cases required <;> cases readOnly <;> simp only [Bool.false_eq_true, if_true, if_false]
  · rw [rd_all (hN h0)]
    simp [mkEntry, qualifiers]
  · rw [rd_all (hR (hN h0))]
    simp [mkEntry, qualifiers]
  · rw [rd_all h0]
    simp [mkEntry, hq]
  · rw [rd_all (hR h0)]
    simp only [Option.map_some, mkEntry, Option.some.injEq]
    have : qualifiers (.app py!"ReadOnly" type) = (true, true, type) := by
      simp only [qualifiers, if_true, Prod.mk.injEq, true_and]
      split
      · rename_i con' u
        have hc := hw.2.1
        simp only [reserved, List.mem_cons, List.not_mem_nil, or_false, not_or] at hc
        rw [if_neg hc.2.2.2.2.1]
      · rfl
    rw [this]

theorem typeText_nl {e : Entry} (hw : WFT e.type) : '\n' ∉ e.typeText := by
  have := nl_print hw
  unfold Entry.typeText
  cases e.required <;> cases e.readOnly <;> simp [this]

theorem classLine_read {e : Entry} (hw : WFT e.type) (hd : e.doc = none) (hk : ClassKey e.key) :
    readClassLine e.raw.classText = some e := by
  have he := entry_read e hw hd
  have e1 : e.raw.classText = py!"    " ++ (e.key ++ (':' :: ' ' :: e.typeText)) := by
    simp [RawEntry.classText, Entry.raw, hd]
  obtain ⟨h1, h2⟩ := takeWhile_append_stop (p := (· != ':')) (a := e.key) (b := ':' :: ' ' :: e.typeText)
    (by intro c hc; simp only [bne_iff_ne]; rintro rfl; exact hk.1 hc) (by intro c hc; simp at hc; subst hc; rfl)
  rw [e1, readClassLine, stripPrefix_append]
  simp only [h1, h2]
  have : stripPrefix py!": " (':' :: ' ' :: e.typeText) = some e.typeText := stripPrefix_append py!": " e.typeText
  rw [this]
  exact he

theorem readString_plain : ∀ {s : Str} (rest : Str), PlainKey s → readString (s ++ '"' :: rest) = some (s, rest)
  | [], rest, _ => by simp [readString]
  | c :: s, rest, h => by
    obtain ⟨h1, h2, h3, h4⟩ := h
    simp only [List.mem_cons, not_or] at h1 h2 h3 h4
    have ih := readString_plain (s := s) rest ⟨h1.2, h2.2, h3.2, h4.2⟩
    rw [List.cons_append, readString.eq_4]
    · rw [if_neg (by
        rintro (rfl | rfl)
        · exact h3.1 rfl
        · exact h4.1 rfl), ih]
      rfl
    · rintro rfl; exact h1.1 rfl
    · rintro c' r rfl; exact fun _ => h2.1 rfl

theorem dictLine_read {e : Entry} (hw : WFT e.type) (hd : e.doc = none) (hk : PlainKey e.key) :
    readDictLine e.raw.functionalText = some e := by
  have he := entry_read e hw hd
  have e1 : e.raw.functionalText = py!"        \"" ++ (e.key ++ ('"' :: (py!": " ++ (e.typeText ++ py!",")))) := by
    simp [RawEntry.functionalText, Entry.raw]
  rw [e1, readDictLine, stripPrefix_append]
  simp only [readString_plain _ hk, stripPrefix_append]
  simp only [List.getLast?_append, List.getLast?_singleton, Option.some_or, if_true]
  rw [List.dropLast_append_of_ne_nil (by simp)]
  simpa using he

/-! ### Declarations -/

def WFEntry (functional : Bool) (e : Entry) : Prop :=
  WFT e.type ∧ e.doc = none ∧ (if functional then PlainKey e.key else ClassKey e.key)

/-- What stands before the label of a column. -/
def overloadHead : Str := py!"    @overload  # type: ignore\n    def __getitem__(self, key: Literal["

/-- Classes for data frames that the reader recovers. -/
def WFFrame (ovs : List (Str × TExpr)) (rest : Str) : Prop :=
  ovs ≠ [] ∧ (∀ o ∈ ovs, ']' ∉ o.1 ∧ WFT o.2) ∧ stripPrefix overloadHead rest = none

/-- Declarations that the reader recovers. -/
def WFDecl (d : TDecl) : Prop :=
  Ident d.name ∧ d.name ≠ py!"class" ∧ match d.body with
  | .alias t => WFT t
  | .record f doc es => doc = none ∧ (f = true → es ≠ []) ∧ ∀ e ∈ es, WFEntry f e
  | .frame ovs rest => WFFrame ovs rest
  | _ => False

theorem readAll_map {α β γ} {f : β → Option γ} {g : α → β} {k : α → γ} : ∀ {l : List α}, (∀ a ∈ l, f (g a) = some (k a)) →
    readAll f (l.map g) = some (l.map k)
  | [], _ => rfl
  | a :: r, h => by
    simp only [List.map_cons, readAll]
    rw [h a (by simp), readAll_map (l := r) (fun a ha => h a (by simp [ha]))]

theorem class_space {name x : Str} (hn : Ident name) (hc : name ≠ py!"class")
    (hx : ∀ c, x.head? = some c → identChar c = false) : stripPrefix py!"class " (name ++ x) = none := by
  have key : ∀ (p n : Str), (∀ c ∈ p, identChar c = true) → (∀ c ∈ n, identChar c = true) → n ≠ p →
      stripPrefix (p ++ [' ']) (n ++ x) = none := by
    intro p
    induction p with
    | nil =>
      intro n _ h2 hne
      cases n with
      | nil => exact absurd rfl hne
      | cons c n =>
        simp only [List.nil_append, List.cons_append, stripPrefix]
        rw [if_neg (by rintro rfl; have := h2 ' ' (by simp); revert this; decide)]
    | cons d p ih =>
      intro n h1 h2 hne
      cases n with
      | nil =>
        cases x with
        | nil => rfl
        | cons c r =>
          simp only [List.nil_append, List.cons_append, stripPrefix]
          rw [if_neg (by
            rintro rfl
            have a := h1 d (by simp)
            rw [hx d rfl] at a; cases a)]
      | cons c n =>
        simp only [List.cons_append, stripPrefix]
        split
        · rename_i he
          exact ih n (fun c hc => h1 c (by simp [hc])) (fun c hc => h2 c (by simp [hc])) (by rintro rfl; exact hne (by rw [he]))
        · rfl
  exact key py!"class" name (by decide) hn.2 hc

/-- An overload with the empty line after it. -/
def overloadText (o : Str × TExpr) : Str := overloadHead ++ o.1 ++ py!"]) -> " ++ o.2.print ++ py!":\n        ...\n\n"

theorem overloads_read {rest : Str} (hr : stripPrefix overloadHead rest = none) : ∀ {ovs : List (Str × TExpr)},
    (∀ o ∈ ovs, ']' ∉ o.1 ∧ WFT o.2) → ∀ fuel, ovs.length < fuel → readOverloads fuel (ovs.flatMap overloadText ++ rest) = some (ovs, rest)
  | [], _, fuel, hf => by
    cases fuel with
    | zero => simp at hf
    | succ fuel =>
      unfold readOverloads
      rw [List.flatMap_nil, List.nil_append]
      unfold overloadHead at hr
      rw [hr]
  | o :: ovs, h, fuel, hf => by
    cases fuel with
    | zero => simp at hf
    | succ fuel =>
      obtain ⟨h1, h2⟩ := h o (by simp)
      have ih := overloads_read hr (ovs := ovs) (fun o ho => h o (by simp [ho])) fuel (by simp only [List.length_cons] at hf; omega)
      have e : (o :: ovs).flatMap overloadText ++ rest = overloadHead ++ (o.1 ++ (py!"]) -> " ++ (o.2.print ++ (py!":\n        ...\n\n" ++
          (ovs.flatMap overloadText ++ rest))))) := by
        simp [overloadText]
      obtain ⟨t1, t2⟩ := takeWhile_append_stop (p := (· != ']')) (a := o.1) (b := py!"]) -> " ++ (o.2.print ++ (py!":\n        ...\n\n" ++
        (ovs.flatMap overloadText ++ rest)))) (fun c hc => by simp; rintro rfl; exact h1 hc) (fun c hc => by simp at hc; subst hc; rfl)
      unfold readOverloads
      rw [e, show py!"    @overload  # type: ignore\n    def __getitem__(self, key: Literal[" = overloadHead from rfl, stripPrefix_append]
      dsimp only
      rw [t1, t2, stripPrefix_append]
      dsimp only
      rw [(rd_print h2).2 _ _ (by simp only [List.length_append]; omega) (fun c hc => by simp at hc; subst hc; decide)]
      dsimp only
      rw [stripPrefix_append]
      dsimp only
      rw [ih]
      rfl

theorem decl_read {d : TDecl} (h : WFDecl d) : readDecl d.print = some d := by
  obtain ⟨name, body⟩ := d
  obtain ⟨hn, hcl, hb⟩ := h
  dsimp only at hn hcl hb
  cases body with
  | alias t =>
    have e1 : TDecl.print ⟨name, .alias t⟩ = name ++ (py!": TypeAlias = " ++ t.print) := by simp [TDecl.print]
    have hst : ∀ c, (py!": TypeAlias = " ++ t.print).head? = some c → identChar c = false := by
      intro c hc; simp at hc; subst hc; decide
    obtain ⟨h1, h2⟩ := takeWhile_append_stop hn.2 hst
    rw [e1, readDecl, class_space hn hcl hst]
    dsimp only
    rw [h1, h2, stripPrefix_append]
    dsimp only
    rw [rd_all (rd_print hb)]
    rfl
  | record f doc es =>
    obtain ⟨rfl, hne, hes⟩ := hb
    cases f with
    | true =>
      have hne := hne rfl
      have e1 : TDecl.print ⟨name, .record true none es⟩ = name ++ (py!" = TypedDict(\n    \"" ++ name ++ py!"\",\n    {\n" ++
          join py!"\n" (es.map (fun e => e.raw.functionalText) ++ [py!"    },", py!")"])) := by
        simp only [TDecl.print, recordText, if_true, List.map_map, Function.comp_def]
        have : ∀ (l : List Str), l ≠ [] → join py!"\n" (l ++ [py!"    },", py!")"]) = join py!"\n" l ++ py!"\n    },\n)" := by
          intro l
          induction l with
          | nil => intro h; exact absurd rfl h
          | cons a l ih =>
            intro _
            cases l with
            | nil => simp [join_cons_cons]
            | cons b l =>
              have := ih (by simp)
              simp only [List.cons_append] at this ⊢
              rw [join_cons_cons, this, join_cons_cons]
              simp
        rw [this _ (by simpa using hne)]
        simp
      have hst : ∀ c, (py!" = TypedDict(\n    \"" ++ name ++ py!"\",\n    {\n" ++
          join py!"\n" (es.map (fun e => e.raw.functionalText) ++ [py!"    },", py!")"])).head? = some c → identChar c = false := by
        intro c hc; simp at hc; subst hc; decide
      obtain ⟨h1, h2⟩ := takeWhile_append_stop hn.2 hst
      have hal : stripPrefix py!": TypeAlias = " (py!" = TypedDict(\n    \"" ++ name ++ py!"\",\n    {\n" ++
          join py!"\n" (es.map (fun e => e.raw.functionalText) ++ [py!"    },", py!")"])) = none := by
        simp [stripPrefix]
      rw [e1, readDecl, class_space hn hcl hst]
      dsimp only
      rw [h1, h2, hal]
      dsimp only
      rw [stripPrefix_append]
      dsimp only
      have hsp : splitChar '\n' (join py!"\n" (es.map (fun e => e.raw.functionalText) ++ [py!"    },", py!")"])) =
          es.map (fun e => e.raw.functionalText) ++ [py!"    },", py!")"] := by
        apply splitChar_join (by simp)
        intro x hx
        rcases List.mem_append.mp hx with hx | hx
        · obtain ⟨e, he, rfl⟩ := List.mem_map.mp hx
          have hw := hes e he
          have hk := hw.2.2
          simp only [if_true] at hk
          simp only [RawEntry.functionalText, Entry.raw, List.mem_append, not_or]
          exact ⟨⟨⟨⟨by decide, hk.2.2.1⟩, by decide⟩, typeText_nl hw.1⟩, by decide⟩
        · revert hx; simp only [List.mem_cons, List.not_mem_nil, or_false]; rintro (rfl | rfl) <;> decide
      rw [hsp]
      have hl : (es.map (fun e => e.raw.functionalText) ++ [py!"    },", py!")"]).length - 2 = es.length := by simp
      have hl' : es.length = (es.map (fun e => e.raw.functionalText)).length := by simp
      rw [hl, hl', List.drop_left, if_pos rfl, List.take_left, readAll_map (k := id)]
      · simp
      · intro e he
        have hw := hes e he
        have hk := hw.2.2
        simp only [if_true] at hk
        exact dictLine_read hw.1 hw.2.1 hk
    | false =>
      by_cases hne : es = []
      · subst hne
        have hst : ∀ c, (py!"(TypedDict):\n    ...").head? = some c → identChar c = false := by
          intro c hc; simp at hc; subst hc; decide
        obtain ⟨h1, h2⟩ := takeWhile_append_stop hn.2 hst
        have e1 : TDecl.print ⟨name, .record false none []⟩ = py!"class " ++ (name ++ py!"(TypedDict):\n    ...") := by
          simp [TDecl.print, recordText]
        rw [e1, readDecl, stripPrefix_append]
        dsimp only
        rw [h1, h2]
        rfl
      have e1 : TDecl.print ⟨name, .record false none es⟩ = py!"class " ++ (name ++ (py!"(TypedDict):\n" ++
          join py!"\n" (es.map (fun e => e.raw.classText)))) := by
        cases es with
        | nil => exact absurd rfl hne
        | cons e r => simp [TDecl.print, recordText, Function.comp_def]
      have hst : ∀ c, (py!"(TypedDict):\n" ++ join py!"\n" (es.map (fun e => e.raw.classText))).head? = some c →
          identChar c = false := by
        intro c hc; simp at hc; subst hc; decide
      obtain ⟨h1, h2⟩ := takeWhile_append_stop hn.2 hst
      rw [e1, readDecl, stripPrefix_append]
      dsimp only
      rw [h1, h2, stripPrefix_append]
      dsimp only
      have hsp : splitChar '\n' (join py!"\n" (es.map (fun e => e.raw.classText))) = es.map (fun e => e.raw.classText) := by
        apply splitChar_join (by simpa using hne)
        intro x hx
        obtain ⟨e, he, rfl⟩ := List.mem_map.mp hx
        have hw := hes e he
        have hk := hw.2.2
        simp only [Bool.false_eq_true, if_false] at hk
        simp only [RawEntry.classText, Entry.raw, hw.2.1, List.append_nil, List.mem_append, not_or]
        exact ⟨⟨⟨by decide, hk.2⟩, by decide⟩, typeText_nl hw.1⟩
      rw [if_neg, hsp, readAll_map (k := id)]
      · simp
      · intro e he
        have hw := hes e he
        have hk := hw.2.2
        simp only [Bool.false_eq_true, if_false] at hk
        exact classLine_read hw.1 hw.2.1 hk
      · intro hc
        have : ':' ∈ join py!"\n" (es.map (fun e => e.raw.classText)) := by
          cases es with
          | nil => exact absurd rfl hne
          | cons e r =>
            have hm : ':' ∈ e.raw.classText := by simp [RawEntry.classText]
            cases r with
            | nil => simpa using hm
            | cons e' r => simp only [List.map_cons]; rw [join_cons_cons]; simp [hm]
        rw [hc] at this
        revert this; decide
  | protocol sig => exact hb.elim
  | frame ovs rest =>
    obtain ⟨hne, ho, hr⟩ := hb
    have e1 : TDecl.print ⟨name, .frame ovs rest⟩ = py!"class " ++ (name ++ (py!"(pd.DataFrame):\n\n" ++ (ovs.flatMap overloadText ++ rest))) := by
      have hj : ∀ (l : List (Str × TExpr)), l ≠ [] → join py!"\n" (l.map fun o => py!"    @overload  # type: ignore\n    def __getitem__(self, key: Literal[" ++
          o.1 ++ py!"]) -> " ++ o.2.print ++ py!":\n        ...\n") ++ py!"\n" = l.flatMap overloadText := by
        intro l
        induction l with
        | nil => intro h; exact absurd rfl h
        | cons a l ih =>
          intro _
          cases l with
          | nil => simp [overloadText, overloadHead]
          | cons b l =>
            have := ih (by simp)
            simp only [List.map_cons, join_cons_cons, List.flatMap_cons, List.append_assoc] at this ⊢
            rw [this]
            simp [overloadText, overloadHead]
      rw [← hj ovs hne]
      simp [TDecl.print]
    have hst : ∀ c, (py!"(pd.DataFrame):\n\n" ++ (ovs.flatMap overloadText ++ rest)).head? = some c → identChar c = false := by
      intro c hc; simp at hc; subst hc; decide
    obtain ⟨h1, h2⟩ := takeWhile_append_stop hn.2 hst
    rw [e1, readDecl, stripPrefix_append]
    dsimp only
    rw [h1, h2]
    have h3 : stripPrefix py!"(TypedDict):\n" (py!"(pd.DataFrame):\n\n" ++ (ovs.flatMap overloadText ++ rest)) = none := by
      simp [stripPrefix]
    rw [h3]
    dsimp only
    rw [stripPrefix_append]
    dsimp only
    rw [overloads_read hr ho _ ?_]
    · rfl
    · have : ∀ l : List (Str × TExpr), l.length ≤ (l.flatMap overloadText).length := by
        intro l
        induction l with
        | nil => simp
        | cons a l ih =>
          simp only [List.flatMap_cons, List.length_append, List.length_cons, overloadText, overloadHead]
          omega
      have := this ovs
      rw [List.length_append]
      omega

theorem text_read {Γ : List TDecl} (h : ∀ d ∈ Γ, WFDecl d) : readText (Γ.map TDecl.print) = some Γ := by
  unfold readText
  rw [readAll_map (g := TDecl.print) (k := id) (fun d hd => decl_read (h d hd))]
  simp

end Verif
