import Verif.Spec.Stub
import Verif.Lemmas.ListStr
import Verif.Lemmas.Quotes
import Verif.Lemmas.Words
/-
The stub under the edits of the live generator.
-/
namespace Verif
open Verif.Spec

theorem generateStub_isStub (U : Uni) : ∃ L, generateStub = .ok L ∧ IsStub U [] [] [] [] L := by
  refine ⟨headLines ++ [registryLine []] ++ initLines ++ ([] ++ [overrideLine, yamlMethod.main]) ++ [[]] ++
      ([] ++ [overrideLine, dataMethod.main]) ++ resetLines ++ [[]], by decide +kernel, by simp, by simp, [], [], [[]], .nil, .nil, .inr rfl, by simp⟩

/-! ### Class names -/

theorem className_not {U : Uni} {c : Str} (hc : ClassName U c) {x : Char} (ha : isAscii x = true := by decide)
    (hx : (x.isAlpha || x.isDigit) = false := by decide) (hu : x ≠ '_' := by decide) : x ∉ c := by
  intro h
  rcases hc.2 x h with h | h
  · simp only [Uni.isAlnum, U.alpha_ascii x ha, U.numeric_ascii x ha] at h
    rw [hx] at h; cases h
  · exact hu h

theorem className_noSpace {U : Uni} {c : Str} (hc : ClassName U c) {x : Char} (hx : isSpace x = true) : x ∉ c := by
  intro h
  rcases hc.2 x h with h | h
  · have := U.space_alnum x hx
    simp [Uni.isAlnum, this.1, this.2] at h
  · subst h; revert hx; decide

theorem isSpace_of_break {x : Char} (h : isLineBreak x = true) : isSpace x = true := by
  simp only [isLineBreak, isSpace, Bool.or_eq_true, Bool.and_eq_true, decide_eq_true_eq, beq_iff_eq] at h ⊢
  omega

/-! ### Texts of lines -/

/-- Lines with a line break after each. -/
def unlines (l : List Str) : Str := l.flatMap (· ++ ['\n'])

@[simp] theorem unlines_nil : unlines [] = [] := rfl
@[simp] theorem unlines_cons (x : Str) (l : List Str) : unlines (x :: l) = x ++ '\n' :: unlines l := by simp [unlines]
@[simp] theorem unlines_append (a b : List Str) : unlines (a ++ b) = unlines a ++ unlines b := by simp [unlines]

theorem join_snoc (x : Str) : ∀ (l : List Str), join py!"\n" (l ++ [x]) = unlines l ++ x
  | [] => rfl
  | [y] => by simp [join]
  | y :: z :: r => by
    have := join_snoc x (z :: r)
    simp only [List.cons_append] at this ⊢
    rw [join_cons_cons, this]
    simp

theorem join_unlines {l : List Str} (h : l ≠ []) : join py!"\n" l ++ ['\n'] = unlines l := by
  have := List.dropLast_concat_getLast h
  rw [← this, join_snoc]
  simp

theorem join_eq_of_unlines {a b : List Str} (ha : a ≠ []) (hb : b ≠ []) (h : unlines a = unlines b) : join py!"\n" a = join py!"\n" b := by
  rw [← join_unlines ha, ← join_unlines hb] at h
  exact List.append_cancel_right h

/-! ### Searching -/

theorem isPrefixOf_sep {kw x y : Str} {q : Char} (hq : q ∉ kw) : kw.isPrefixOf (x ++ q :: y) = kw.isPrefixOf x := by
  induction kw generalizing x with
  | nil => simp [List.isPrefixOf]
  | cons k kw ih =>
    simp only [List.mem_cons, not_or] at hq
    cases x with
    | nil => simp [List.isPrefixOf, Ne.symm hq.1]
    | cons c x => simp [List.isPrefixOf, ih hq.2]

theorem contains_sep {kw x y : Str} {q : Char} (hq : q ∉ kw) : contains kw (x ++ q :: y) = (contains kw x || contains kw y) := by
  induction x with
  | nil =>
    cases kw with
    | nil => simp [contains, List.isPrefixOf]
    | cons k kw =>
      have : k ≠ q := fun e => hq (by simp [e])
      simp [contains, List.isPrefixOf, this]
  | cons c x ih =>
    simp only [List.cons_append, contains, ih]
    rw [← List.cons_append, isPrefixOf_sep hq, Bool.or_assoc]

theorem find_sep {kw x y : Str} {q : Char} (hq : q ∉ kw) (hne : kw ≠ []) (hx : contains kw x = false) :
    find kw (x ++ q :: y) = (find kw y).map (· + (x.length + 1)) := by
  induction x with
  | nil =>
    have : kw.isPrefixOf (q :: y) = false := by
      cases kw with
      | nil => exact absurd rfl hne
      | cons k kw =>
        have : k ≠ q := fun e => hq (by simp [e])
        simp [List.isPrefixOf, this]
    simp only [List.nil_append, find, this, Bool.false_eq_true, if_false, List.length_nil, Nat.zero_add]
  | cons c x ih =>
    simp only [contains, Bool.or_eq_false_iff] at hx
    have : kw.isPrefixOf (c :: (x ++ q :: y)) = false := by
      rw [← List.cons_append, isPrefixOf_sep hq]; exact hx.1
    simp only [List.cons_append, find, this, Bool.false_eq_true, if_false, ih hx.2, Option.map_map, List.length_cons]
    rfl

/-- A quote before the first possible occurrence of a keyword. -/
theorem textBefore_mem {kw a b : Str} {q : Char} (hq : q ∉ kw) (hne : kw ≠ []) (ha : contains kw a = false) : q ∈ textBefore kw (a ++ q :: b) := by
  unfold textBefore
  rw [find_sep hq hne ha]
  cases find kw b with
  | none => simp
  | some j =>
    simp only [Option.map_some]
    rw [List.take_append]
    rw [show j + (a.length + 1) - a.length = j + 1 by omega]
    simp

theorem rfindChar_none {c : Char} : ∀ {y : Str}, c ∉ y → rfindChar c y = none
  | [], _ => rfl
  | d :: y, hy => by
    simp only [List.mem_cons, not_or] at hy
    simp [rfindChar, rfindChar_none hy.2, Ne.symm hy.1]

theorem rfindChar_last {c : Char} {y : Str} (hy : c ∉ y) : ∀ (x : Str), rfindChar c (x ++ c :: y) = some x.length
  | [] => by simp [rfindChar, rfindChar_none hy]
  | d :: x => by simp [rfindChar, rfindChar_last hy x]

theorem rfind_none {p : Str} {c : Char} (hc : c ∈ p) : ∀ {y : Str}, c ∉ y → rfind p y = none
  | [], _ => by
    have : p.isEmpty = false := by cases p <;> simp_all
    simp [rfind, this]
  | d :: y, hy => by
    have hy' : c ∉ y := fun h => hy (by simp [h])
    have : p.isPrefixOf (d :: y) = false := by
      cases h : p.isPrefixOf (d :: y) with
      | false => rfl
      | true =>
        rw [List.isPrefixOf_iff_prefix] at h
        exact absurd (h.subset hc) hy
    simp [rfind, rfind_none hc hy', this]

theorem rfind_arrow {y : Str} (hy : '>' ∉ y) : ∀ (x : Str), rfind py!"->" (x ++ '-' :: '>' :: y) = some x.length
  | [] => by
    have h1 := rfind_none (p := py!"->") (c := '>') (by decide) hy
    have h2 : List.isPrefixOf py!"->" ('>' :: y) = false := rfl
    simp [rfind, h1, h2]
  | d :: x => by simp [rfind, rfind_arrow hy x]

/-! ### Elements of the stub -/

section
variable {U : Uni}

def Deco (d : Str) : Prop := d = overloadLine ∨ d = overrideLine
def IsMethod (m : Method) : Prop := m = yamlMethod ∨ m = dataMethod

/-- Types that occur for the argument and the result. -/
def GoodType (s : Str) : Prop := ',' ∉ s ∧ ')' ∉ s ∧ '>' ∉ s ∧ ':' ∉ s

theorem className_good {c : Str} (hc : ClassName U c) : GoodType c :=
  ⟨className_not hc, className_not hc, className_not hc, className_not hc⟩

theorem literal_good {c : Str} (hc : ClassName U c) : GoodType (py!"Literal[\"" ++ c ++ py!"\"]") := by
  have h := className_good hc
  simp only [GoodType, List.mem_append, not_or] at h ⊢
  exact ⟨⟨⟨by decide, h.1⟩, by decide⟩, ⟨⟨by decide, h.2.1⟩, by decide⟩, ⟨⟨by decide, h.2.2.1⟩, by decide⟩, ⟨⟨by decide, h.2.2.2⟩, by decide⟩⟩

theorem unlines_contains {kw : Str} (hk : '\n' ∉ kw) (hne : kw ≠ []) (h1 : contains kw overloadLine = false) (h2 : contains kw overrideLine = false)
    (x : Str) : ∀ {ds : List Str}, (∀ d ∈ ds, Deco d) → contains kw (unlines ds ++ x) = contains kw x
  | [], _ => rfl
  | d :: ds, h => by
    have hd : contains kw d = false := by rcases h d (by simp) with rfl | rfl <;> assumption
    rw [unlines_cons, List.append_assoc, List.cons_append, contains_sep hk, hd, Bool.false_or]
    exact unlines_contains hk hne h1 h2 x (fun d hd => h d (by simp [hd]))

theorem unlines_find {kw : Str} (hk : '\n' ∉ kw) (hne : kw ≠ []) (h1 : contains kw overloadLine = false) (h2 : contains kw overrideLine = false)
    (x : Str) : ∀ {ds : List Str}, (∀ d ∈ ds, Deco d) → find kw (unlines ds ++ x) = (find kw x).map (· + (unlines ds).length)
  | [], _ => by simp
  | d :: ds, h => by
    have hd : contains kw d = false := by rcases h d (by simp) with rfl | rfl <;> assumption
    rw [unlines_cons, List.append_assoc, List.cons_append, find_sep hk hne hd, unlines_find hk hne h1 h2 x (fun d hd => h d (by simp [hd]))]
    simp only [Option.map_map, List.length_append, List.length_cons]
    congr 1
    funext n
    simp only [Function.comp_apply]
    omega

/-- The signature edit puts the class into the argument and the result. -/
theorem editSignature_line {m : Method} (hm : IsMethod m) {c : Str} (hc : ClassName U c) {ds : List Str} (hd : ∀ d ∈ ds, Deco d) {T R : Str}
    (hT : GoodType T) (hR : GoodType R) : editSignature c (unlines ds ++ m.line T R) = .ok (unlines ds ++ m.overload c) := by
  obtain ⟨a, b, ha, hb, hf⟩ : ∃ a b, m.pre = a ++ py!"class_name: " ∧ m.post = ',' :: b ++ py!"-> " ∧
      ∀ x, find py!"class_name" (m.pre ++ x) = some a.length := by
    rcases hm with rfl | rfl
    · exact ⟨py!"    def from_yaml_file(self, loader: Callable[[PathT], ObjectT], path: PathT, *, ",
        py!" comments_are: Optional[Union[YAML_COMMENTS_POSITION, Sequence[YAML_COMMENTS_POSITION]]]='side', **kwargs: Any) ", rfl, rfl, fun _ => rfl⟩
    · exact ⟨py!"    def from_data(self, data: ObjectT, ", py!" **kwargs: Any) ", rfl, rfl, fun _ => rfl⟩
  have hfind : find py!"class_name" (unlines ds ++ m.line T R) = some (a.length + (unlines ds).length) := by
    rw [unlines_find (by decide) (by decide) (by decide) (by decide) _ hd]
    simp only [Method.line, List.append_assoc, hf, Option.map_some]
  -- the text around the old type
  have e1 : unlines ds ++ m.line T R = (unlines ds ++ a ++ py!"class_name") ++ (py!": " ++ T ++ ',' :: (b ++ py!"-> " ++ R ++ py!":...")) := by
    simp [Method.line, ha, hb]
  have e2 : a.length + (unlines ds).length + 10 = (unlines ds ++ a ++ py!"class_name").length := by
    simp; omega
  have e3 : (py!": " ++ T ++ ',' :: (b ++ py!"-> " ++ R ++ py!":...")).takeWhile (fun x => x != ',' && x != ')') = py!": " ++ T := by
    have hall : ∀ x ∈ py!": " ++ T, (x != ',' && x != ')') = true := by
      intro x hx
      rcases List.mem_append.mp hx with hx' | hx
      · clear hx; revert x; decide
      · have h1 : x ≠ ',' := fun e => hT.1 (e ▸ hx)
        have h2 : x ≠ ')' := fun e => hT.2.1 (e ▸ hx)
        simp [h1, h2]
    rw [List.takeWhile_append_of_pos hall, List.takeWhile_cons_of_neg (by decide), List.append_nil]
  unfold editSignature
  simp only [hfind]
  rw [e1, e2, List.drop_left, e3]
  have hlt : (unlines ds ++ a ++ py!"class_name").length + (py!": " ++ T).length <
      (unlines ds ++ a ++ py!"class_name" ++ (py!": " ++ T ++ ',' :: (b ++ py!"-> " ++ R ++ py!":..."))).length := by
    simp; omega
  rw [if_pos hlt]
  have e4 : (unlines ds ++ a ++ py!"class_name" ++ (py!": " ++ T ++ ',' :: (b ++ py!"-> " ++ R ++ py!":..."))).take
      ((unlines ds ++ a ++ py!"class_name").length + 1) = unlines ds ++ a ++ py!"class_name:" := by
    rw [List.take_length_add_append]
    simp
  have e5 : (unlines ds ++ a ++ py!"class_name" ++ (py!": " ++ T ++ ',' :: (b ++ py!"-> " ++ R ++ py!":..."))).drop
      ((unlines ds ++ a ++ py!"class_name").length + (py!": " ++ T).length) = ',' :: (b ++ py!"-> " ++ R ++ py!":...") := by
    rw [List.drop_length_add_append, List.drop_left]
  rw [e4, e5]
  -- the text around the old result
  have e6 : unlines ds ++ a ++ py!"class_name:" ++ py!" Literal[\"" ++ c ++ py!"\"]" ++ ',' :: (b ++ py!"-> " ++ R ++ py!":...") =
      (unlines ds ++ a ++ py!"class_name: Literal[\"" ++ c ++ py!"\"]," ++ b) ++ '-' :: '>' :: (py!" " ++ R ++ py!":...") := by simp
  have e7 : unlines ds ++ a ++ py!"class_name:" ++ py!" Literal[\"" ++ c ++ py!"\"]" ++ ',' :: (b ++ py!"-> " ++ R ++ py!":...") =
      (unlines ds ++ a ++ py!"class_name: Literal[\"" ++ c ++ py!"\"]," ++ b ++ py!"-> " ++ R) ++ ':' :: py!"..." := by simp
  have h1 := rfind_arrow (y := py!" " ++ R ++ py!":...") (by simp [hR.2.2.1]) (unlines ds ++ a ++ py!"class_name: Literal[\"" ++ c ++ py!"\"]," ++ b)
  rw [← e6] at h1
  have h2 := rfindChar_last (c := ':') (y := py!"...") (by decide) (unlines ds ++ a ++ py!"class_name: Literal[\"" ++ c ++ py!"\"]," ++ b ++ py!"-> " ++ R)
  rw [← e7] at h2
  rw [h1, h2]
  simp only [sliceTo, sliceFrom]
  congr 1
  have e8 : (unlines ds ++ a ++ py!"class_name:" ++ py!" Literal[\"" ++ c ++ py!"\"]" ++ ',' :: (b ++ py!"-> " ++ R ++ py!":...")).take
      ((unlines ds ++ a ++ py!"class_name: Literal[\"" ++ c ++ py!"\"]," ++ b).length + 3) =
      unlines ds ++ a ++ py!"class_name: Literal[\"" ++ c ++ py!"\"]," ++ b ++ py!"-> " := by
    rw [e6, List.take_length_add_append]
    simp
  have e9 : (unlines ds ++ a ++ py!"class_name:" ++ py!" Literal[\"" ++ c ++ py!"\"]" ++ ',' :: (b ++ py!"-> " ++ R ++ py!":...")).drop
      (unlines ds ++ a ++ py!"class_name: Literal[\"" ++ c ++ py!"\"]," ++ b ++ py!"-> " ++ R).length = py!":..." := by
    rw [e7, List.drop_left]
  rw [e8, e9]
  simp [Method.overload, Method.line, ha, hb]

/-! ### The registry -/

/-- No assignment to the registry. -/
def Quiet (e : Str) : Prop := isAssignment py!"classes_created" e = false

theorem quiet_of_noEq {e : Str} (h : '=' ∉ e) : Quiet e := by
  unfold Quiet isAssignment
  rw [show List.contains e '=' = false by simpa using h]
  simp

theorem unlines_not {x : Char} (h1 : x ∉ overloadLine) (h2 : x ∉ overrideLine) (hn : x ≠ '\n') : ∀ {ds : List Str}, (∀ d ∈ ds, Deco d) → x ∉ unlines ds
  | [], _ => by simp
  | d :: ds, h => by
    have hd : x ∉ d := by rcases h d (by simp) with rfl | rfl <;> assumption
    rw [unlines_cons]
    simp only [List.mem_append, List.mem_cons, not_or]
    exact ⟨hd, hn, unlines_not h1 h2 hn (fun d hd => h d (by simp [hd]))⟩

theorem overload_quiet {m : Method} (hm : IsMethod m) {c : Str} (hc : ClassName U c) {ds : List Str} (hd : ∀ d ∈ ds, Deco d) :
    Quiet (unlines ds ++ m.overload c) := by
  rcases hm with rfl | rfl
  · unfold Quiet isAssignment itIsString
    have : (textBefore py!"classes_created" (unlines ds ++ yamlMethod.overload c)).contains '"' = true := by
      rw [show unlines ds ++ yamlMethod.overload c = (unlines ds ++ (yamlMethod.pre ++ py!"Literal[")) ++ '"' ::
          (c ++ py!"\"]" ++ yamlMethod.post ++ c ++ py!":...") by simp [Method.overload, Method.line]]
      simp only [List.contains_iff_mem]
      refine textBefore_mem (by decide) (by decide) ?_
      rw [unlines_contains (by decide) (by decide) (by decide) (by decide) _ hd]
      decide +kernel
    rw [this]
    simp
  · apply quiet_of_noEq
    simp only [Method.overload, Method.line, List.mem_append, not_or]
    exact ⟨unlines_not (by decide) (by decide) (by decide) hd, ⟨⟨⟨by decide, ⟨by decide, className_not hc⟩, by decide⟩, by decide +kernel⟩,
      className_not hc⟩, by decide⟩

theorem elems_quiet {m : Method} (hm : IsMethod m) {S cs : List Str} (h : Elems U m S cs) : ∀ e ∈ S, Quiet e := by
  induction h with
  | nil => simp
  | deco hd _ ih =>
    intro e he
    rcases List.mem_cons.mp he with rfl | he
    · unfold Quiet; rcases hd with rfl | rfl <;> decide
    · exact ih e he
  | over hd hc _ ih =>
    intro e he
    rcases List.mem_cons.mp he with rfl | he
    · rw [join_snoc]; exact overload_quiet hm hc hd
    · exact ih e he

theorem import_quiet {c : Str} (hc : ClassName U c) : Quiet (classImport c) := by
  apply quiet_of_noEq
  simp only [classImport, List.mem_append, not_or]
  exact ⟨⟨⟨by decide, className_not hc⟩, by decide⟩, className_not hc⟩

theorem searchAssignment_quiet {B : List Str} : ∀ {A : List Str} (i : Nat), (∀ e ∈ A, Quiet e) →
    searchAssignmentFrom py!"classes_created" i (A ++ B) = searchAssignmentFrom py!"classes_created" (i + A.length) B
  | [], i, _ => rfl
  | a :: A, i, h => by
    have ha : isAssignment py!"classes_created" a = false := h a (by simp)
    rw [List.cons_append, searchAssignmentFrom, ha]
    simp only [Bool.false_eq_true, if_false]
    rw [searchAssignment_quiet (i + 1) (fun e he => h e (by simp [he])), List.length_cons]
    congr 1
    omega

/-- The characters of the registry. -/
theorem registryValue_not {cs : List Str} (hcs : ∀ c ∈ cs, ClassName U c) {x : Char} (ha : isAscii x = true := by decide)
    (hx : (x.isAlpha || x.isDigit) = false := by decide) (hu : x ≠ '_' := by decide)
    (h : x ∉ py!"Any" ++ py!"Union[Literal[" ++ py!", " ++ py!"\"" ++ py!"], Any]" := by decide) : x ∉ registryValue cs := by
  simp only [List.mem_append, not_or] at h
  unfold registryValue
  split
  · exact h.1.1.1.1
  · simp only [List.mem_append, not_or]
    refine ⟨⟨h.1.1.1.2, ?_⟩, h.2⟩
    intro hm
    rcases mem_join hm with hm | ⟨y, hy, hm⟩
    · exact h.1.1.2 hm
    · obtain ⟨c, hc, rfl⟩ := List.mem_map.mp hy
      simp only [List.mem_append] at hm
      rcases hm with (hm | hm) | hm
      · exact h.1.2 hm
      · exact className_not (hcs c hc) ha hx hu hm
      · exact h.1.2 hm

theorem registryLine_split (cs : List Str) : registryLine cs = py!"    classes_created: 'TypeAlias' " ++ '=' ::
    ((if cs = [] then py!" " else []) ++ registryValue cs) := by simp [registryLine]

theorem splitChar_registry {cs : List Str} (hcs : ∀ c ∈ cs, ClassName U c) : splitChar '=' (registryLine cs) =
    [py!"    classes_created: 'TypeAlias' ", (if cs = [] then py!" " else []) ++ registryValue cs] := by
  rw [registryLine_split, splitChar_append_sep (by decide), splitChar_free]
  simp only [List.mem_append, not_or]
  refine ⟨?_, registryValue_not hcs⟩
  split <;> decide

theorem registryValue_strip (cs : List Str) : strip ((if cs = [] then py!" " else []) ++ registryValue cs) = registryValue cs := by
  cases cs with
  | nil => decide
  | cons c cs =>
    simp only [List.cons_ne_nil, if_false, List.nil_append]
    apply strip_eq_self
    · intro x hx
      have : x = 'U' := by
        simp [registryValue] at hx
        exact hx.symm
      subst this; decide
    · intro x hx
      have : x = ']' := by
        rw [registryValue] at hx
        · rw [List.getLast?_append] at hx
          simp at hx
          exact hx.symm
        · simp
      subst this; decide

theorem registryLine_value {cs : List Str} (hcs : ∀ c ∈ cs, ClassName U c) : assignedValue (registryLine cs) = .ok (registryValue cs) := by
  unfold assignedValue
  rw [splitChar_registry hcs]
  simp only [List.getLastD_cons, List.getLastD_nil]
  rw [registryValue_strip]
  cases cs with
  | nil => rfl
  | cons c cs => rfl

theorem registryLine_isAssignment (cs : List Str) : isAssignment py!"classes_created" (registryLine cs) = true := by
  unfold isAssignment itIsString
  have h1 : contains py!"classes_created" (registryLine cs) = true := rfl
  have h2 : (registryLine cs).contains '=' = true := by
    rw [registryLine_split]; simp
  have h3 : textBefore py!"classes_created" (registryLine cs) = py!"    " := rfl
  rw [h1, h2, h3]
  decide

/-- The lines before and after the registry. -/
theorem stub_parts {cs is ys ds L : List Str} (h : IsStub U cs is ys ds L) : ∃ A B, L = A ++ registryLine cs :: B ∧ (∀ e ∈ A, Quiet e) ∧ (∀ e ∈ B, Quiet e) ∧
    ∀ cs', (∀ c ∈ cs', ClassName U c) → IsStub U cs' is ys ds (A ++ registryLine cs' :: B) := by
  obtain ⟨h1, h2, Y, D, tail, hY, hD, ht, rfl⟩ := h
  refine ⟨is.map classImport ++ headLines, initLines ++ (Y ++ [overrideLine, yamlMethod.main]) ++ [[]] ++
      (D ++ [overrideLine, dataMethod.main]) ++ resetLines ++ tail, by simp, ?_, ?_, ?_⟩
  · intro e he
    rcases List.mem_append.mp he with he | he'
    · obtain ⟨c, hc, rfl⟩ := List.mem_map.mp he
      exact import_quiet (h2 c hc)
    · clear he; unfold Quiet; revert e; decide +kernel
  · have hc : ∀ e ∈ initLines ++ [overrideLine, yamlMethod.main] ++ [[]] ++ [overrideLine, dataMethod.main] ++ resetLines ++ [[]], Quiet e := by
      unfold Quiet; decide +kernel
    intro e he
    simp only [List.mem_append] at he hc
    rcases he with ((((he | he) | he) | he) | he) | he
    · exact hc e (.inl (.inl (.inl (.inl (.inl he)))))
    · rcases he with he | he
      · exact elems_quiet (.inl rfl) hY e he
      · exact hc e (.inl (.inl (.inl (.inl (.inr he)))))
    · exact hc e (.inl (.inl (.inl (.inr he))))
    · rcases he with he | he
      · exact elems_quiet (.inr rfl) hD e he
      · exact hc e (.inl (.inl (.inr he)))
    · exact hc e (.inl (.inr he))
    · rcases ht with rfl | rfl
      · cases he
      · exact hc e (.inr he)
  · intro cs' hcs'
    exact ⟨hcs', h2, Y, D, tail, hY, hD, ht, by simp⟩

theorem searchAssignment_parts {cs A B : List Str} (hcs : ∀ c ∈ cs, ClassName U c) (hA : ∀ e ∈ A, Quiet e) (hB : ∀ e ∈ B, Quiet e) :
    searchAssignment (A ++ registryLine cs :: B) py!"classes_created" = .ok [(A.length, registryValue cs)] := by
  unfold searchAssignment
  rw [searchAssignment_quiet 0 hA, searchAssignmentFrom, registryLine_isAssignment]
  simp only [if_true, registryLine_value hcs]
  have := searchAssignment_quiet (B := []) (A := B) (0 + A.length + 1) hB
  rw [List.append_nil] at this
  rw [this]
  simp [searchAssignmentFrom, Except.map]

/-! ### Reading the registry -/

theorem quotedNames_plain {w s : Str} (h : '"' ∉ w) : quotedNames 0 (w ++ s) = quotedNames 0 s := by
  induction w with
  | nil => rfl
  | cons c w ih =>
    simp only [List.mem_cons, not_or] at h
    simp only [List.cons_append, quotedNames, if_neg (Ne.symm h.1)]
    exact ih h.2

theorem quotedNames_skip {s : Str} : ∀ (l : Str), quotedNames l.length (l ++ s) = quotedNames 0 s
  | [] => rfl
  | _ :: l => by simpa [quotedNames] using quotedNames_skip l

theorem quotedNames_quote {c s : Str} (h1 : '"' ∉ c) (h2 : '\n' ∉ c) : quotedNames 0 (py!"\"" ++ c ++ py!"\"" ++ s) = c :: quotedNames 0 s := by
  have hw : (c ++ '"' :: s).takeWhile (fun x => x != '"' && x != '\n') = c := by
    rw [List.takeWhile_append_of_pos, List.takeWhile_cons_of_neg (by decide), List.append_nil]
    intro x hx
    have e1 : x ≠ '"' := fun e => h1 (e ▸ hx)
    have e2 : x ≠ '\n' := fun e => h2 (e ▸ hx)
    simp [e1, e2]
  rw [show py!"\"" ++ c ++ py!"\"" ++ s = '"' :: (c ++ '"' :: s) by simp, quotedNames]
  simp only [if_true, hw, List.drop_left]
  have := quotedNames_skip (s := s) (c ++ ['"'])
  simp only [List.length_append, List.length_cons, List.length_nil, List.append_assoc, List.cons_append, List.nil_append] at this
  rw [this]

theorem quotedNames_list {s : Str} (hs : '"' ∉ s) : ∀ {cs : List Str}, (∀ c ∈ cs, ClassName U c) →
    quotedNames 0 (join py!", " (cs.map (fun c => py!"\"" ++ c ++ py!"\"")) ++ s) = cs
  | [], _ => by
    have := quotedNames_plain (s := []) hs
    simpa [join, quotedNames] using this
  | [c], h => by
    have hc := h c (by simp)
    have := quotedNames_plain (s := []) hs
    rw [List.append_nil] at this
    rw [List.map_singleton, join_singleton, quotedNames_quote (className_not hc) (className_not hc), this]
    rfl
  | c :: c' :: cs, h => by
    have hc := h c (by simp)
    have ih := quotedNames_list hs (cs := c' :: cs) (fun d hd => h d (by simp [hd]))
    rw [List.map_cons, List.map_cons, join_cons_cons, ← List.map_cons (f := fun c => py!"\"" ++ c ++ py!"\""), List.append_assoc, List.append_assoc,
      quotedNames_quote (className_not hc) (className_not hc), quotedNames_plain (by decide), ih]

/-- Reading back the names in a registry. -/
theorem quotedNames_registry {cs : List Str} (hcs : ∀ c ∈ cs, ClassName U c) :
    (if registryValue cs = py!"Any" then [] else quotedNames 0 (registryValue cs)) = cs := by
  cases cs with
  | nil => rfl
  | cons c cs =>
    have : registryValue (c :: cs) ≠ py!"Any" := by intro h; cases h
    rw [if_neg this]
    simp only [registryValue]
    rw [List.append_assoc, quotedNames_plain (by decide), quotedNames_list (by decide) hcs]

theorem registry_stub {cs is ys ds L : List Str} (h : IsStub U cs is ys ds L) : registered L = .ok cs := by
  obtain ⟨A, B, rfl, hA, hB, _⟩ := stub_parts h
  unfold registered
  rw [searchAssignment_parts h.1 hA hB]
  simp only [quotedNames_registry h.1]

/-! ### Adding to the registry -/

theorem replace_tail {x new : Str} (h : ']' ∉ x) : replace py!"], Any]" new (x ++ py!"], Any]") = x ++ new := by
  unfold replace
  induction x with
  | nil => simp [replaceAux, List.isPrefixOf]
  | cons c x ih =>
    simp only [List.mem_cons, not_or] at h
    have : List.isPrefixOf py!"], Any]" (c :: (x ++ py!"], Any]")) = false := by simp [List.isPrefixOf, h.1]
    rw [List.cons_append, replaceAux, this]
    simp only [Bool.false_eq_true, if_false, ih h.2, List.cons_append]

theorem join_snoc_comma (x : Str) : ∀ {l : List Str}, l ≠ [] → join py!", " (l ++ [x]) = join py!", " l ++ py!", " ++ x
  | [], h => absurd rfl h
  | [y], _ => rfl
  | y :: z :: r, _ => by
    have := join_snoc_comma x (l := z :: r) (by simp)
    simp only [List.cons_append] at this ⊢
    rw [join_cons_cons, this, join_cons_cons]
    simp

theorem registryValue_snoc {cs : List Str} (hcs : ∀ c ∈ cs, ClassName U c) (c : Str) :
    (if registryValue cs = py!"Any" then py!"Union[Literal[\"" ++ c ++ py!"\"], Any]"
      else replace py!"], Any]" (py!", \"" ++ c ++ py!"\"], Any]") (registryValue cs)) = registryValue (cs ++ [c]) := by
  cases cs with
  | nil => simp [registryValue]
  | cons a cs =>
    have h0 : registryValue (a :: cs) ≠ py!"Any" := by intro h; cases h
    have h1 : ∀ l, l ≠ [] → registryValue l = py!"Union[Literal[" ++ join py!", " (l.map (fun c => py!"\"" ++ c ++ py!"\"")) ++ py!"], Any]" := by
      intro l hl
      cases l with
      | nil => exact absurd rfl hl
      | cons _ _ => rfl
    rw [if_neg h0, h1 _ (by simp), h1 _ (by simp), replace_tail, List.map_append, List.map_singleton, join_snoc_comma _ (by simp)]
    · simp
    · simp only [List.mem_append, not_or]
      refine ⟨by decide, ?_⟩
      intro hm
      rcases mem_join hm with hm | ⟨y, hy, hm⟩
      · revert hm; decide
      · obtain ⟨d, hd, rfl⟩ := List.mem_map.mp hy
        simp only [List.mem_append] at hm
        rcases hm with (hm | hm) | hm
        · revert hm; decide
        · exact className_not (hcs d hd) (by decide) (by decide) (by decide) hm
        · revert hm; decide

theorem modify_append {α} (A : List α) (x : α) (B : List α) (f : α → α) : (A ++ x :: B).modify A.length f = A ++ f x :: B := by
  induction A with
  | nil => simp
  | cons a A ih => simp [ih]

theorem addRegistry_stub {cs is ys ds L : List Str} (h : IsStub U cs is ys ds L) {c : Str} (hc : ClassName U c) :
    ∃ L', addRegistry c L = (L', none) ∧ IsStub U (cs ++ [c]) is ys ds L' := by
  obtain ⟨A, B, rfl, hA, hB, hS⟩ := stub_parts h
  have hcs' : ∀ d ∈ cs ++ [c], ClassName U d := by
    intro d hd
    rcases List.mem_append.mp hd with hd | hd
    · exact h.1 d hd
    · rw [List.mem_singleton.mp hd]; exact hc
  refine ⟨A ++ registryLine (cs ++ [c]) :: B, ?_, hS _ hcs'⟩
  have hne : registryValue cs ≠ [] := by
    cases cs with
    | nil => decide
    | cons _ _ => intro h; cases h
  unfold addRegistry replaceAssignment
  rw [searchAssignment_parts h.1 hA hB]
  simp only [if_neg hne, modify_append, splitChar_registry h.1]
  rw [registryValue_snoc h.1]
  simp [registryLine, join]

/-! ### Adding an import -/

theorem addClassImport_stub {cs is ys ds L : List Str} (h : IsStub U cs is ys ds L) {c : Str} (hc : ClassName U c) :
    ∃ L', addClassImport c L = (L', none) ∧ IsStub U cs (c :: is) ys ds L' := by
  obtain ⟨h1, h2, Y, D, tail, hY, hD, ht, rfl⟩ := h
  refine ⟨_, rfl, h1, ?_, Y, D, tail, hY, hD, ht, by simp [addImport, importLine, classImport]⟩
  intro d hd
  rcases List.mem_cons.mp hd with rfl | hd
  · exact hc
  · exact h2 d hd

end
end Verif
