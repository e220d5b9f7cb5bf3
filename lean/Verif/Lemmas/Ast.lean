import Verif.Spec.Ast
/-
Lemmas on the comparison of syntax trees.
-/
namespace Verif
open Spec

theorem unimportant_eq (o : AstOpts) (k : Str) : skippedAttr o k = unimportant o k := by
  unfold skippedAttr unimportant
  simp only [List.contains_cons, List.contains_nil, Bool.or_false]
  ac_rfl

theorem Ast.isNone_iff {x : Ast} : x.isNone = true ↔ x = .none := by
  cases x <;> simp [Ast.isNone, Ast.none]

theorem essence_isNone {o : AstOpts} {b : Bool} (x : Ast) : (essence o b x).isNone = x.isNone := by
  cases x <;> rfl

theorem trim_cons_nil {x : Ast} {l : List Ast} : trim (x :: l) = [] ↔ x.isNone = true ∧ trim l = [] := by
  rw [trim]
  cases h : trim l with
  | nil => by_cases hx : x.isNone = true <;> simp [hx]
  | cons a r => simp

theorem trim_cons {x y : Ast} {l m : List Ast} : trim (x :: l) = trim (y :: m) ↔ x = y ∧ trim l = trim m := by
  constructor
  · intro h
    by_cases h0 : trim (x :: l) = []
    · have h1 := trim_cons_nil.mp h0
      have h2 := trim_cons_nil.mp (h ▸ h0)
      exact ⟨(Ast.isNone_iff.mp h1.1).trans (Ast.isNone_iff.mp h2.1).symm, h1.2.trans h2.2.symm⟩
    · have e : ∀ {z : Ast} {k : List Ast}, trim (z :: k) ≠ [] → trim (z :: k) = z :: trim k := by
        intro z k hz
        rw [trim] at hz ⊢
        cases hk : trim k with
        | nil =>
          rw [hk] at hz
          by_cases hz' : z.isNone = true
          · simp [hz'] at hz
          · simp [hz']
        | cons a r => rfl
      have h0' : trim (y :: m) ≠ [] := h ▸ h0
      rw [e h0, e h0'] at h
      exact ⟨(List.cons.inj h).1, (List.cons.inj h).2⟩
  · rintro ⟨rfl, h⟩
    rw [trim, trim, h]

theorem trim_nil_iff : ∀ {l : List Ast}, trim l = [] ↔ l.all Ast.isNone = true
  | [] => by simp [trim]
  | x :: l => by rw [trim_cons_nil, trim_nil_iff, List.all_cons, Bool.and_eq_true]

theorem importStatement_eq (x : Ast) : importStatement x = x.isImport := by
  cases x <;> simp [importStatement, Ast.isImport, Bool.beq_eq_decide_eq]

theorem essenceItems_cons (o : AstOpts) (b : Bool) (x : Ast) (xs : List Ast) : essenceItems o b (x :: xs) =
    if b && x.isImport then essenceItems o b xs else essence o false x :: essenceItems o b xs := by
  rw [essenceItems, importStatement_eq]

theorem essenceItems_all {o : AstOpts} : ∀ {l : List Ast}, (essenceItems o false l).all Ast.isNone = l.all Ast.isNone
  | [] => rfl
  | x :: l => by
    rw [essenceItems]
    simp only [Bool.false_and, Bool.false_eq_true, if_false, List.all_cons, essence_isNone, essenceItems_all]

theorem essenceItems_filter {o : AstOpts} : ∀ {l : List Ast},
    essenceItems o false (l.filter (fun y => !y.isImport)) = essenceItems o true l
  | [] => rfl
  | x :: l => by
    rw [List.filter_cons]
    cases h : x.isImport with
    | true => simp only [Bool.not_true, Bool.false_eq_true, if_false]; rw [essenceItems_filter, essenceItems_cons, h]; rfl
    | false =>
      simp only [Bool.not_false, if_true]
      rw [essenceItems_cons, essenceItems_cons, h, essenceItems_filter]; rfl

theorem shapedAll_iff {attrs : Str → List Str} : ∀ {l : List Ast}, ShapedAll attrs l ↔ ∀ x ∈ l, Shaped attrs x
  | [] => by simp [ShapedAll]
  | x :: l => by rw [ShapedAll, shapedAll_iff]; simp

theorem attr_here {k : Str} {w : Ast} {ns : List Str} {ws : List Ast} : ∀ {pre : List Str} {preV : List Ast}, pre.length = preV.length → k ∉ pre →
    attr k (pre ++ k :: ns) (preV ++ w :: ws) = some w
  | [], [], _, _ => by simp [attr]
  | [], _ :: _, h, _ => by cases h
  | _ :: _, [], h, _ => by cases h
  | p :: pre, v :: preV, h, hk => by
    simp only [List.cons_append, attr]
    rw [if_neg (fun e => hk (by simp [e])), attr_here (by simpa using h) (fun e => hk (by simp [e]))]

theorem setAttr_here {k : Str} {w w' : Ast} {ns : List Str} {ws : List Ast} : ∀ {pre : List Str} {preV : List Ast}, pre.length = preV.length → k ∉ pre →
    setAttr k w' (pre ++ k :: ns) (preV ++ w :: ws) = preV ++ w' :: ws
  | [], [], _, _ => by simp [setAttr]
  | [], _ :: _, h, _ => by cases h
  | _ :: _, [], h, _ => by cases h
  | p :: pre, v :: preV, h, hk => by
    simp only [List.cons_append, setAttr]
    rw [if_neg (fun e => hk (by simp [e])), setAttr_here (by simpa using h) (fun e => hk (by simp [e]))]

theorem shaped_dropImports {attrs : Str → List Str} {b : Ast} (h : Shaped attrs b) : Shaped attrs b.dropImports := by
  cases b with
  | list ys => exact shapedAll_iff.mpr (fun x hx => shapedAll_iff.mp h x (List.mem_filter.mp hx).1)
  | _ => exact h

/-- Comparing two shaped trees: no error, the result, and what is left of the second one. -/
def Compares (o : AstOpts) (attrs : Str → List Str) (noImports : Bool) (r : Option (Bool × Ast)) (a w : Ast) : Prop :=
  ∃ t w', r = some (t, w') ∧ (t = true ↔ essence o noImports a = essence o noImports w) ∧
    essence o noImports w' = essence o noImports w ∧ Shaped attrs w'

theorem essence_flag {o : AstOpts} {a : Ast} (h : a.isList = false) (b c : Bool) : essence o b a = essence o c a := by
  cases a with
  | list xs => cases h
  | _ => rfl

mutual
theorem compareAst_ok (o : AstOpts) (attrs : Str → List Str) : ∀ (a : Ast) (s : Bool) (w : Ast), Shaped attrs a → Shaped attrs w →
    Compares o attrs s (compareAst o (s && a.isList) a (if s && a.isList then w.dropImports else w)) a w
  | .node c ns vs, s, w, ha, hw => by
    simp only [Ast.isList, Bool.and_false, Bool.false_eq_true, if_false, compareAst]
    cases w with
    | node c' ns' vs' =>
      dsimp only
      by_cases hc : c = c'
      · subst hc
        rw [Shaped] at ha hw
        obtain ⟨h1, h2, h3, h4⟩ := ha
        obtain ⟨h1', h2', h3', h4'⟩ := hw
        have hns : ns' = ns := h1'.trans h1.symm
        subst hns
        obtain ⟨t, ws', e1, e2, e3, e4, e5⟩ := compareAttrs_ok o attrs vs ns' [] [] vs' rfl h3 h3' (by simpa using h2) h4 h4'
        rw [List.nil_append, List.nil_append] at e1
        rw [if_pos rfl, e1]
        refine ⟨t, _, rfl, ?_, ?_, ?_⟩
        · rw [e3, essence, essence]; simp
        · rw [List.nil_append, essence, essence, e4]
        · rw [List.nil_append, Shaped]; exact ⟨h1', h2', h3'.trans e2.symm, e5⟩
      · rw [if_neg hc]
        exact ⟨false, _, rfl, by simp [essence, hc], rfl, hw⟩
    | list ys => exact ⟨false, _, rfl, by simp [essence], rfl, hw⟩
    | leaf t x => exact ⟨false, _, rfl, by simp [essence], rfl, hw⟩
  | .list xs, s, w, ha, hw => by
    simp only [Ast.isList, Bool.and_true, compareAst]
    cases w with
    | node c' ns' vs' => cases s <;> exact ⟨false, _, rfl, by simp [essence], rfl, hw⟩
    | leaf t x => cases s <;> exact ⟨false, _, rfl, by simp [essence], rfl, hw⟩
    | list ys =>
      rw [Shaped] at ha hw
      cases s with
      | false =>
        obtain ⟨t, ys', e1, e2, e3, e4⟩ := compareItems_ok o attrs xs false ys ha hw
        simp only [Bool.false_eq_true, if_false, e1]
        refine ⟨t, _, rfl, ?_, ?_, ?_⟩
        · rw [e2, essence, essence]; simp
        · rw [essence, essence, e3]
        · rw [Shaped]; exact e4
      | true =>
        have hw' : ShapedAll attrs (ys.filter (fun y => !y.isImport)) :=
          shapedAll_iff.mpr (fun x hx => shapedAll_iff.mp hw x (List.mem_filter.mp hx).1)
        obtain ⟨t, ys', e1, e2, e3, e4⟩ := compareItems_ok o attrs xs true (ys.filter (fun y => !y.isImport)) ha hw'
        simp only [if_true, Ast.dropImports, e1]
        have hf := essenceItems_filter (o := o) (l := ys)
        have hf2 : essenceItems o true (ys.filter (fun y => !y.isImport)) = essenceItems o true ys := by
          rw [← essenceItems_filter, List.filter_filter]; simp [hf]
        refine ⟨t, _, rfl, ?_, ?_, ?_⟩
        · rw [e2, essence, essence, hf]; simp
        · rw [essence, essence, e3, hf2]
        · rw [Shaped]; exact e4
  | .leaf t x, s, w, ha, hw => by
    simp only [Ast.isList, Bool.and_false, Bool.false_eq_true, if_false, compareAst]
    cases w with
    | node c' ns' vs' => exact ⟨false, _, rfl, by simp [essence], rfl, hw⟩
    | list ys => exact ⟨false, _, rfl, by simp [essence], rfl, hw⟩
    | leaf t' x' => exact ⟨_, _, rfl, by simp [essence], rfl, hw⟩
theorem compareAttrs_ok (o : AstOpts) (attrs : Str → List Str) : ∀ (vs : List Ast) (ns pre : List Str) (preV ws : List Ast), pre.length = preV.length →
    ns.length = vs.length → ns.length = ws.length → (pre ++ ns).Nodup → ShapedAll attrs vs → ShapedAll attrs ws →
    ∃ t ws', compareAttrs o ns vs (pre ++ ns) (preV ++ ws) = some (t, preV ++ ws') ∧ ws'.length = ws.length ∧
      (t = true ↔ essenceAttrs o ns vs = essenceAttrs o ns ws) ∧ essenceAttrs o ns ws' = essenceAttrs o ns ws ∧ ShapedAll attrs ws'
  | [], ns, pre, preV, ws, hp, h1, h2, hn, hv, hw => by
    cases ns with
    | cons _ _ => cases h1
    | nil =>
      cases ws with
      | cons _ _ => cases h2
      | nil => exact ⟨true, [], by simp [compareAttrs], rfl, by simp, rfl, hw⟩
  | v :: vs, ns, pre, preV, ws, hp, h1, h2, hn, hv, hw => by
    cases ns with
    | nil => cases h1
    | cons k ns =>
      cases ws with
      | nil => cases h2
      | cons w ws =>
        rw [ShapedAll] at hv hw
        have hk : k ∉ pre := by
          intro hk
          rw [List.nodup_append] at hn
          exact hn.2.2 k hk k (by simp) rfl
        have hn' : ((pre ++ [k]) ++ ns).Nodup := by simpa using hn
        have hl : ∀ {x : Ast}, (pre ++ [k]).length = (preV ++ [x]).length := by simp [hp]
        rw [compareAttrs, unimportant_eq]
        by_cases hu : unimportant o k = true
        · rw [if_pos hu]
          obtain ⟨t, ws', e1, e2, e3, e4, e5⟩ := compareAttrs_ok o attrs vs ns (pre ++ [k]) (preV ++ [w]) ws hl (by simpa using h1) (by simpa using h2) hn' hv.2 hw.2
          refine ⟨t, w :: ws', by simpa using e1, by simp [e2], ?_, ?_, ?_⟩
          · rw [essenceAttrs, essenceAttrs, if_pos hu, if_pos hu]; exact e3
          · rw [essenceAttrs, essenceAttrs, if_pos hu, if_pos hu]; exact e4
          · rw [ShapedAll]; exact ⟨hw.1, e5⟩
        · rw [if_neg hu, attr_here hp hk]
          dsimp only
          obtain ⟨t, w', c1, c2, c3, c4⟩ := compareAst_ok o attrs v (o.ignoreImports && k == py!"body") w hv.1 hw.1
          rw [c1]
          dsimp only
          rw [setAttr_here hp hk]
          cases t with
          | false =>
            refine ⟨false, w' :: ws, by simp, by simp, ?_, ?_, ?_⟩
            · rw [essenceAttrs, essenceAttrs, if_neg hu, if_neg hu]
              constructor
              · intro h; cases h
              · intro h; exact c2.mpr (List.cons.inj h).1
            · rw [essenceAttrs, essenceAttrs, if_neg hu, if_neg hu, c3]
            · rw [ShapedAll]; exact ⟨c4, hw.2⟩
          | true =>
            obtain ⟨t, ws', e1, e2, e3, e4, e5⟩ := compareAttrs_ok o attrs vs ns (pre ++ [k]) (preV ++ [w']) ws hl (by simpa using h1) (by simpa using h2) hn' hv.2 hw.2
            refine ⟨t, w' :: ws', by simpa using e1, by simp [e2], ?_, ?_, ?_⟩
            · rw [essenceAttrs, essenceAttrs, if_neg hu, if_neg hu, e3, c2.mp rfl]; simp
            · rw [essenceAttrs, essenceAttrs, if_neg hu, if_neg hu, c3, e4]
            · rw [ShapedAll]; exact ⟨c4, e5⟩
theorem compareItems_ok (o : AstOpts) (attrs : Str → List Str) : ∀ (xs : List Ast) (s : Bool) (ys : List Ast), ShapedAll attrs xs → ShapedAll attrs ys →
    ∃ t ys', compareItems o s xs ys = some (t, ys') ∧ (t = true ↔ trim (essenceItems o s xs) = trim (essenceItems o false ys)) ∧
      essenceItems o s ys' = essenceItems o s ys ∧ ShapedAll attrs ys'
  | [], s, ys, hx, hy => by
    refine ⟨_, ys, by rw [compareItems], ?_, rfl, hy⟩
    rw [← essenceItems_all (o := o), ← trim_nil_iff, essenceItems, trim]
    exact ⟨Eq.symm, Eq.symm⟩
  | x :: xs, s, ys, hx, hy => by
    rw [ShapedAll] at hx
    by_cases hi : (s && x.isImport) = true
    · obtain ⟨t, ys', e1, e2, e3, e4⟩ := compareItems_ok o attrs xs s ys hx.2 hy
      refine ⟨t, ys', ?_, ?_, e3, e4⟩
      · rw [compareItems.eq_def]; simp only [if_pos hi]; exact e1
      · rw [e2, essenceItems_cons, if_pos hi]
    · have he : essenceItems o s (x :: xs) = essence o false x :: essenceItems o s xs := by rw [essenceItems_cons, if_neg hi]
      rw [he]
      cases ys with
      | nil =>
        obtain ⟨t, w', c1, c2, c3, c4⟩ := compareAst_ok o attrs x false .none hx.1 trivial
        simp only [Bool.false_and, Bool.false_eq_true, if_false] at c1
        rw [compareItems.eq_def]
        simp only [if_neg hi, c1]
        have hnil : essenceItems o false [] = [] := by rw [essenceItems]
        have hN : essence o false Ast.none = Ast.none := rfl
        rw [hN] at c2
        rw [hnil]
        show ∃ t_1 ys', _ ∧ (_ ↔ _ = []) ∧ _
        cases t with
        | false =>
          refine ⟨false, [], rfl, ?_, rfl, hy⟩
          constructor
          · intro h; cases h
          · intro h; exact c2.mpr (Ast.isNone_iff.mp (trim_cons_nil.mp h).1)
        | true =>
          obtain ⟨t, ys', e1, e2, e3, e4⟩ := compareItems_ok o attrs xs s [] hx.2 hy
          refine ⟨t, ys', by simp only [if_true, e1], ?_, e3, e4⟩
          rw [e2, hnil, trim_cons_nil, Ast.isNone_iff]
          exact ⟨fun h => ⟨c2.mp rfl, h⟩, fun h => h.2⟩
      | cons y ys =>
        rw [ShapedAll] at hy
        obtain ⟨t, w', c1, c2, c3, c4⟩ := compareAst_ok o attrs x false y hx.1 hy.1
        simp only [Bool.false_and, Bool.false_eq_true, if_false] at c1
        rw [compareItems.eq_def]
        simp only [if_neg hi, c1]
        have hy' : essenceItems o false (y :: ys) = essence o false y :: essenceItems o false ys := by rw [essenceItems]; simp
        have himp : w'.isImport = y.isImport := by
          cases y <;> cases w' <;> simp_all [essence, Ast.isImport]
        have hs : ∀ zs zs' : List Ast, essenceItems o s zs = essenceItems o s zs' → essenceItems o s (w' :: zs) = essenceItems o s (y :: zs') := by
          intro zs zs' h
          rw [essenceItems_cons, essenceItems_cons, himp, h, c3]
        rw [hy', trim_cons]
        cases t with
        | false =>
          refine ⟨false, w' :: ys, by simp, ?_, hs _ _ rfl, ?_⟩
          · constructor
            · intro h; cases h
            · intro h; exact c2.mpr h.1
          · rw [ShapedAll]; exact ⟨c4, hy.2⟩
        | true =>
          obtain ⟨t, ys', e1, e2, e3, e4⟩ := compareItems_ok o attrs xs s ys hx.2 hy.2
          refine ⟨t, w' :: ys', by simp [e1], ?_, hs _ _ e3, ?_⟩
          · rw [e2]; exact ⟨fun h => ⟨c2.mp rfl, h⟩, fun h => h.2⟩
          · rw [ShapedAll]; exact ⟨c4, e4⟩
end

end Verif
