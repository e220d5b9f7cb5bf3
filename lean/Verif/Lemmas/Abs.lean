import Verif.Lemmas.Flat
import Verif.Lemmas.Types
/-
Rendering into abstract declarations, and the proof that the generated text is their printed form.
-/
namespace Verif
open Verif.Spec

/-- `Out` with declarations as abstract syntax. -/
structure AOut where
  name : Str
  height : Nat
  perm : Bool
  body : Body
  emitted : List TDecl

def AOut.decl (a : AOut) : TDecl := ⟨a.name, a.body⟩

/-- How a parent refers to a child. -/
def aref (k : AOut) : TExpr :=
  if k.perm then .name k.name else match k.body with
    | .alias t => t
    | _ => .name k.name

/-- The first expression with the given text. -/
def pick (ts : List TExpr) (s : Str) : TExpr := (ts.find? (fun t => t.print == s)).getD (.name s)

def aUnique (ts : List TExpr) : List TExpr := (uniqueTypes (ts.map TExpr.print)).map (pick ts)

def aTypes (kids : List AOut) : List TExpr := if kids.isEmpty then [.name py!"Any"] else kids.map aref

def aAlias (kids : List AOut) : TExpr := unionOf (aUnique (aTypes kids))

def aTuple (S : Strategies) (kids : List AOut) : TExpr :=
  match S.tuple with
  | .fixed => if (aTypes kids).map TExpr.print = [py!"Any"] then .tupleOf (.name py!"Any") else .tuple (aTypes kids)
  | .anySize => .tupleOf (aAlias kids)

/-- The container of a sequence. -/
def seqCon (S : Strategies) : SeqKind → Str
  | .list => match S.list with
    | .list => py!"List"
    | .sequence => py!"Sequence"
  | .set => py!"Set"
  | .frozenset => py!"FrozenSet"
  | .iterator => py!"Iterator"
  | .series => py!"pd.Series"
  | .tuple => py!"Tuple"

/-- The container of a mapping. -/
def mapCon (S : Strategies) (t : Ty) : Str :=
  if t.name = py!"mappingproxy" then py!"MappingProxyType" else match S.dict with
    | .typedDict | .dict => py!"Dict"
    | .mapping => py!"Mapping"

/-- The key type of a mapping. -/
def keyExpr (keys : List Key) : TExpr :=
  if keys.isEmpty then .name py!"Any" else unionOf ((uniqueTypes (keys.map (fun k => k.ty.name))).map .name)

def mapExpr (E : Env) (h : Hdr) (kids : List AOut) : TExpr :=
  .mapping (mapCon E.S h.ty) (keyExpr (h.slots.map (·.key))) (aAlias kids)

def aEntry (E : Env) (m : DMeta) (key : Str) (kid : AOut) : Entry :=
  { key
    required := (lookupKey (.str key) m.req).getD true
    readOnly := (lookupKey (.str key) m.req).isSome && E.S.readOnly
    type := if kid.perm then .name (toCamel E.U kid.name) else aref kid
    doc := (keyDoc m key).map (fun t => formatDoc t docWidth TAB) }

def aEntries (E : Env) (m : DMeta) (kids : List (Key × AOut)) : List Entry :=
  kids.filterMap fun kk => match kk.1 with
    | .str s => some (aEntry E m s kk.2)
    | _ => none

def recordBody (E : Env) (data : List (Key × Val)) (m : DMeta) (kids : List (Key × AOut)) : Body :=
  .record (isFunctional E.U m)
    ((classDoc E data).map (fun t => formatDoc t docWidth (if isFunctional E.U m then [] else TAB))) (aEntries E m kids)

def funcBody (f : FuncInfo) : Body :=
  match f.sig with
  | .typeError => .protocol []
  | .valueError => .alias (.name py!"Callable")
  | .ok args n =>
    if f.isLambda then .alias (.callable n)
    else .protocol (args ++ (if contains py!"->" args then py!": ..." else match f.source with
      | .unavailable | .unparsable => py!" -> None: ..."
      | .ret b => if b then py!" -> Any: ..." else py!" -> None: ..."))

def frameBody (E : Env) (kids : List (Key × AOut)) : Body :=
  if kids.isEmpty then .alias (.name py!"pd.DataFrame")
  else
    let literal := kids.filter (fun kk => literalKey kk.1)
    let ret := py!"        return super().__getitem__(key)"
    .frame (literal.map fun kk => (reprKey E kk.1, aref kk.2)) (match E.S.pandas with
      | .full =>
        let extra := if kids.all (fun kk => literalKey kk.1) then [] else py!", Hashable"
        frameGetItem (py!"Literal[" ++ join py!", " (literal.map (fun kk => reprKey E kk.1)) ++ py!"]" ++ extra) false ++ ret
      | _ => py!"    @overload\n" ++ frameGetItem py!"str" true ++ py!"        ...\n\n" ++ frameGetItem py!"str" true ++ ret)

def aBody (E : Env) (h : Hdr) (kids : List AOut) : Body :=
  let keyed := (h.slots.map (·.key)).zip kids
  let iter := iterate h.slots kids
  match h.kind with
  | .inst => .alias (atom E h.ty)
  | .func f => funcBody f
  | .cls n => .alias (.app py!"Type" (if E.isBuiltin n then .name n else .quoted n))
  | .module => .alias (.name py!"ModuleType")
  | .io => .alias (.name py!"TextIO")
  | .ndarray d => .alias (.quoted (py!"NDArray[np." ++ d ++ py!"]"))
  | .seq .tuple => .alias (aTuple E.S iter)
  | .seq k => .alias (.app (seqCon E.S k) (aAlias iter))
  | .dict data m => if m.isTyped E.S then recordBody E data m keyed else .alias (mapExpr E h iter)
  | .proxy => .alias (mapExpr E h iter)
  | .frame _ => frameBody E keyed

def aHeight (h : Hdr) (iter : List AOut) : Nat :=
  match h.kind with
  | .seq _ | .dict _ _ | .proxy | .frame _ => iter.foldl (fun m k => max k.height m) 0 + 1
  | _ => 0

def aEmit (h : Hdr) (perm : Bool) (top : TDecl) (kids : List AOut) : List TDecl :=
  if kids.isEmpty then (if h.root && perm then [top] else [])
  else (iterate h.slots kids).flatMap (fun k => k.emitted ++ (if k.perm then [k.decl] else [])) ++
    (if perm then [top] else [])

def aCombine (E : Env) (h : Hdr) (kids : List AOut) : AOut :=
  let height := aHeight h (iterate h.slots kids)
  let perm := permOf E.S h height
  let body := aBody E h kids
  { name := h.name, height, perm, body, emitted := aEmit h perm ⟨h.name, body⟩ kids }

mutual
/-- The abstract rendering of a tree. -/
def Node.abs (E : Env) : Node → AOut
  | .mk h kids => aCombine E h (absList E kids)
def absList (E : Env) : List Node → List AOut
  | [] => []
  | k :: r => k.abs E :: absList E r
end

/-! ### Correspondence with the text -/

/-- Headers without characters that spoil the text, and without functions that cannot be rendered. A frame with labels
that are not literals must not be nested (its class would be written inline). -/
def CleanHdr (E : Env) (h : Hdr) : Prop :=
  '=' ∉ h.name ∧ Word E.U h.ty.name ∧ (∀ s ∈ h.slots, '=' ∉ s.key.ty.name) ∧
  match h.kind with
  | .func f => FuncOk f
  | .cls n => '=' ∉ n
  | .ndarray d => '=' ∉ d
  | .frame i => i.literalLabels = true ∨ h.root = true
  | _ => True

structure Corr (o : Out) (a : AOut) : Prop where
  name : o.name = a.name
  height : o.height = a.height
  perm : o.perm = a.perm
  noeq : '=' ∉ (aref a).print
  ref : childRef o = (aref a).print
  top : o.perm = true → o.top.text = a.decl.print
  emitted : o.emitted.map (·.text) = a.emitted.map TDecl.print

theorem All₂.length_eq {α β} {R : α → β → Prop} {l l'} (h : All₂ R l l') : l.length = l'.length := by
  induction h with
  | nil => rfl
  | cons _ _ ih => simp [ih]

theorem All₂.map_eq {α β γ} {R : α → β → Prop} {f : α → γ} {g : β → γ} (hfg : ∀ a b, R a b → f a = g b) {l l'}
    (h : All₂ R l l') : l.map f = l'.map g := by
  induction h with
  | nil => rfl
  | cons h _ ih => simp [ih, hfg _ _ h]

theorem All₂.flatMap_eq {α β γ} {R : α → β → Prop} {f : α → List γ} {g : β → List γ} (hfg : ∀ a b, R a b → f a = g b)
    {l l'} (h : All₂ R l l') : l.flatMap f = l'.flatMap g := by
  induction h with
  | nil => rfl
  | cons h _ ih => simp [ih, hfg _ _ h]

theorem All₂.zip {α β γ} {R : α → β → Prop} {l l'} (h : All₂ R l l') (ks : List γ) :
    All₂ (fun (x : γ × α) (y : γ × β) => x.1 = y.1 ∧ R x.2 y.2) (ks.zip l) (ks.zip l') := by
  induction h generalizing ks with
  | nil => simp; exact .nil
  | cons h _ ih =>
    cases ks with
    | nil => simp; exact .nil
    | cons k r => simp only [List.zip_cons_cons]; exact .cons ⟨rfl, h⟩ (ih r)

theorem All₂.takeWhile {α β} {R : α → β → Prop} {p : α → Bool} {q : β → Bool} (hpq : ∀ a b, R a b → p a = q b) {l l'}
    (h : All₂ R l l') : All₂ R (l.takeWhile p) (l'.takeWhile q) := by
  induction h with
  | nil => exact .nil
  | cons h _ ih =>
    simp only [List.takeWhile_cons, hpq _ _ h]
    split
    · exact .cons h ih
    · exact .nil

theorem All₂.filter {α β} {R : α → β → Prop} {p : α → Bool} {q : β → Bool} (hpq : ∀ a b, R a b → p a = q b) {l l'}
    (h : All₂ R l l') : All₂ R (l.filter p) (l'.filter q) := by
  induction h with
  | nil => exact .nil
  | cons h _ ih =>
    simp only [List.filter_cons, hpq _ _ h]
    split
    · exact .cons h ih
    · exact ih

theorem All₂.map {α β γ δ} {R : α → β → Prop} {R' : γ → δ → Prop} {f : α → γ} {g : β → δ}
    (hfg : ∀ a b, R a b → R' (f a) (g b)) {l l'} (h : All₂ R l l') : All₂ R' (l.map f) (l'.map g) := by
  induction h with
  | nil => exact .nil
  | cons h _ ih => exact .cons (hfg _ _ h) ih

theorem All₂.append {α β} {R : α → β → Prop} {a c : List α} {b d : List β} (h : All₂ R a b) (h' : All₂ R c d) :
    All₂ R (a ++ c) (b ++ d) := by
  induction h with
  | nil => exact h'
  | cons hr _ ih => exact .cons hr ih

theorem All₂.isEmpty {α β} {R : α → β → Prop} {l l'} (h : All₂ R l l') : l.isEmpty = l'.isEmpty := by
  cases h <;> rfl

theorem All₂.mem_right {α β} {R : α → β → Prop} {l l'} (h : All₂ R l l') : ∀ b ∈ l', ∃ a ∈ l, R a b := by
  induction h with
  | nil => simp
  | cons h _ ih =>
    intro b hb
    rcases List.mem_cons.mp hb with rfl | hb
    · exact ⟨_, by simp, h⟩
    · obtain ⟨a, ha, hr⟩ := ih b hb
      exact ⟨a, by simp [ha], hr⟩

theorem All₂.all_eq {α β} {R : α → β → Prop} {p : α → Bool} {q : β → Bool} (hpq : ∀ a b, R a b → p a = q b) {l l'}
    (h : All₂ R l l') : l.all p = l'.all q := by
  induction h with
  | nil => rfl
  | cons h _ ih => simp [ih, hpq _ _ h]

theorem All₂.iterate {α β} {R : α → β → Prop} {l l'} (h : All₂ R l l') (slots : List Slot) :
    All₂ R (iterate slots l) (iterate slots l') := by
  unfold Verif.iterate
  apply All₂.map (R := fun (x : Slot × α) (y : Slot × β) => x.1 = y.1 ∧ R x.2 y.2) (fun _ _ h => h.2)
  apply All₂.takeWhile _ (h.zip slots)
  rintro a b ⟨e, _⟩
  rw [e]

theorem pick_print {ts : List TExpr} {s : Str} (h : s ∈ ts.map TExpr.print) : (pick ts s).print = s ∧ pick ts s ∈ ts := by
  unfold pick
  cases hf : ts.find? (fun t => t.print == s) with
  | none =>
    rw [List.find?_eq_none] at hf
    obtain ⟨t, ht, rfl⟩ := List.mem_map.mp h
    have := hf t ht
    simp at this
  | some t =>
    have h1 := List.find?_some hf
    have h2 := List.mem_of_find?_eq_some hf
    simp only [beq_iff_eq] at h1
    exact ⟨h1, h2⟩

theorem aUnique_print (ts : List TExpr) : (aUnique ts).map TExpr.print = uniqueTypes (ts.map TExpr.print) := by
  unfold aUnique
  rw [List.map_map]
  conv => rhs; rw [← List.map_id (uniqueTypes _)]
  apply List.map_congr_left
  intro s hs
  exact (pick_print (mem_uniqueTypes.mp hs).1).1

theorem aUnique_mem {ts : List TExpr} {t : TExpr} (h : t ∈ aUnique ts) : t ∈ ts := by
  unfold aUnique at h
  obtain ⟨s, hs, rfl⟩ := List.mem_map.mp h
  exact (pick_print (mem_uniqueTypes.mp hs).1).2

theorem uniqueTypes_any : uniqueTypes [py!"Any"] = [py!"Any"] := by decide

theorem childTypes_abs {kids : List Out} {kids' : List AOut} (h : All₂ Corr kids kids') (b : Bool) :
    (childTypes kids b).1 = if b then (aUnique (aTypes kids')).map TExpr.print else (aTypes kids').map TExpr.print := by
  have hr := h.map_eq (f := childRef) (g := fun a => (aref a).print) (fun a b hab => hab.ref)
  have hp : (aTypes kids').map TExpr.print = if kids'.isEmpty then [py!"Any"] else kids.map childRef := by
    unfold aTypes
    split
    · rfl
    · rw [hr, List.map_map]; rfl
  unfold childTypes
  dsimp only
  rw [aUnique_print, hp]
  have he : (kids.map childRef).isEmpty = kids'.isEmpty := by rw [← h.isEmpty]; cases kids <;> rfl
  rw [he]
  cases kids'.isEmpty <;> cases b <;> rfl

theorem aliasChildren_abs {kids : List Out} {kids' : List AOut} (h : All₂ Corr kids kids') :
    (aliasChildren kids).1 = (aAlias kids').print := by
  unfold aliasChildren aAlias
  dsimp only
  rw [childTypes_abs h, if_pos rfl, formatTypes_print]

theorem uniqueTypes_sorted' (ts : List Str) : sortStr (uniqueTypes ts) = uniqueTypes ts := by
  have hss : ∀ l : List Str, sortStr (sortStr l) = sortStr l := fun l => sortStr_eq_of_perm (sortStr_perm l)
  unfold uniqueTypes
  dsimp only
  split
  · exact hss _
  · exact hss _

theorem uniqueTypes_nodup' (ts : List Str) : (uniqueTypes ts).Nodup := by
  have h : (sortStr (dedup ts)).Nodup := (sortStr_perm _).nodup_iff.mpr (nodup_dedup ts)
  unfold uniqueTypes
  dsimp only
  split
  · exact (sortStr_perm _).nodup_iff.mpr (h.erase _)
  · exact h

theorem formatTypes_ellipsis (ts : List Str) : (if ts = [py!"Any"] then py!"Any, ..." else match ts with
      | [t] => t ++ py!", ..."
      | us => py!"Union[" ++ join py!", " us ++ py!"], ...") = (formatTypes ts).1 ++ py!", ..." := by
  match ts with
  | [] => rfl
  | [t] =>
    simp only [formatTypes]
    split
    · rename_i h; injection h with h; subst h; rfl
    · rfl
  | a :: b :: r => simp [formatTypes]

theorem tupleAlias_abs {S : Strategies} {kids : List Out} {kids' : List AOut} (h : All₂ Corr kids kids') :
    py!"Tuple[" ++ (tupleAliasChildren S kids).1 ++ py!"]" = (aTuple S kids').print := by
  unfold tupleAliasChildren aTuple
  cases S.tuple with
  | fixed =>
    dsimp only
    rw [childTypes_abs h]
    simp only [Bool.false_eq_true, if_false]
    split
    · simp [TExpr.print]
    · simp [TExpr.print, printList_eq_map]
  | anySize =>
    dsimp only
    rw [childTypes_abs h]
    simp only [if_true]
    rw [aUnique_print]
    rw [dedup_of_nodup (uniqueTypes_nodup' _)]
    have e := formatTypes_ellipsis (uniqueTypes ((aTypes kids').map TExpr.print))
    simp only [TExpr.print, aAlias, ← formatTypes_print, aUnique_print]
    generalize hu : uniqueTypes ((aTypes kids').map TExpr.print) = us at e ⊢
    have hso : sortStr us = us := by rw [← hu]; exact uniqueTypes_sorted' _
    by_cases ha : us = [py!"Any"]
    · rw [if_pos ha] at e ⊢; dsimp only; rw [e]; simp
    · rw [if_neg ha] at e ⊢
      match us, hso, e with
      | [], _, e => simp at e ⊢; simp [sortStr, sortBy, formatTypes]
      | [t], _, e => simp [formatTypes]
      | a :: b :: r, hso, e => dsimp only; rw [hso]; simp [formatTypes]

theorem foldl_height {kids : List Out} {kids' : List AOut} (h : All₂ Corr kids kids') : ∀ m,
    kids.foldl (fun m k => max k.height m) m = kids'.foldl (fun m k => max k.height m) m := by
  induction h with
  | nil => intro m; rfl
  | cons h _ ih => intro m; simp only [List.foldl_cons]; rw [ih, h.height]

theorem dropLast_flatMap_nl {α} (f : α → Str) : ∀ (l : List α), l ≠ [] →
    (l.flatMap (fun a => f a ++ py!"\n")).dropLast = join py!"\n" (l.map f)
  | [a], _ => by simp
  | a :: b :: r, _ => by
    have ih := dropLast_flatMap_nl f (b :: r) (by simp)
    rw [List.flatMap_cons, List.dropLast_append_of_ne_nil (by simp), ih]
    simp [join_cons_cons]

/-- Text that survives `split("=")[-1].strip()`. -/
def OkText (s : Str) : Prop :=
  '=' ∉ s ∧ (∀ c, s.head? = some c → isSpace c = false) ∧ (∀ c, s.getLast? = some c → isSpace c = false)

theorem okText_bracket {con x : Str} (h0 : con ≠ []) (h1 : '=' ∉ con) (h2 : ∀ c, con.head? = some c → isSpace c = false)
    (h3 : '=' ∉ x) : OkText (con ++ py!"[" ++ x ++ py!"]") := by
  refine ⟨by simp [h1, h3], ?_, ?_⟩
  · intro c hc
    cases con with
    | nil => exact absurd rfl h0
    | cons d r => simp at hc; subst hc; exact h2 d rfl
  · intro c hc
    simp only [List.getLast?_append, List.getLast?_singleton, Option.some_or, Option.some.injEq] at hc
    subst hc; decide

theorem noeq_unionOf {ts : List TExpr} (h : ∀ t ∈ ts, '=' ∉ t.print) : '=' ∉ (unionOf ts).print := by
  rw [← formatTypes_print]
  unfold formatTypes
  split
  · rename_i t he
    have : t ∈ ts.map TExpr.print := by rw [he]; simp
    obtain ⟨u, hu, rfl⟩ := List.mem_map.mp this
    exact h u hu
  · intro hm
    simp only [List.mem_append] at hm
    rcases hm with (hm | hm) | hm
    · revert hm; decide
    · rcases mem_join hm with hm | ⟨x, hx, hm⟩
      · revert hm; decide
      · obtain ⟨u, hu, rfl⟩ := List.mem_map.mp hx
        exact h u hu hm
    · revert hm; decide

theorem aTypes_noeq {kids : List AOut} (h : ∀ k ∈ kids, '=' ∉ (aref k).print) : ∀ t ∈ aTypes kids, '=' ∉ t.print := by
  intro t ht
  unfold aTypes at ht
  split at ht
  · simp only [List.mem_singleton] at ht; subst ht; decide
  · obtain ⟨k, hk, rfl⟩ := List.mem_map.mp ht
    exact h k hk

theorem aAlias_noeq {kids : List AOut} (h : ∀ k ∈ kids, '=' ∉ (aref k).print) : '=' ∉ (aAlias kids).print :=
  noeq_unionOf (fun _ ht => aTypes_noeq h _ (aUnique_mem ht))

theorem noeq_join {l : List Str} (h : ∀ x ∈ l, '=' ∉ x) : '=' ∉ join py!", " l := by
  intro hm
  rcases mem_join hm with hm | ⟨x, hx, hm⟩
  · revert hm; decide
  · exact h x hx hm

theorem aTuple_ok {S : Strategies} {kids : List AOut} (h : ∀ k ∈ kids, '=' ∉ (aref k).print) : OkText (aTuple S kids).print := by
  have h1 : ∀ x : Str, '=' ∉ x → OkText (py!"Tuple[" ++ x ++ py!"]") := fun x hx =>
    okText_bracket (con := py!"Tuple") (by decide) (by decide) (by decide) hx
  unfold aTuple
  cases S.tuple with
  | fixed =>
    dsimp only
    split
    · have := h1 (py!"Any, ...") (by decide)
      simpa [TExpr.print] using this
    · simp only [TExpr.print, printList_eq_map]
      apply h1
      apply noeq_join
      intro x hx
      obtain ⟨t, ht, rfl⟩ := List.mem_map.mp hx
      exact aTypes_noeq h t ht
  | anySize =>
    have := h1 ((aAlias kids).print ++ py!", ...") (by simp [aAlias_noeq h])
    simpa [TExpr.print] using this

theorem keyExpr_noeq {keys : List Key} (h : ∀ k ∈ keys, '=' ∉ k.ty.name) : '=' ∉ (keyExpr keys).print := by
  unfold keyExpr
  split
  · decide
  · apply noeq_unionOf
    intro t ht
    obtain ⟨s, hs, rfl⟩ := List.mem_map.mp ht
    obtain ⟨k, hk, rfl⟩ := List.mem_map.mp (mem_uniqueTypes.mp hs).1
    exact h k hk

theorem seqCon_ok (S : Strategies) (k : SeqKind) :
    seqCon S k ≠ [] ∧ '=' ∉ seqCon S k ∧ ∀ c, (seqCon S k).head? = some c → isSpace c = false := by
  cases k <;> simp only [seqCon]
  · cases S.list <;> decide
  all_goals decide

theorem mapCon_ok (S : Strategies) (t : Ty) :
    mapCon S t ≠ [] ∧ '=' ∉ mapCon S t ∧ ∀ c, (mapCon S t).head? = some c → isSpace c = false := by
  unfold mapCon
  split
  · decide
  · cases S.dict <;> decide

theorem mapExpr_ok {E : Env} {h : Hdr} {kids : List AOut} (hk : ∀ k ∈ kids, '=' ∉ (aref k).print)
    (hs : ∀ s ∈ h.slots, '=' ∉ s.key.ty.name) : OkText (mapExpr E h kids).print := by
  have hc := mapCon_ok E.S h.ty
  have h1 : '=' ∉ (keyExpr (h.slots.map (·.key))).print := by
    apply keyExpr_noeq
    intro k hk
    obtain ⟨s, hs', rfl⟩ := List.mem_map.mp hk
    exact hs s hs'
  have := okText_bracket (x := (keyExpr (h.slots.map (·.key))).print ++ py!", " ++ (aAlias kids).print) hc.1 hc.2.1 hc.2.2
    (by simp [h1, aAlias_noeq hk])
  simpa [mapExpr, TExpr.print] using this

/-- What `Corr` needs of a declaration. -/
def TopCorr (perm : Bool) (text : Str) (name : Str) (b : Body) : Prop :=
  (perm = true → text = TDecl.print ⟨name, b⟩) ∧
  (perm = false → ∃ t a, b = .alias t ∧ text = a ++ py!" = " ++ t.print ∧ OkText t.print)

theorem topCorr_alias {perm : Bool} {text name : Str} {t : TExpr} (h1 : text = name ++ typeAlias ++ t.print)
    (h2 : OkText t.print) : TopCorr perm text name (.alias t) := by
  refine ⟨fun _ => h1, fun _ => ⟨t, name ++ py!": TypeAlias", rfl, ?_, h2⟩⟩
  rw [h1, typeAlias]; simp

theorem topCorr_perm {text name : Str} {b : Body} (h : text = TDecl.print ⟨name, b⟩) : TopCorr true text name b :=
  ⟨fun _ => h, fun h => by cases h⟩

section
variable {E : Env} {im : Str → List Str}

theorem inst_corr {h : Hdr} (hw : Word E.U h.ty.name) :
    TopCorr h.root (instTop E h).1 h.name (.alias (atom E h.ty)) := by
  have hok : OkText (atom E h.ty).print := ⟨atom_noeq hw, atom_head hw, atom_last hw⟩
  unfold instTop
  dsimp only
  by_cases hn : h.ty = .noneType
  · rw [if_pos hn]
    apply topCorr_alias _ hok
    simp [atom, hn, TExpr.print]
  · rw [if_neg hn]
    cases hr : h.root with
    | true =>
      simp only [if_true]
      apply topCorr_alias _ hok
      unfold atom; rw [if_neg hn]; split <;> simp [TExpr.print]
    | false =>
      refine ⟨fun h => (by cases h), fun _ => ⟨_, h.name, rfl, ?_, hok⟩⟩
      simp only [Bool.false_eq_true, if_false]
      unfold atom; rw [if_neg hn]; split <;> simp [TExpr.print]

theorem func_corr {name : Str} {f : FuncInfo} (hf : FuncOk f) :
    (funcTop im name f).text = TDecl.print ⟨name, funcBody f⟩ := by
  unfold funcTop funcBody
  cases hs : f.sig with
  | typeError => exact absurd hs hf.1
  | valueError => simp [TDecl.print, TExpr.print, typeAlias]
  | ok args n =>
    dsimp only
    split
    · simp [TDecl.print, TExpr.print, typeAlias]
    · rename_i hl
      split
      · simp [TDecl.print]
      · rename_i hc
        cases hsrc : f.source with
        | unavailable => exact absurd hsrc (hf.2 args n hs (by simpa using hl) (by simpa using hc))
        | unparsable => simp [TDecl.print]
        | ret b => cases b <;> simp [TDecl.print]

theorem entryType_abs {m : DMeta} {key : Str} {o : Out} {a : AOut} (h : Corr o a) :
    (entryType E m key o).1 = (aEntry E m key a).typeText := by
  have hr := h.ref
  unfold entryType aEntry Entry.typeText
  dsimp only
  have ht : (if o.perm then (toCamel E.U o.name, []) else (withoutLvalue o.top.text, o.top.kws) : Str × List Str).1 =
      (if a.perm then TExpr.name (toCamel E.U a.name) else aref a).print := by
    rw [← h.perm, ← h.name]
    cases hp : o.perm with
    | true => simp [TExpr.print]
    | false =>
      simp only [Bool.false_eq_true, if_false]
      rw [← hr, childRef, hp]; simp
  generalize (if o.perm then (toCamel E.U o.name, []) else (withoutLvalue o.top.text, o.top.kws) : Str × List Str) = x at ht ⊢
  generalize (if a.perm then TExpr.name (toCamel E.U a.name) else aref a) = t at ht ⊢
  cases hl : lookupKey (.str key) m.req with
  | none => simp [ht]
  | some r => cases r <;> cases E.S.readOnly <;> simp [ht]

/-- The entries computed by `typedTop`. -/
def textEntries (E : Env) (m : DMeta) (zk : List (Key × Out)) : List (Str × Str) :=
  (zk.filterMap fun kk => match kk.1 with
    | .str s => some (s, entryType E m s kk.2)
    | _ => none).map (fun e => (e.1, e.2.1))

theorem typedTop_text {h : Hdr} {data : List (Key × Val)} {m : DMeta} {zk : List (Key × Out)} :
    (typedTop E h data m zk).1 = if isFunctional E.U m then functionalText h.name (textEntries E m zk) (classDoc E data)
      else classText m h.name (textEntries E m zk) (classDoc E data) := rfl

/-- The docstring printed below a key in class syntax. -/
def entryDoc (m : DMeta) (key : Str) : Option Str := (keyDoc m key).map (fun t => formatDoc t docWidth TAB)

/-- The docstring of the class. -/
def recordDoc (E : Env) (m : DMeta) (data : List (Key × Val)) : Option Str :=
  (classDoc E data).map (fun t => formatDoc t docWidth (if isFunctional E.U m then [] else TAB))

def rawEntries (E : Env) (m : DMeta) (zk : List (Key × Out)) : List RawEntry :=
  (textEntries E m zk).map (fun e => ⟨e.1, e.2, entryDoc m e.1⟩)

def classLine (m : DMeta) (kv : Str × Str) : Str :=
  py!"    " ++ kv.1 ++ py!": " ++ kv.2 ++
    (match keyDoc m kv.1 with
     | some t => py!"\n" ++ formatDoc t docWidth TAB ++ py!"\n"
     | none => py!"\n")

theorem classText_eq {m : DMeta} {name : Str} {content : List (Str × Str)} {doc : Option Str} :
    classText m name content doc = join py!"\n" (match doc with
      | some t => [py!"class " ++ name ++ py!"(TypedDict):", formatDoc t docWidth TAB ++ py!"\n",
          if (content.flatMap (classLine m)).isEmpty then py!"    ..." else (content.flatMap (classLine m)).dropLast]
      | none => [py!"class " ++ name ++ py!"(TypedDict):",
          if (content.flatMap (classLine m)).isEmpty then py!"    ..." else (content.flatMap (classLine m)).dropLast]) := rfl

theorem flatMap_congr' {α β} {f g : α → List β} : ∀ {l : List α}, (∀ a ∈ l, f a = g a) → l.flatMap f = l.flatMap g
  | [], _ => rfl
  | a :: r, h => by
    simp only [List.flatMap_cons]
    rw [h a (by simp), flatMap_congr' (l := r) (fun a ha => h a (by simp [ha]))]

/-- The text of a TypedDict, whatever the texts of its children are. -/
theorem typed_raw {h : Hdr} {data : List (Key × Val)} {m : DMeta} {zk : List (Key × Out)} :
    (typedTop E h data m zk).1 = recordText h.name (isFunctional E.U m) (recordDoc E m data) (rawEntries E m zk) := by
  rw [typedTop_text]
  unfold rawEntries recordDoc
  generalize textEntries E m zk = es
  cases hf : isFunctional E.U m with
  | true =>
    simp only [if_true]
    unfold functionalText recordText
    dsimp only
    have : ((es.flatMap fun kv => py!"        \"" ++ kv.1 ++ py!"\": " ++ kv.2 ++ py!",\n").dropLast) =
        join py!"\n" ((es.map (fun e => (⟨e.1, e.2, entryDoc m e.1⟩ : RawEntry))).map RawEntry.functionalText) := by
      cases es with
      | nil => rfl
      | cons e r =>
        rw [← dropLast_flatMap_nl _ _ (by simp), List.flatMap_map]
        congr 1
        apply congrArg (fun f => List.flatMap f _)
        funext x
        simp [RawEntry.functionalText]
    rw [this]
    cases classDoc E data <;> simp [join_cons_cons]
  | false =>
    simp only [Bool.false_eq_true, if_false]
    rw [classText_eq]
    unfold recordText
    have hfm : es.flatMap (classLine m) =
        (es.map (fun e => (⟨e.1, e.2, entryDoc m e.1⟩ : RawEntry))).flatMap (fun e => e.classText ++ py!"\n") := by
      rw [List.flatMap_map]
      apply flatMap_congr'
      intro e he
      unfold RawEntry.classText classLine entryDoc
      dsimp only
      cases keyDoc m e.1 <;> simp
    rw [hfm]
    cases es with
    | nil => cases classDoc E data <;> simp [join_cons_cons]
    | cons e r =>
      generalize hr : List.map (fun e => (⟨e.1, e.2, entryDoc m e.1⟩ : RawEntry)) (e :: r) = rs
      cases rs with
      | nil => simp at hr
      | cons e' r' =>
        have hne : ((e' :: r').flatMap (fun e => e.classText ++ py!"\n")).isEmpty = false := by
          simp
        rw [hne]
        simp only [Bool.false_eq_true, if_false]
        rw [dropLast_flatMap_nl _ _ (by simp)]
        cases classDoc E data <;> simp [join_cons_cons]

theorem typed_corr {h : Hdr} {data : List (Key × Val)} {m : DMeta} {kids : List Out} {kids' : List AOut}
    (hk : All₂ Corr kids kids') :
    (typedTop E h data m ((h.slots.map (·.key)).zip kids)).1 =
      TDecl.print ⟨h.name, recordBody E data m ((h.slots.map (·.key)).zip kids')⟩ := by
  have hz := hk.zip (h.slots.map (·.key))
  generalize (h.slots.map (·.key)).zip kids = zk at hz ⊢
  generalize (h.slots.map (·.key)).zip kids' = zk' at hz ⊢
  have hc : rawEntries E m zk = (aEntries E m zk').map Entry.raw := by
    unfold rawEntries aEntries textEntries
    clear hk
    induction hz with
    | nil => rfl
    | @cons a b l1 l2 h1 _ ih =>
      obtain ⟨ka, oa⟩ := a
      obtain ⟨kb, ob⟩ := b
      obtain ⟨e1, h1⟩ := h1
      dsimp only at e1; subst e1
      cases ka with
      | str s => simp only [List.filterMap_cons, List.map_cons, ih]; rw [entryType_abs h1]; rfl
      | none => simp only [List.filterMap_cons, ih]
      | other t r => simp only [List.filterMap_cons, ih]
  rw [typed_raw, hc]
  rfl

theorem frame_corr {h : Hdr} {kids : List Out} {kids' : List AOut} (hk : All₂ Corr kids kids') :
    (frameTop E h ((h.slots.map (·.key)).zip kids)).1 =
      TDecl.print ⟨h.name, frameBody E ((h.slots.map (·.key)).zip kids')⟩ := by
  have hz := hk.zip (h.slots.map (·.key))
  generalize (h.slots.map (·.key)).zip kids = zk at hz ⊢
  generalize (h.slots.map (·.key)).zip kids' = zk' at hz ⊢
  unfold frameTop frameBody
  rw [hz.isEmpty]
  cases he : zk'.isEmpty with
  | true => simp [TDecl.print, TExpr.print, typeAlias]
  | false =>
    simp only [Bool.false_eq_true, if_false]
    have hfil := hz.filter (p := fun kk => literalKey kk.1) (q := fun kk => literalKey kk.1) (by rintro a b ⟨e, _⟩; rw [e])
    have ho := hfil.map_eq (f := fun kk => frameOverload E kk.1 (childRef kk.2))
      (g := fun kk => frameOverload E kk.1 (aref kk.2).print) (by rintro a b ⟨e, hc⟩; rw [e, hc.ref])
    have hr := hfil.map_eq (f := fun kk => reprKey E kk.1) (g := fun kk => reprKey E kk.1) (by rintro a b ⟨e, _⟩; rw [e])
    have ha := hz.all_eq (p := fun kk => literalKey kk.1) (q := fun kk => literalKey kk.1) (by rintro a b ⟨e, _⟩; rw [e])
    rw [ho, hr, ha]
    unfold TDecl.print
    simp only [List.map_map]
    cases E.S.pandas <;> simp [frameOverload, Function.comp_def]

theorem map_corr {h : Hdr} {kids : List Out} {kids' : List AOut} (hk : All₂ Corr kids kids')
    (hs : h.slots = [] → kids = []) :
    (mapTop E h (h.slots.map (·.key)) kids).1 = h.name ++ typeAlias ++ (mapExpr E h kids').print := by
  have hv := aliasChildren_abs hk
  have hkeys : (formatTypes (if (h.slots.map (·.key)).isEmpty then childTypes kids true
      else (uniqueTypes ((h.slots.map (·.key)).map (fun k => k.ty.name)), [])).1).1 = (keyExpr (h.slots.map (·.key))).print := by
    unfold keyExpr
    cases he : (h.slots.map (·.key)).isEmpty with
    | true =>
      have h1 : h.slots = [] := by simpa using he
      have h2 := hs h1
      subst h2
      simp only [if_true]
      decide
    | false =>
      simp only [Bool.false_eq_true, if_false]
      rw [← formatTypes_print, List.map_map, List.map_map]
      congr 2
      exact (List.map_id _).symm
  unfold mapTop mapExpr
  dsimp only
  rw [hkeys, hv]
  simp only [TExpr.print, mapCon]
  split
  · simp
  · cases E.S.dict <;> simp

theorem iterate_nil {α} {kids : List α} : iterate [] kids = [] := by simp [iterate]

theorem corr_noeq {kids : List Out} {kids' : List AOut} (hk : All₂ Corr kids kids') : ∀ k ∈ kids', '=' ∉ (aref k).print := by
  intro k hk'
  obtain ⟨o, _, ho⟩ := hk.mem_right k hk'
  exact ho.noeq

theorem seq_corr {perm : Bool} {h : Hdr} {con : Str} {kids : List Out} {kids' : List AOut} (hk : All₂ Corr kids kids')
    (hc : con ≠ [] ∧ '=' ∉ con ∧ ∀ c, con.head? = some c → isSpace c = false) :
    TopCorr perm (h.name ++ typeAlias ++ con ++ py!"[" ++ (aliasChildren kids).1 ++ py!"]") h.name
      (.alias (.app con (aAlias kids'))) := by
  apply topCorr_alias
  · rw [aliasChildren_abs hk]; simp [TExpr.print]
  · simp only [TExpr.print]
    exact okText_bracket hc.1 hc.2.1 hc.2.2 (aAlias_noeq (corr_noeq hk))

theorem top_corr {h : Hdr} {kids : List Out} {kids' : List AOut} (hh : CleanHdr E h) (hk : All₂ Corr kids kids')
    (height : Nat) : TopCorr (permOf E.S h height) (topOf E im h kids).text h.name (aBody E h kids') := by
  obtain ⟨hname, hty, hslots, hkind⟩ := hh
  have hit := hk.iterate h.slots
  have hno := corr_noeq hit
  have hq : ∀ {n : Str}, '=' ∉ n → '=' ∉ (if E.isBuiltin n then TExpr.name n else TExpr.quoted n).print := by
    intro n hn; split <;> simp [TExpr.print, hn]
  unfold topOf aBody permOf
  cases hkd : h.kind with
  | inst => exact inst_corr hty
  | func f =>
    rw [hkd] at hkind
    exact topCorr_perm (func_corr hkind)
  | cls n =>
    rw [hkd] at hkind
    apply topCorr_alias
    · dsimp only; split <;> simp [TExpr.print]
    · simp only [TExpr.print]
      exact okText_bracket (con := py!"Type") (by decide) (by decide) (by decide) (hq hkind)
  | module =>
    exact topCorr_alias (by simp [TExpr.print]) (by simp only [TExpr.print]; unfold OkText; decide)
  | io =>
    exact topCorr_alias (by simp [TExpr.print]) (by simp only [TExpr.print]; unfold OkText; decide)
  | ndarray d =>
    rw [hkd] at hkind
    apply topCorr_alias
    · simp [TExpr.print]
    · simp only [TExpr.print]
      refine ⟨by simp [hkind], ?_, ?_⟩
      · intro c hc; simp at hc; subst hc; decide
      · intro c hc
        simp only [List.getLast?_append, List.getLast?_singleton, Option.some_or, Option.some.injEq] at hc
        subst hc; decide
  | seq k =>
    cases k with
    | tuple =>
      apply topCorr_alias
      · dsimp only; rw [← tupleAlias_abs hit]; simp
      · exact aTuple_ok hno
    | list =>
      cases hl : E.S.list with
      | list => simpa [seqCon, hl] using seq_corr (h := h) hit (seqCon_ok E.S .list)
      | sequence => simpa [seqCon, hl] using seq_corr (h := h) hit (seqCon_ok E.S .list)
    | set => simpa [seqCon] using seq_corr (h := h) hit (seqCon_ok E.S .set)
    | frozenset => simpa [seqCon] using seq_corr (h := h) hit (seqCon_ok E.S .frozenset)
    | iterator => simpa [seqCon] using seq_corr (h := h) hit (seqCon_ok E.S .iterator)
    | series => simpa [seqCon] using seq_corr (h := h) hit (seqCon_ok E.S .series)
  | dict data m =>
    dsimp only
    cases ht : m.isTyped E.S with
    | true =>
      simp only [if_true, Bool.true_or]
      exact topCorr_perm (typed_corr hk)
    | false =>
      simp only [Bool.false_eq_true, if_false]
      apply topCorr_alias
      · exact map_corr hit (fun h' => by rw [h', iterate_nil])
      · exact mapExpr_ok hno hslots
  | proxy =>
    apply topCorr_alias
    · exact map_corr hit (fun h' => by rw [h', iterate_nil])
    · exact mapExpr_ok hno hslots
  | frame i =>
    rw [hkd] at hkind
    have : (i.literalLabels || (h.root || decide (height > E.S.minHeight))) = true := by
      rcases hkind with h' | h' <;> simp [h']
    dsimp only
    rw [this]
    exact topCorr_perm (frame_corr hk)

theorem combine_corr {h : Hdr} {kids : List Out} {kids' : List AOut} (hh : CleanHdr E h) (hk : All₂ Corr kids kids') :
    Corr (combine E im h kids) (aCombine E h kids') := by
  have hit := hk.iterate h.slots
  have hheight : heightOf h (iterate h.slots kids) = aHeight h (iterate h.slots kids') := by
    unfold heightOf aHeight
    rw [foldl_height hit 0]
    cases h.kind <;> rfl
  have ht := top_corr (im := im) hh hk (aHeight h (iterate h.slots kids'))
  have href : childRef (combine E im h kids) = (aref (aCombine E h kids')).print ∧ '=' ∉ (aref (aCombine E h kids')).print := by
    unfold childRef aref combine aCombine
    dsimp only
    rw [hheight]
    by_cases hp : permOf E.S h (aHeight h (iterate h.slots kids')) = true
    · simp only [hp, if_true, TExpr.print, true_and]; exact hh.1
    · simp only [hp]
      obtain ⟨t, a, h1, h2, h3⟩ := ht.2 (by simpa using hp)
      rw [h1, h2]
      exact ⟨withoutLvalue_eq h3.1 h3.2.1 h3.2.2, h3.1⟩
  refine ⟨rfl, hheight, ?_, href.2, href.1, ?_, ?_⟩
  · simp only [combine, aCombine, hheight]
  · intro hp
    simp only [combine, hheight] at hp
    exact ht.1 hp
  · simp only [combine, aCombine, emitOf, aEmit]
    rw [hheight]
    have htop : permOf E.S h (aHeight h (iterate h.slots kids')) = true →
        (topOf E im h kids).text = TDecl.print ⟨h.name, aBody E h kids'⟩ := ht.1
    rw [hk.isEmpty]
    generalize permOf E.S h (aHeight h (iterate h.slots kids')) = p at htop ⊢
    have hfm : ((iterate h.slots kids).flatMap (fun k => k.emitted ++ (if k.perm then [k.top] else []))).map (·.text) =
        ((iterate h.slots kids').flatMap (fun k => k.emitted ++ (if k.perm then [k.decl] else []))).map TDecl.print := by
      rw [List.map_flatMap, List.map_flatMap]
      apply hit.flatMap_eq
      intro o a hc
      simp only [List.map_append, hc.emitted, hc.perm]
      congr 1
      split
      · rename_i hp
        simp only [List.map_cons, List.map_nil]
        rw [hc.top (by rw [hc.perm]; exact hp)]
      · rfl
    split
    · cases p with
      | false => simp
      | true =>
        cases h.root with
        | false => simp
        | true => simp [htop]
    · simp only [List.map_append, hfm]
      cases p with
      | false => simp
      | true => simp [htop]

end

mutual
/-- The text generated for a clean tree is the printed form of its abstract rendering. -/
theorem out_corr {E : Env} {im : Str → List Str} : ∀ {n : Node}, NodeAll (CleanHdr E) n → Corr (n.out E im) (n.abs E)
  | .mk h kids => by
    intro hn
    simp only [NodeAll] at hn
    rw [Node.out, Node.abs]
    exact combine_corr hn.1 (outList_corr hn.2)
theorem outList_corr {E : Env} {im : Str → List Str} : ∀ {l : List Node}, NodeAllList (CleanHdr E) l →
    All₂ Corr (outList E im l) (absList E l)
  | [] => fun _ => by rw [outList, absList]; exact .nil
  | n :: r => by
    intro hn
    simp only [NodeAllList] at hn
    rw [outList, absList]
    exact .cons (out_corr hn.1) (outList_corr hn.2)
end

end Verif
