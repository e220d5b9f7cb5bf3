import Verif.Lemmas.Scope
import Verif.Lemmas.Clean
import Verif.Lemmas.Sound
import Verif.Spec.Quoted
/-
Where quoted names in declarations come from.
-/
namespace Verif
open Verif.Spec

theorem mem_quotesList {x : Str} : ∀ {ts : List TExpr}, x ∈ quotesList ts ↔ ∃ t ∈ ts, x ∈ t.quotes
  | [] => by simp [quotesList]
  | t :: r => by simp [quotesList, mem_quotesList (ts := r)]

theorem unionOf_quotes {ts : List TExpr} {x : Str} (h : x ∈ (unionOf ts).quotes) : ∃ t ∈ ts, x ∈ t.quotes := by
  match ts with
  | [] => simp [unionOf, TExpr.quotes, quotesList] at h
  | [t] => exact ⟨t, by simp, h⟩
  | a :: b :: r =>
    simp only [unionOf, TExpr.quotes] at h
    exact mem_quotesList.mp h

/-- Quoted names of the children. -/
def QuotedBelow (kids : List AOut) (x : Str) : Prop := ∃ k ∈ kids, x ∈ (aref k).quotes

theorem aTypes_quotes {kids : List AOut} {t : TExpr} (ht : t ∈ aTypes kids) {x : Str} (hx : x ∈ t.quotes) : QuotedBelow kids x := by
  unfold aTypes at ht
  split at ht
  · simp only [List.mem_singleton] at ht
    subst ht
    simp [TExpr.quotes] at hx
  · obtain ⟨k, hk, rfl⟩ := List.mem_map.mp ht
    exact ⟨k, hk, hx⟩

theorem aAlias_quotes {kids : List AOut} {x : Str} (hx : x ∈ (aAlias kids).quotes) : QuotedBelow kids x := by
  obtain ⟨t, ht, hx⟩ := unionOf_quotes hx
  exact aTypes_quotes (aUnique_mem ht) hx

theorem aTuple_quotes {S : Strategies} {kids : List AOut} {x : Str} (hx : x ∈ (aTuple S kids).quotes) : QuotedBelow kids x := by
  unfold aTuple at hx
  split at hx
  · split at hx
    · simp [TExpr.quotes] at hx
    · simp only [TExpr.quotes] at hx
      obtain ⟨t, ht, hx⟩ := mem_quotesList.mp hx
      exact aTypes_quotes ht hx
  · simp only [TExpr.quotes] at hx
    exact aAlias_quotes hx

theorem keyExpr_quotes {keys : List Key} {x : Str} : x ∉ (keyExpr keys).quotes := by
  intro hx
  unfold keyExpr at hx
  split at hx
  · simp [TExpr.quotes] at hx
  · obtain ⟨t, ht, hx⟩ := unionOf_quotes hx
    obtain ⟨s, hs, rfl⟩ := List.mem_map.mp ht
    simp [TExpr.quotes] at hx

/-- The quoted names that a node itself writes all satisfy `Q`. -/
def QuotedHdr (E : Env) (Q : Str → Prop) (h : Hdr) : Prop :=
  match h.kind with
  | .inst => h.ty = .noneType ∨ E.isBuiltin h.ty.name = true ∨ Q h.ty.name
  | .cls n => E.isBuiltin n = true ∨ Q n
  | .ndarray d => Q (py!"NDArray[np." ++ d ++ py!"]")
  | _ => True

theorem body_quotes {E : Env} {Q : Str → Prop} {h : Hdr} {kids : List AOut} (hh : QuotedHdr E Q h) {t : TExpr} (ht : t ∈ (aBody E h kids).types) {x : Str}
    (hx : x ∈ t.quotes) : Q x ∨ QuotedBelow kids x := by
  have up : QuotedBelow (iterate h.slots kids) x → QuotedBelow kids x := by
    rintro ⟨k, hk, hx⟩
    exact ⟨k, mem_iterate hk, hx⟩
  have map : x ∈ (mapExpr E h (iterate h.slots kids)).quotes → Q x ∨ QuotedBelow kids x := by
    intro hx
    simp only [mapExpr, TExpr.quotes, List.mem_append] at hx
    rcases hx with h' | h'
    · exact absurd h' keyExpr_quotes
    · exact .inr (up (aAlias_quotes h'))
  unfold aBody at ht
  dsimp only at ht
  unfold QuotedHdr at hh
  cases hkd : h.kind with
  | inst =>
    rw [hkd] at ht hh
    simp only [Body.types, List.mem_singleton] at ht
    subst ht
    unfold atom at hx
    split at hx
    · simp [TExpr.quotes] at hx
    · rename_i hnn
      split at hx
      · simp [TExpr.quotes] at hx
      · rename_i hb
        simp only [TExpr.quotes, List.mem_singleton] at hx
        subst hx
        rcases hh with h' | h' | h'
        · exact absurd h' hnn
        · exact absurd h' hb
        · exact .inl h'
  | func f =>
    rw [hkd] at ht
    simp only [funcBody] at ht
    split at ht
    · simp [Body.types] at ht
    · simp only [Body.types, List.mem_singleton] at ht
      subst ht
      simp [TExpr.quotes] at hx
    · split at ht
      · simp only [Body.types, List.mem_singleton] at ht
        subst ht
        simp [TExpr.quotes] at hx
      · simp [Body.types] at ht
  | cls n =>
    rw [hkd] at ht hh
    simp only [Body.types, List.mem_singleton] at ht
    subst ht
    simp only [TExpr.quotes] at hx
    split at hx
    · simp [TExpr.quotes] at hx
    · rename_i hb
      simp only [TExpr.quotes, List.mem_singleton] at hx
      subst hx
      exact .inl (hh.resolve_left hb)
  | module =>
    rw [hkd] at ht
    simp only [Body.types, List.mem_singleton] at ht
    subst ht
    simp [TExpr.quotes] at hx
  | io =>
    rw [hkd] at ht
    simp only [Body.types, List.mem_singleton] at ht
    subst ht
    simp [TExpr.quotes] at hx
  | ndarray d =>
    rw [hkd] at ht hh
    simp only [Body.types, List.mem_singleton] at ht
    subst ht
    simp only [TExpr.quotes, List.mem_singleton] at hx
    subst hx
    exact .inl hh
  | seq k =>
    rw [hkd] at ht
    cases k
    case tuple =>
      simp only [Body.types, List.mem_singleton] at ht
      subst ht
      exact .inr (up (aTuple_quotes hx))
    all_goals
      simp only [Body.types, List.mem_singleton] at ht
      subst ht
      simp only [TExpr.quotes] at hx
      exact .inr (up (aAlias_quotes hx))
  | dict data m =>
    rw [hkd] at ht
    dsimp only at ht
    split at ht
    · simp only [recordBody, Body.types] at ht
      obtain ⟨e, he, rfl⟩ := List.mem_map.mp ht
      obtain ⟨s, k, hk', rfl⟩ := mem_aEntries.mp he
      refine .inr ⟨k, (List.of_mem_zip hk').2, ?_⟩
      simp only [aEntry] at hx
      split at hx
      · simp [TExpr.quotes] at hx
      · exact hx
    · simp only [Body.types, List.mem_singleton] at ht
      subst ht
      exact map hx
  | proxy =>
    rw [hkd] at ht
    simp only [Body.types, List.mem_singleton] at ht
    subst ht
    exact map hx
  | frame i =>
    rw [hkd] at ht
    dsimp only [frameBody] at ht
    split at ht
    · simp only [Body.types, List.mem_singleton] at ht
      subst ht
      simp [TExpr.quotes] at hx
    · simp only [Body.types, List.map_map] at ht
      obtain ⟨kk, hkk, rfl⟩ := List.mem_map.mp ht
      exact .inr ⟨kk.2, (List.of_mem_zip (List.mem_filter.mp hkk).1).2, hx⟩

/-- All quoted names of a node and the declarations below it satisfy `Q`. -/
structure QuotedOk (Q : Str → Prop) (a : AOut) : Prop where
  body : ∀ t ∈ a.body.types, ∀ x ∈ t.quotes, Q x
  emitted : ∀ d ∈ a.emitted, ∀ t ∈ d.body.types, ∀ x ∈ t.quotes, Q x

theorem QuotedOk.ref {Q : Str → Prop} {a : AOut} (h : QuotedOk Q a) : ∀ x ∈ (aref a).quotes, Q x := by
  intro x hx
  unfold aref at hx
  split at hx
  · simp [TExpr.quotes] at hx
  · split at hx
    · rename_i t e
      exact h.body t (by rw [e]; simp [Body.types]) x hx
    · simp [TExpr.quotes] at hx

theorem quoted_combine {E : Env} {Q : Str → Prop} {h : Hdr} {kids : List AOut} (hh : QuotedHdr E Q h) (hk : ∀ k ∈ kids, QuotedOk Q k) :
    QuotedOk Q (aCombine E h kids) := by
  have hb : ∀ t ∈ (aBody E h kids).types, ∀ x ∈ t.quotes, Q x := by
    intro t ht x hx
    rcases body_quotes hh ht hx with h' | ⟨k, hkm, hx⟩
    · exact h'
    · exact (hk k hkm).ref x hx
  refine ⟨hb, ?_⟩
  intro d hd
  have hd : d ∈ aEmit h (aCombine E h kids).perm ⟨h.name, aBody E h kids⟩ kids := hd
  unfold aEmit at hd
  split at hd
  · split at hd
    · simp only [List.mem_singleton] at hd
      subst hd
      exact hb
    · cases hd
  · rcases List.mem_append.mp hd with hd | hd
    · obtain ⟨k, hkm, hd⟩ := List.mem_flatMap.mp hd
      have hkq := hk k (mem_iterate hkm)
      rcases List.mem_append.mp hd with hd | hd
      · exact hkq.emitted d hd
      · split at hd
        · simp only [List.mem_singleton] at hd
          subst hd
          exact hkq.body
        · cases hd
    · split at hd
      · simp only [List.mem_singleton] at hd
        subst hd
        exact hb
      · cases hd

mutual
theorem quoted_abs {E : Env} {Q : Str → Prop} : ∀ (n : Node), NodeAll (QuotedHdr E Q) n → QuotedOk Q (n.abs E)
  | .mk h kids, hn => quoted_combine hn.1 (quoted_absList kids hn.2)
theorem quoted_absList {E : Env} {Q : Str → Prop} : ∀ (l : List Node), NodeAllList (QuotedHdr E Q) l → ∀ k ∈ absList E l, QuotedOk Q k
  | [], _ => by simp [absList]
  | n :: r, hn => by
    intro k hk
    simp only [absList, List.mem_cons] at hk
    rcases hk with rfl | hk
    · exact quoted_abs n hn.1
    · exact quoted_absList r hn.2 k hk
end

/-- What `Q` must hold of: the classes of the value that are not builtin. -/
def NeedOk (E : Env) (Q : Str → Prop) (v : Val) : Prop := ∀ x, classNeeded v = some x → E.isBuiltin x = false → Q x

theorem quoted_inv {E : Env} {Q : Str → Prop} (ha : ∀ d, Q (py!"NDArray[np." ++ d ++ py!"]")) :
    Inv E (Every (NeedOk E Q)) (fun _ v => Every (NeedOk E Q) v) (fun _ => True) (QuotedHdr E Q) (fun _ => True) where
  seqElem h he := everyList_iff.mp h.2 _ he
  mapEntry h hkv := everyList_iff.mp h.2 _ (List.of_mem_zip hkv).2
  entry h := h
  dict := by
    intro items h
    refine ⟨?_, everyList_iff.mpr ?_⟩
    · intro x hx
      cases hx
    · intro v hv
      obtain ⟨kv, hkv, rfl⟩ := List.mem_map.mp hv
      exact h kv hkv
  nameElem _ _ := trivial
  nameNum _ := trivial
  nameKey _ _ := trivial
  nameLabel _ _ := trivial
  nameTy _ _ := trivial
  rename hh _ := hh
  hdr := by
    intro name v root' slots _ hv _
    have hv := every_self hv
    unfold NeedOk at hv
    unfold QuotedHdr
    cases v with
    | inst t x =>
      simp only [kindOf, Val.ty]
      by_cases ht : t = .noneType
      · exact .inl ht
      · cases hb : E.isBuiltin t.name with
        | true => exact .inr (.inl rfl)
        | false => exact .inr (.inr (hv _ (by simp [classNeeded, ht]) hb))
    | cls m n =>
      simp only [kindOf]
      cases hb : E.isBuiltin n with
      | true => exact .inl rfl
      | false => exact .inr (hv _ rfl hb)
    | ndarray t d => exact ha d
    | func | module | io | seq => trivial
    | map k t ks vs => cases k <;> trivial
  merge _ _ _ := trivial
  bad _ _ _ := trivial
  sig _ _ := trivial
  noTrees _ := trivial

theorem Inside.trans {u v : Val} (h : Inside u v) : ∀ {w : Val}, Inside v w → Inside u w
  | _, .self _ => h
  | _, .elem he hi => .elem he (Inside.trans h hi)
  | _, .entry he hi => .entry he (Inside.trans h hi)

mutual
theorem every_inside {w : Val} : ∀ (v : Val), Inside v w → Every (fun u => Inside u w) v
  | .inst _ _, h | .cls _ _, h | .module _, h | .io _, h | .ndarray _ _, h | .func _, h => h
  | .seq _ _ es, h => ⟨h, everyList_inside es (fun e he => Inside.trans (.elem he (.self _)) h)⟩
  | .map _ _ _ vs, h => ⟨h, everyList_inside vs (fun e he => Inside.trans (.entry he (.self _)) h)⟩
theorem everyList_inside {w : Val} : ∀ (l : List Val), (∀ v ∈ l, Inside v w) → EveryList (fun u => Inside u w) l
  | [], _ => trivial
  | v :: l, h => ⟨every_inside v (h v (by simp)), everyList_inside l (fun u hu => h u (by simp [hu]))⟩
end

theorem inside_every {p : Val → Prop} {u : Val} : ∀ {v : Val}, Inside u v → Every p v → p u
  | _, .self _, h => every_self h
  | _, .elem he hi, h => inside_every hi (everyList_iff.mp h.2 _ he)
  | _, .entry he hi, h => inside_every hi (everyList_iff.mp h.2 _ he)

end Verif
