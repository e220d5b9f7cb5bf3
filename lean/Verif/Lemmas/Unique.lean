import Verif.Lemmas.Fuel
import Verif.Lemmas.Scope
/-
The declarations for nested sequences have different names.
-/
namespace Verif
open Verif.Spec

/-- What a child contributes to its name: an upper-case letter, followed by lower-case letters and digits. -/
def Token (s : Str) : Prop := ∃ c r, s = c :: r ∧ c.isUpper = true ∧ ∀ d ∈ r, d.isUpper = false

/-- Names below a child continue with another token. -/
def Tail (s : Str) : Prop := s = [] ∨ ∃ c r, s = c :: r ∧ c.isUpper = true

theorem Token.tail {s t : Str} (h : Token s) : Tail (s ++ t) := by
  obtain ⟨c, r, rfl, hc, _⟩ := h
  exact .inr ⟨c, r ++ t, rfl, hc⟩

theorem Token.ne {s : Str} (h : Token s) : s ≠ [] := by
  obtain ⟨c, r, rfl, _⟩ := h
  simp

theorem split_tail : ∀ {r r' s s' : Str}, (∀ d ∈ r, d.isUpper = false) → (∀ d ∈ r', d.isUpper = false) → Tail s → Tail s' →
    r ++ s = r' ++ s' → r = r' ∧ s = s'
  | [], [], s, s', _, _, _, _, e => ⟨rfl, e⟩
  | [], c :: r', s, s', _, h', hs, _, e => by
    simp only [List.nil_append] at e
    rcases hs with rfl | ⟨d, t, rfl, hd⟩
    · simp at e
    · injection e with e1 _
      rw [e1, h' c (by simp)] at hd
      cases hd
  | c :: r, [], s, s', h, _, _, hs', e => by
    simp only [List.nil_append] at e
    rcases hs' with rfl | ⟨d, t, rfl, hd⟩
    · simp at e
    · injection e with e1 _
      rw [← e1, h c (by simp)] at hd
      cases hd
  | c :: r, d :: r', s, s', h, h', hs, hs', e => by
    injection e with e1 e2
    obtain ⟨h1, h2⟩ := split_tail (fun x hx => h x (by simp [hx])) (fun x hx => h' x (by simp [hx])) hs hs' e2
    exact ⟨by rw [e1, h1], h2⟩

theorem Token.split {t t' s s' : Str} (ht : Token t) (ht' : Token t') (hs : Tail s) (hs' : Tail s') (e : t ++ s = t' ++ s') :
    t = t' ∧ s = s' := by
  obtain ⟨c, r, rfl, _, hr⟩ := ht
  obtain ⟨c', r', rfl, _, hr'⟩ := ht'
  injection e with e1 e2
  obtain ⟨h1, h2⟩ := split_tail hr hr' hs hs' e2
  exact ⟨by rw [e1, h1], h2⟩

theorem inj_of_nodup {α β} {f : α → β} : ∀ {l : List α}, (l.map f).Nodup → ∀ {a b}, a ∈ l → b ∈ l → f a = f b → a = b
  | [], _, _, _, h, _, _ => by simp at h
  | x :: r, hn, a, b, ha, hb, e => by
    rw [List.map_cons, List.nodup_cons] at hn
    rcases List.mem_cons.mp ha with rfl | ha'
    · rcases List.mem_cons.mp hb with rfl | hb'
      · rfl
      · exact absurd (List.mem_map.mpr ⟨b, hb', e.symm⟩) hn.1
    · rcases List.mem_cons.mp hb with rfl | hb'
      · exact absurd (List.mem_map.mpr ⟨a, ha', e⟩) hn.1
      · exact inj_of_nodup hn.2 ha' hb' e

theorem nodup_map_of_inj {α β} {f : α → β} : ∀ {l : List α}, (∀ a ∈ l, ∀ b ∈ l, f a = f b → a = b) → l.Nodup → (l.map f).Nodup
  | [], _, _ => by simp
  | x :: r, h, hn => by
    rw [List.nodup_cons] at hn
    rw [List.map_cons, List.nodup_cons]
    refine ⟨?_, nodup_map_of_inj (fun a ha b hb => h a (by simp [ha]) b (by simp [hb])) hn.2⟩
    intro hm
    obtain ⟨y, hy, e⟩ := List.mem_map.mp hm
    rw [h y (by simp [hy]) x (by simp) e] at hy
    exact hn.1 hy

mutual
/-- Every child extends the name of its parent by a token, and siblings have different names. -/
def TokenTree : Node → Prop
  | .mk h kids => (kids.map (·.name)).Nodup ∧ (∀ k ∈ kids, ∃ t, Token t ∧ k.name = h.name ++ t) ∧ TokenTrees kids
def TokenTrees : List Node → Prop
  | [] => True
  | n :: r => TokenTree n ∧ TokenTrees r
end

theorem tokenTrees_iff : ∀ {l : List Node}, TokenTrees l ↔ ∀ k ∈ l, TokenTree k
  | [] => by simp [TokenTrees]
  | n :: r => by simp [TokenTrees, tokenTrees_iff (l := r)]

/-- What the declarations of a node guarantee. -/
structure Unique (a : AOut) : Prop where
  tail : ∀ d ∈ a.decls, ∃ s, Tail s ∧ d.name = a.name ++ s
  one : ∀ d ∈ a.decls, ∀ e ∈ a.decls, d.name = e.name → d = e

theorem unique_combine {E : Env} {h : Hdr} {kids : List AOut} (hk : ∀ k ∈ kids, Unique k) (hn : (kids.map (·.name)).Nodup)
    (ht : ∀ k ∈ kids, ∃ t, Token t ∧ k.name = h.name ++ t) : Unique (aCombine E h kids) := by
  have below : ∀ k ∈ kids, ∀ d ∈ k.decls, ∃ t s, Token t ∧ Tail s ∧ k.name = h.name ++ t ∧ d.name = h.name ++ (t ++ s) := by
    intro k hkm d hd
    obtain ⟨t, h1, h2⟩ := ht k hkm
    obtain ⟨s, h3, h4⟩ := (hk k hkm).tail d hd
    exact ⟨t, s, h1, h3, h2, by rw [h4, h2, List.append_assoc]⟩
  have self : ∀ k ∈ kids, ∀ d ∈ k.decls, d.name ≠ h.name := by
    intro k hkm d hd e
    obtain ⟨t, s, h1, _, _, h4⟩ := below k hkm d hd
    rw [h4] at e
    have := List.append_right_eq_self.mp e
    exact h1.ne (List.append_eq_nil_iff.mp this).1
  constructor
  · intro d hd
    rcases decls_cases hd with rfl | ⟨k, hkm, hd⟩
    · exact ⟨[], .inl rfl, (List.append_nil _).symm⟩
    · obtain ⟨t, s, h1, _, _, h4⟩ := below k hkm d hd
      exact ⟨t ++ s, h1.tail, h4⟩
  · intro d hd e he hde
    rcases decls_cases hd with rfl | ⟨k, hkm, hd⟩
    · rcases decls_cases he with rfl | ⟨k, hkm, he⟩
      · rfl
      · exact absurd hde.symm (self k hkm e he)
    · rcases decls_cases he with rfl | ⟨k', hkm', he⟩
      · exact absurd hde (self k hkm d hd)
      · obtain ⟨t, s, h1, h2, h3, h4⟩ := below k hkm d hd
        obtain ⟨t', s', h1', h2', h3', h4'⟩ := below k' hkm' e he
        rw [h4, h4'] at hde
        obtain ⟨rfl, rfl⟩ := h1.split h1' h2 h2' (List.append_cancel_left hde)
        have : k = k' := inj_of_nodup hn hkm hkm' (by rw [h3, h3'])
        subst this
        exact (hk k hkm).one d hd e he (by rw [h4, h4'])

mutual
theorem unique_abs {E : Env} : ∀ (n : Node), TokenTree n → Unique (n.abs E)
  | .mk h kids, hn => by
    have hm : (absList E kids).map (·.name) = kids.map (·.name) := by
      rw [absList_eq_map, List.map_map]
      exact List.map_congr_left (fun k _ => abs_name)
    refine unique_combine (unique_absList kids hn.2.2) (by rw [hm]; exact hn.1) ?_
    intro k hk
    rw [absList_eq_map] at hk
    obtain ⟨m, hm, rfl⟩ := List.mem_map.mp hk
    rw [abs_name]
    exact hn.2.1 m hm
theorem unique_absList {E : Env} : ∀ (l : List Node), TokenTrees l → ∀ k ∈ absList E l, Unique k
  | [], _ => by simp [absList]
  | n :: r, hn => by
    intro k hk
    simp only [absList, List.mem_cons] at hk
    rcases hk with rfl | hk
    · exact unique_abs n hn.1
    · exact unique_absList r hn.2 k hk
end

/-! ### Construction -/

theorem token_capitalize {U : Uni} {t : Ty} (h : LetterFirst t) {s : Str} (hs : ∀ c ∈ s, c.isDigit = true) :
    Token (U.capitalize t.name ++ s) := by
  obtain ⟨c, r, e, hc, ha⟩ := h
  rw [e]
  simp only [Uni.capitalize]
  rw [U.title_ascii c (asciiAlnum_iff.mp (ha c (by simp))).1]
  refine ⟨c.toUpper, r.flatMap U.lower ++ s, rfl, ?_, ?_⟩
  · have := asciiAlnum_cases (P := fun c => c.isAlpha = true → c.toUpper.isUpper = true) (by decide +kernel) (ha c (by simp))
    exact this hc
  · intro d hd
    rcases List.mem_append.mp hd with hd | hd
    · obtain ⟨x, hx, hd⟩ := List.mem_flatMap.mp hd
      have hx' := ha x (by simp [hx])
      rw [U.lower_ascii x (asciiAlnum_iff.mp hx').1] at hd
      simp only [List.mem_singleton] at hd
      subst hd
      exact asciiAlnum_cases (P := fun c => c.toLower.isUpper = false) (by decide +kernel) hx'
    · have h1 := hs d hd
      have h2 := alnum_digit h1
      have := asciiAlnum_cases (P := fun c => c.isDigit = true → c.isUpper = false) (by decide +kernel) h2
      exact this h1

theorem build_is {E : Env} (hE : E.Fair) {f : Nat} {root : Bool} {name : Str} {v : Val} {n : Node}
    (h : build E f root name v = .ok n) (hf : v.depth < f) : n.name = name ∧ n.hdr.kind = kindOf E.S v := by
  have := build_ens hE (trivialInv E) f root name v trivial trivial hf
  rw [h] at this
  exact ⟨this.2.1, this.2.2.2.1⟩

theorem not_typed_of {S : Strategies} {v : Val} {n : Node} (hv : OnlySequences S v)
    (h : n.hdr.kind = kindOf S v) : isTypedDict S n = false := by
  cases n with
  | mk hd kids =>
    have h : hd.kind = kindOf S v := h
    simp only [isTypedDict, h]
    cases v with
    | map k t ks vs => exact absurd hv.1 (by simp)
    | _ => simp only [kindOf]

theorem tokenTree_leaf {h : Hdr} : TokenTree (.mk h []) := by
  simp [TokenTree, TokenTrees]

theorem tokenTree_build {E : Env} (hE : E.Fair) (hm : 0 < E.S.merge) : ∀ (f : Nat) {root : Bool} {name : Str} {v : Val} {n : Node},
    OnlySequences E.S v → ValAll LetterFirst (fun _ => True) (fun _ => True) v → v.depth < f → build E f root name v = .ok n →
    TokenTree n
  | 0, _, _, _, _, _, _, hf, _ => by omega
  | f + 1, root, name, v, n, hv, hl, hf, h => by
    have leaf : ∀ {k : NKind} {t : Ty}, (if nameOk E.U name then Except.ok (Node.mk ⟨k, name, root, t, []⟩ []) else .error (Err.badName name)) =
        .ok n → TokenTree n := by
      intro k t h
      split at h
      · injection h with h; subst h; exact tokenTree_leaf
      · cases h
    cases v with
    | map k t ks vs => exact absurd hv.1 (by simp)
    | inst t x => exact leaf h
    | cls m n => exact leaf h
    | module t => exact leaf h
    | io t => exact leaf h
    | ndarray t d => exact leaf h
    | func fi =>
      simp only [build] at h
      split at h
      · cases h
      · rename_i m hm'
        split at h
        · cases h
        · injection h with h
          subst h
          exact leaf hm'
    | seq k t es =>
      rw [build_seq] at h
      split at h
      · have hc : ¬ (k = .tuple ∧ E.S.tuple = .fixed) := by
          rintro ⟨rfl, e⟩
          have := hv.1
          simp only [e] at this
          cases this
        rw [if_neg hc] at h
        have hes := everyList_iff.mp hv.2
        have hls := valAllList_iff.mp hl.2
        have hdp : ∀ e ∈ es, e.depth < f := by
          intro e he
          have := depth_le_depthList he
          simp only [Val.depth] at hf
          omega
        have key : ∀ r, setChildren E (build E f false) name es = .ok r →
            (r.2.map (·.name)).Nodup ∧ (∀ k ∈ r.2, ∃ t, Token t ∧ k.name = name ++ t) ∧ ∀ k ∈ r.2, TokenTree k := by
          intro r hr
          let I : List Node × List Str → Prop := fun acc => acc.1.map (·.name) = acc.2 ∧ acc.2.Nodup ∧
            ∀ k ∈ acc.1, (∃ t, Token t ∧ k.name = name ++ t) ∧ TokenTree k ∧ isTypedDict E.S k = false
          have hstep : ∀ b, ∀ a ∈ limit E.S.checkMax es, I b → Ens (setStep E (build E f false) name b a) I (fun _ => True) := by
            rintro ⟨ns, names⟩ a ha ⟨h1, h2, h3⟩
            have ha := limit_subset ha
            show Ens (Except.bind (build E f false (freshName (name ++ E.U.capitalize a.ty.name) names) a) _) _ _
            cases hb : build E f false (freshName (name ++ E.U.capitalize a.ty.name) names) a with
            | error e => trivial
            | ok c =>
              obtain ⟨e1, e2⟩ := build_is hE hb (hdp a ha)
              have ht := not_typed_of (hes a ha) e2
              simp only [Except.bind, ht, Bool.false_eq_true, if_false, pure, Except.pure]
              split
              · exact ⟨h1, h2, h3⟩
              · refine ⟨by simp [h1, e1], ?_, ?_⟩
                · rw [List.nodup_append]
                  refine ⟨h2, by simp, ?_⟩
                  intro x hx y hy
                  simp only [List.mem_singleton] at hy
                  subst hy
                  rintro rfl
                  exact Props.fresh_name_unused _ _ hx
                · intro k hk
                  rcases List.mem_append.mp hk with hk | hk
                  · exact h3 k hk
                  · simp only [List.mem_singleton] at hk
                    subst hk
                    refine ⟨?_, tokenTree_build hE hm f (hes a ha) (hls a ha) (hdp a ha) hb, ht⟩
                    rcases freshName_spec (name ++ E.U.capitalize a.ty.name) names with e | ⟨j, e⟩
                    · refine ⟨_, token_capitalize (U := E.U) (valAll_ty (hls a ha)) (s := []) (by simp), ?_⟩
                      rw [e1, e, List.append_nil]
                    · refine ⟨_, token_capitalize (U := E.U) (valAll_ty (hls a ha)) (s := natStr j) (fun _ => isDigit_of_mem_natStr), ?_⟩
                      rw [e1, e, List.append_assoc]
          have hfold := foldE_ens (l := limit E.S.checkMax es) (b := ([], [])) (I := I) (Q := fun _ => True)
            ⟨rfl, by simp, by simp⟩ hstep
          unfold setChildren at hr
          cases hfe : foldE (setStep E (build E f false) name) ([], []) (limit E.S.checkMax es) with
          | error e => rw [hfe] at hr; cases hr
          | ok acc =>
            rw [hfe] at hr hfold
            obtain ⟨kids, names⟩ := acc
            obtain ⟨h1, h2, h3⟩ := hfold
            have hp : ∀ i k, k ∈ E.order i kids ↔ k ∈ kids := fun i k => (hE i kids).mem_iff
            have hnil : (E.order 0 kids).filter (isTypedDict E.S) = [] := by
              rw [List.filter_eq_nil_iff]
              intro k hk
              rw [(h3 k ((hp 0 k).mp hk)).2.2]
              simp
            simp only [bind, Except.bind, hnil, shouldMerge_nil hm, Bool.false_eq_true, if_false, pure, Except.pure, Except.ok.injEq] at hr
            subst hr
            refine ⟨?_, fun k hk => (h3 k ((hp 0 k).mp hk)).1, fun k hk => (h3 k ((hp 0 k).mp hk)).2.1⟩
            rw [((hE 0 kids).map (·.name)).nodup_iff]
            dsimp only at h1
            rw [h1]
            exact h2
        split at h
        · rename_i slots kids hr
          injection h with h
          subst h
          obtain ⟨h1, h2, h3⟩ := key _ hr
          exact ⟨h1, h2, tokenTrees_iff.mpr h3⟩
        · cases h
      · cases h

end Verif
