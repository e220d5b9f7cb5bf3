import Verif.Lemmas.Types
/-
A type checker that decides, within bounded recursion, whether a value belongs to a type. It is used for concrete cases.
-/
namespace Verif
open Verif.Spec

def declaredB (Γ : List TDecl) (n : Str) : Bool := Γ.any (fun d => decide (d.name = n))

theorem declaredB_iff {Γ : List TDecl} {n : Str} : declaredB Γ n = true ↔ Declared Γ n := by
  simp [declaredB, Declared]

def labelsB : Key → Str → Bool
  | .str s, l => decide (l = py!"'" ++ s ++ py!"'")
  | _, _ => false

theorem labelsB_iff {k : Key} {l : Str} : labelsB k l = true ↔ Labels k l := by
  cases k <;> simp [labelsB, Labels]

/-- `check dflt Γ fuel t v`; `dflt` is the answer when the recursion is cut short or a name is declared repeatedly. -/
def check (dflt : Bool) (Γ : List TDecl) : Nat → TExpr → Val → Bool
  | 0, _, _ => dflt
  | f + 1, t, v => match t with
    | .name n => match Γ.filter (fun d => decide (d.name = n)) with
      | [] => decide (n = py!"Any") || decide (v.ty.name = n) || (decide (n = py!"float") && decide (v.ty.name = py!"int")) ||
        (match v with
          | .module _ => decide (n = py!"ModuleType")
          | .io _ => decide (n = py!"TextIO")
          | .func _ => decide (n = py!"Callable")
          | .map (.frame _) _ _ _ => decide (n = py!"pd.DataFrame")
          | _ => false)
      | d :: r => (r.isEmpty || dflt) && (match d.body with
        | .alias t => check dflt Γ f t v
        | .record _ _ es => match v with
          | .map .dict _ ks vs =>
            es.all (fun e => !e.required || ks.contains (.str e.key)) && ks.all (fun k => es.any (fun e => decide (k = .str e.key))) &&
            (ks.zip vs).all (fun kv => es.all (fun e => decide (kv.1 ≠ .str e.key) || check dflt Γ f e.type kv.2))
          | _ => false
        | .frame ovs _ => match v with
          | .map (.frame _) _ ks vs => !declaredB Γ py!"pd.DataFrame" &&
            ovs.all (fun o => ks.any (fun k => labelsB k o.1)) && ks.all (fun k => ovs.any (fun o => labelsB k o.1)) &&
            (ks.zip vs).all (fun kv => ovs.all (fun o => !labelsB kv.1 o.1 || check dflt Γ f o.2 kv.2))
          | _ => false
        | _ => false)
    | .quoted n => check dflt Γ f (.name n) v || (match v with
      | .ndarray _ d => decide (n = py!"NDArray[np." ++ d ++ py!"]") && !declaredB Γ py!"NDArray" && !declaredB Γ py!"np"
      | _ => false)
    | .object => !declaredB Γ py!"Optional" && !declaredB Γ py!"object"
    | .union ts => !declaredB Γ py!"Union" && ts.any (fun t => check dflt Γ f t v)
    | .app con t => !declaredB Γ con && (match v with
      | .seq k _ es => containerFits k con && es.all (fun e => check dflt Γ f t e)
      | .cls _ n => decide (con = py!"Type") && !declaredB Γ n && (match t with
        | .name m | .quoted m => decide (m = n)
        | _ => false)
      | _ => false)
    | .tuple ts => !declaredB Γ py!"Tuple" && (match v with
      | .seq .tuple _ es => decide (ts.length = es.length) && (ts.zip es).all (fun p => check dflt Γ f p.1 p.2)
      | _ => false)
    | .tupleOf t => !declaredB Γ py!"Tuple" && (match v with
      | .seq .tuple _ es => es.all (fun e => check dflt Γ f t e)
      | _ => false)
    | .mapping con kt vt => !declaredB Γ con && (match v with
      | .map k _ ks vs => mappingFits k con && ks.all (fun key => check dflt Γ f kt (.inst key.ty none)) &&
        vs.all (fun w => check dflt Γ f vt w)
      | _ => false)
    | .callable n => !declaredB Γ py!"Callable" && !declaredB Γ py!"Any" && (match v with
      | .func g => decide (paramCount g = some n)
      | _ => false)

theorem notDeclared_iff {Γ : List TDecl} {n : Str} : (!declaredB Γ n) = true ↔ ¬ Declared Γ n := by
  rw [← declaredB_iff]; simp

theorem filter_nil {Γ : List TDecl} {n : Str} (h : Γ.filter (fun d => decide (d.name = n)) = []) : ¬ Declared Γ n := by
  rintro ⟨d, hd, rfl⟩
  have : d ∈ Γ.filter (fun e => decide (e.name = d.name)) := by simp [hd]
  rw [h] at this
  simp at this

theorem filter_single {Γ : List TDecl} {n : Str} {d : TDecl} (h : Γ.filter (fun d => decide (d.name = n)) = [d]) :
    Defines Γ n d.body := by
  have hd : d ∈ Γ.filter (fun d => decide (d.name = n)) := by rw [h]; simp
  rw [List.mem_filter, decide_eq_true_eq] at hd
  refine ⟨?_, ?_⟩
  · rw [← hd.2]; exact hd.1
  · intro e he hen
    have : e ∈ Γ.filter (fun d => decide (d.name = n)) := by simp [he, hen]
    rw [h] at this
    simp only [List.mem_singleton] at this
    rw [this]

/-- What the checker accepts belongs to the type. -/
theorem check_sound {Γ : List TDecl} : ∀ {f : Nat} {t : TExpr} {v : Val}, check false Γ f t v = true → Admits Γ t v
  | 0, _, _, h => by simp [check] at h
  | f + 1, t, v, h => by
    have ih := @check_sound Γ f
    unfold check at h
    split at h
    · split at h
      · rename_i n hf
        have hn := filter_nil hf
        simp only [Bool.or_eq_true, Bool.and_eq_true, decide_eq_true_eq] at h
        rcases h with ((rfl | h) | ⟨rfl, h⟩) | h
        · exact .any v hn
        · subst h; exact .cls v hn
        · exact .promote v hn h
        · split at h
          · rw [decide_eq_true_eq] at h; subst h; exact .module hn
          · rw [decide_eq_true_eq] at h; subst h; exact .file hn
          · rw [decide_eq_true_eq] at h; subst h; exact .function hn
          · rw [decide_eq_true_eq] at h; subst h; exact .anyFrame hn
          · cases h
      · rename_i n d r hf
        simp only [Bool.or_false, Bool.and_eq_true, List.isEmpty_iff] at h
        obtain ⟨rfl, h⟩ := h
        have hd := filter_single hf
        split at h
        · rename_i t e
          rw [e] at hd
          exact .alias hd (ih h)
        · rename_i g doc es e
          rw [e] at hd
          split at h
          · simp only [Bool.and_eq_true, List.all_eq_true, Bool.or_eq_true, Bool.not_eq_true', List.contains_iff_mem,
              decide_eq_true_eq, List.any_eq_true] at h
            refine .record hd ?_ h.1.2 ?_
            · intro e he hr
              rcases h.1.1 e he with h | h
              · rw [hr] at h; cases h
              · exact h
            · intro kv hkv e he hke
              rcases h.2 kv hkv e he with h | h
              · exact absurd hke h
              · exact ih h
          · cases h
        · rename_i ovs rest e
          rw [e] at hd
          split at h
          · simp only [Bool.and_eq_true, List.all_eq_true, Bool.or_eq_true, Bool.not_eq_true', List.any_eq_true, labelsB_iff] at h
            refine .frame hd (notDeclared_iff.mp (by simpa using h.1.1.1)) h.1.1.2 h.1.2 ?_
            intro kv hkv o ho hl
            rcases h.2 kv hkv o ho with h | h
            · rw [labelsB_iff.mpr hl] at h; cases h
            · exact ih h
          · cases h
        · cases h
    · rw [Bool.or_eq_true] at h
      rcases h with h | h
      · exact .quoted v (ih h)
      · split at h
        · rw [Bool.and_eq_true, Bool.and_eq_true, notDeclared_iff, notDeclared_iff, decide_eq_true_eq] at h
          obtain ⟨⟨rfl, h1⟩, h2⟩ := h
          exact .array h1 h2
        · cases h
    · rw [Bool.and_eq_true, notDeclared_iff, notDeclared_iff] at h
      exact .object v h.1 h.2
    · rw [Bool.and_eq_true, notDeclared_iff, List.any_eq_true] at h
      obtain ⟨t, ht, h2⟩ := h.2
      exact .union h.1 ht (ih h2)
    · rw [Bool.and_eq_true, notDeclared_iff] at h
      obtain ⟨h1, h⟩ := h
      split at h
      · rw [Bool.and_eq_true, List.all_eq_true] at h
        exact .app h1 h.1 (fun e he => ih (h.2 e he))
      · rw [Bool.and_eq_true, Bool.and_eq_true, notDeclared_iff, decide_eq_true_eq] at h
        obtain ⟨⟨rfl, h2⟩, h⟩ := h
        split at h
        · rw [decide_eq_true_eq] at h; subst h; exact .typeOf h1 h2 (.inl rfl)
        · rw [decide_eq_true_eq] at h; subst h; exact .typeOf h1 h2 (.inr rfl)
        · cases h
      · cases h
    · rw [Bool.and_eq_true, notDeclared_iff] at h
      obtain ⟨h1, h⟩ := h
      split at h
      · rw [Bool.and_eq_true, List.all_eq_true, decide_eq_true_eq] at h
        exact .tuple h1 h.1 (fun p hp => ih (h.2 p hp))
      · cases h
    · rw [Bool.and_eq_true, notDeclared_iff] at h
      obtain ⟨h1, h⟩ := h
      split at h
      · rw [List.all_eq_true] at h
        exact .tupleOf h1 (fun p hp => ih (h p hp))
      · cases h
    · rw [Bool.and_eq_true, notDeclared_iff] at h
      obtain ⟨h1, h⟩ := h
      split at h
      · rw [Bool.and_eq_true, Bool.and_eq_true, List.all_eq_true, List.all_eq_true] at h
        exact .mapping h1 h.1.1 (fun k hk => ih (h.1.2 k hk)) (fun w hw => ih (h.2 w hw))
      · cases h
    · rw [Bool.and_eq_true, Bool.and_eq_true, notDeclared_iff, notDeclared_iff] at h
      obtain ⟨⟨h1, h2⟩, h⟩ := h
      split at h
      · exact .callable h1 h2 (decide_eq_true_eq.mp h)
      · cases h

theorem filter_declared {Γ : List TDecl} {n : Str} {b : Body} (h : Defines Γ n b) :
    ∃ d r, Γ.filter (fun d => decide (d.name = n)) = d :: r ∧ d.body = b := by
  cases hf : Γ.filter (fun d => decide (d.name = n)) with
  | nil => exact absurd ⟨_, h.1, rfl⟩ (filter_nil hf)
  | cons d r =>
    refine ⟨d, r, rfl, ?_⟩
    have : d ∈ Γ.filter (fun d => decide (d.name = n)) := by rw [hf]; simp
    rw [List.mem_filter, decide_eq_true_eq] at this
    exact h.2 d this.1 this.2

theorem filter_undeclared {Γ : List TDecl} {n : Str} (h : ¬ Declared Γ n) : Γ.filter (fun d => decide (d.name = n)) = [] := by
  rw [List.filter_eq_nil_iff]
  intro d hd
  simp only [decide_eq_true_eq]
  rintro rfl
  exact h ⟨d, hd, rfl⟩

/-- What belongs to a type is accepted by the checker. -/
theorem check_complete {Γ : List TDecl} : ∀ (f : Nat) {t : TExpr} {v : Val}, Admits Γ t v → check true Γ f t v = true
  | 0, _, _, _ => rfl
  | f + 1, t, v, h => by
    have ih := fun {t v} => @check_complete Γ f t v
    cases h with
    | any _ hn => simp only [check, filter_undeclared hn]; simp
    | object _ h1 h2 => simp only [check, Bool.and_eq_true, notDeclared_iff]; exact ⟨h1, h2⟩
    | cls _ hn => simp only [check, filter_undeclared hn]; simp
    | promote _ hn hv => simp only [check, filter_undeclared hn, hv]; simp
    | quoted _ h => simp only [check, Bool.or_eq_true]; exact .inl (ih h)
    | module hn => simp only [check, filter_undeclared hn]; simp
    | file hn => simp only [check, filter_undeclared hn]; simp
    | function hn => simp only [check, filter_undeclared hn]; simp
    | anyFrame hn => simp only [check, filter_undeclared hn]; simp
    | frame hd h1 h2 h3 h4 =>
      obtain ⟨d, r, hf, hb⟩ := filter_declared hd
      simp only [check, hf, hb, Bool.or_true, Bool.true_and, Bool.and_eq_true, List.all_eq_true, Bool.or_eq_true,
        notDeclared_iff, List.any_eq_true, labelsB_iff]
      refine ⟨⟨⟨h1, h2⟩, h3⟩, ?_⟩
      intro kv hkv o ho
      by_cases hk : Labels kv.1 o.1
      · exact .inr (ih (h4 kv hkv o ho hk))
      · refine .inl ?_
        rw [← labelsB_iff] at hk
        simpa using hk
    | callable h1 h2 h =>
      simp only [check, Bool.and_eq_true, notDeclared_iff, decide_eq_true_eq]
      exact ⟨⟨h1, h2⟩, h⟩
    | array h1 h2 =>
      simp only [check, Bool.or_eq_true, Bool.and_eq_true, notDeclared_iff, decide_true]
      exact .inr ⟨⟨trivial, h1⟩, h2⟩
    | typeOf h1 h2 h =>
      simp only [check, Bool.and_eq_true, notDeclared_iff, decide_true]
      rcases h with rfl | rfl
      · exact ⟨h1, ⟨trivial, h2⟩, by simp⟩
      · exact ⟨h1, ⟨trivial, h2⟩, by simp⟩
    | alias hd h =>
      obtain ⟨d, r, hf, hb⟩ := filter_declared hd
      simp only [check, hf, hb, Bool.or_true, Bool.true_and]
      exact ih h
    | union hn ht h =>
      simp only [check, Bool.and_eq_true, notDeclared_iff, List.any_eq_true]
      exact ⟨hn, _, ht, ih h⟩
    | app hn hc h =>
      simp only [check, Bool.and_eq_true, notDeclared_iff, List.all_eq_true]
      exact ⟨hn, hc, fun e he => ih (h e he)⟩
    | tuple hn hl h =>
      simp only [check, Bool.and_eq_true, notDeclared_iff, List.all_eq_true, decide_eq_true_eq]
      exact ⟨hn, hl, fun e he => ih (h e he)⟩
    | tupleOf hn h =>
      simp only [check, Bool.and_eq_true, notDeclared_iff, List.all_eq_true]
      exact ⟨hn, fun e he => ih (h e he)⟩
    | mapping hn hc h1 h2 =>
      simp only [check, Bool.and_eq_true, notDeclared_iff, List.all_eq_true]
      exact ⟨hn, ⟨hc, fun e he => ih (h1 e he)⟩, fun e he => ih (h2 e he)⟩
    | record hd h1 h2 h3 =>
      obtain ⟨d, r, hf, hb⟩ := filter_declared hd
      simp only [check, hf, hb, Bool.or_true, Bool.true_and, Bool.and_eq_true, List.all_eq_true, Bool.or_eq_true,
        Bool.not_eq_true', List.contains_iff_mem, decide_eq_true_eq, List.any_eq_true]
      refine ⟨⟨?_, h2⟩, ?_⟩
      · intro e he
        cases hr : e.required with
        | false => exact .inl rfl
        | true => exact .inr (h1 e he hr)
      · intro kv hkv e he
        by_cases hk : kv.1 = .str e.key
        · exact .inr (ih (h3 kv hkv e he hk))
        · exact .inl hk

theorem not_admits {Γ : List TDecl} (f : Nat) {t : TExpr} {v : Val} (h : check true Γ f t v = false) : ¬ Admits Γ t v := by
  intro ha
  rw [check_complete f ha] at h
  cases h

end Verif
