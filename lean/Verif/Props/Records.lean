import Verif.Lemmas.Dict
import Verif.Props.Names
/-
TypedDicts: keys, syntax, key literals (C27, C28, C29).
-/
namespace Verif.Props
open Verif Verif.Spec

/-- **C27**: the hint of a dictionary with string keys `ks` contains a TypedDict of the requested name that has exactly the
visible keys as entries, in order, each once per occurrence. -/
theorem typed_dict_mirrors_keys (E : Env) (hS : E.S.dict = .typedDict) (name : Str) (t : Ty) (ks : List Str) (vs : List Val)
    (hl : ks.length = vs.length) (n : Node) (strs : List Str)
    (hn : fromData E name (.map .dict t (ks.map .str) vs) = .ok n) (hs : nodeStrings E n false = .ok strs) :
    ∃ functional doc entries, recordText name functional doc entries ∈ strs ∧ entries.map (·.key) = visible ks := by
  unfold fromData at hn
  split at hn
  · split at hn
    · rename_i n' hb
      injection hn with hn
      subst hn
      obtain ⟨entries, h1, h2⟩ := typed_dict_text (im := sigImports E.U) hS hl hb
      exact ⟨_, _, entries, by rw [← h1]; exact root_text_mem (build_root hb) hs, h2⟩
    · cases hn
  · cases hn

/-- **C27** for a dictionary at any place in the data: the declaration that its tree prints. -/
theorem nested_typed_dict_mirrors_keys (E : Env) (hS : E.S.dict = .typedDict) (fuel : Nat) (root : Bool) (name : Str) (t : Ty)
    (ks : List Str) (vs : List Val) (hl : ks.length = vs.length) (n : Node)
    (hn : build E fuel root name (.map .dict t (ks.map .str) vs) = .ok n) :
    ∃ functional doc entries, (n.render E).top.text = recordText name functional doc entries ∧
      entries.map (·.key) = visible ks := by
  cases fuel with
  | zero => cases hn
  | succ f =>
    obtain ⟨entries, h1, h2⟩ := typed_dict_text (im := sigImports E.U) hS hl hn
    exact ⟨_, _, entries, h1, h2⟩

def sampleDict : Val := .map .dict .dict ([py!"b", py!"a", hiddenPrefix ++ py!"b", py!"c"].map .str)
  [.inst .int none, .seq .list .list [.inst .str none], .inst .str (some py!"doc of b"), .inst .noneType none]

example : declsOf (exEnv {}) py!"X" sampleDict =
    [recordText py!"X" false none [⟨py!"b", py!"int", some py!"    \"\"\"doc of b.\"\"\""⟩, ⟨py!"a", py!"List[str]", none⟩,
      ⟨py!"c", py!"Optional[object]", none⟩]] := by decide +kernel
example : visible [py!"b", py!"a", hiddenPrefix ++ py!"b", py!"c"] = [py!"b", py!"a", py!"c"] := by decide +kernel

/-! ### Syntax -/

/-- The full statement of C28, for ASCII keys: class syntax exactly if all visible keys are identifiers and no keywords. -/
def SyntaxByKeys (E : Env) (okKeys : List Str → Prop) : Prop :=
  ∀ (name : Str) (t : Ty) (ks : List Str) (vs : List Val) (n : Node) (strs : List Str), ks.length = vs.length →
    (∀ k ∈ ks, ∀ c ∈ k, isAscii c = true) → okKeys ks →
    fromData E name (.map .dict t (ks.map .str) vs) = .ok n → nodeStrings E n false = .ok strs →
    ∃ functional doc entries, recordText name functional doc entries ∈ strs ∧ entries.map (·.key) = visible ks ∧
      (functional = false ↔ ∀ k ∈ visible ks, AsciiIdent k ∧ k ∉ kwlist)

theorem isFunctional_strs {U : Uni} {ks : List Str} {vs : List Val} (hl : ks.length = vs.length) :
    isFunctional U (DMeta.ofData ((ks.map Key.str).zip vs)) = false ↔ ∀ k ∈ ks, k ∉ kwlist ∧ nameOk U k = true := by
  have hk : ((ks.map Key.str).zip vs).map (·.1) = ks.map Key.str := by
    rw [List.map_fst_zip]; simp [hl]
  simp only [isFunctional, DMeta.ofData, Bool.not_eq_false', Bool.and_eq_true, allStr_strs, true_and, List.all_eq_true]
  constructor
  · intro h k hkm
    have : Key.str k ∈ ((ks.map Key.str).zip vs).map (·.1) := by rw [hk]; exact List.mem_map_of_mem hkm
    obtain ⟨kv, hkv, e⟩ := List.mem_map.mp this
    have := h kv hkv
    rw [e] at this
    simpa using this
  · intro h kv hkv
    obtain ⟨s, hs, e⟩ := List.mem_map.mp (List.of_mem_zip hkv).1
    rw [← e]
    simpa using h s hs

theorem hidden_not_keyword {k : Str} : hiddenPrefix ++ k ∉ kwlist := by
  intro h
  have h1 : ∀ w ∈ kwlist, startsWith w hiddenPrefix = false := by decide +kernel
  have h2 : startsWith (hiddenPrefix ++ k) hiddenPrefix = true := by simp [startsWith]
  rw [h1 _ h] at h2
  cases h2

/-- **C28** for keys that are not made of underscores only, with hidden keys only for existing keys. -/
theorem typed_dict_syntax_partial (E : Env) (hS : E.S.dict = .typedDict) :
    SyntaxByKeys E (fun ks => (∀ k ∈ visible ks, k = [] ∨ ∃ c ∈ k, c ≠ '_') ∧
      (∀ k ∈ ks, startsWith k hiddenPrefix = true → ∃ k' ∈ visible ks, k = hiddenPrefix ++ k')) := by
  intro name t ks vs n strs hl ha hok hn hs
  unfold fromData at hn
  split at hn
  case isFalse => cases hn
  split at hn
  case h_2 => cases hn
  rename_i n' hb
  injection hn with hn
  subst hn
  obtain ⟨entries, h1, h2⟩ := typed_dict_text (im := sigImports E.U) hS hl hb
  refine ⟨_, _, entries, by rw [← h1]; exact root_text_mem (build_root hb) hs, h2, ?_⟩
  rw [isFunctional_strs hl]
  have hvis : ∀ k, k ∈ visible ks ↔ k ∈ ks ∧ startsWith k hiddenPrefix = false := by
    intro k; simp [visible, List.mem_filter]
  constructor
  · intro h k hk
    have hk' := ((hvis k).mp hk).1
    exact ⟨nameOk_ascii_ident E.U k (ha k hk') (h k hk').2, (h k hk').1⟩
  · intro h
    have hv : ∀ k ∈ visible ks, nameOk E.U k = true := by
      intro k hk
      have hk' := ((hvis k).mp hk).1
      have hid := (h k hk).1
      rw [ascii_ident_nameOk E.U k (ha k hk') hid]
      rcases hok.1 k hk with h0 | h0
      · subst h0
        obtain ⟨c, r, e, _⟩ := hid
        cases e
      · exact h0
    intro k hk
    cases hh : startsWith k hiddenPrefix with
    | false => exact ⟨(h k ((hvis k).mpr ⟨hk, hh⟩)).2, hv k ((hvis k).mpr ⟨hk, hh⟩)⟩
    | true =>
      obtain ⟨k', hk', rfl⟩ := hok.2 k hk hh
      refine ⟨hidden_not_keyword, nameOk_append ?_ (word_of_nameOk (hv k' hk'))⟩
      have : nameOk E.U hiddenPrefix = true := by
        rw [ascii_ident_nameOk E.U hiddenPrefix (by decide) ⟨'_', hiddenPrefix.tail, by decide, .inr rfl, by decide⟩]
        exact ⟨'d', by decide, by decide⟩
      exact this

/-- **C28**, unconditionally: class syntax is only used if every visible ASCII key is an identifier and no keyword. -/
theorem class_syntax_is_legal (E : Env) (hS : E.S.dict = .typedDict) (name : Str) (t : Ty) (ks : List Str) (vs : List Val)
    (hl : ks.length = vs.length) (n : Node) (strs : List Str)
    (hn : fromData E name (.map .dict t (ks.map .str) vs) = .ok n) (hs : nodeStrings E n false = .ok strs) :
    ∃ functional doc entries, recordText name functional doc entries ∈ strs ∧ entries.map (·.key) = visible ks ∧
      (functional = false → ∀ k ∈ ks, (∀ c ∈ k, isAscii c = true) → AsciiIdent k ∧ k ∉ kwlist) := by
  unfold fromData at hn
  split at hn
  case isFalse => cases hn
  split at hn
  case h_2 => cases hn
  rename_i n' hb
  injection hn with hn
  subst hn
  obtain ⟨entries, h1, h2⟩ := typed_dict_text (im := sigImports E.U) hS hl hb
  refine ⟨_, _, entries, by rw [← h1]; exact root_text_mem (build_root hb) hs, h2, ?_⟩
  rw [isFunctional_strs hl]
  intro h k hk ha
  exact ⟨nameOk_ascii_ident E.U k ha (h k hk).2, (h k hk).1⟩

example : declsOf (exEnv {}) py!"X" (.dict [(.str py!"a", .inst .int none), (.str py!"class", .inst .int none)]) =
    [recordText py!"X" true none [⟨py!"a", py!"int", none⟩, ⟨py!"class", py!"int", none⟩]] := by decide +kernel

theorem recordText_false_head (n : Str) (d es) : (recordText n false d es).head? = some 'c' := by
  simp [recordText]

/-- **C28** is false: the identifier `_` leads to functional syntax. -/
theorem typed_dict_syntax_fails : ¬ SyntaxByKeys (exEnv {}) (fun _ => True) := by
  intro h
  have hb : ∃ n, fromData (exEnv {}) py!"X" (.map .dict .dict ([py!"_"].map .str) [.inst .int none]) = .ok n ∧
      nodeStrings (exEnv {}) n false = .ok [recordText py!"X" true none [⟨py!"_", py!"int", none⟩]] := by
    refine ⟨_, rfl, by rfl⟩
  obtain ⟨n, h1, h2⟩ := hb
  obtain ⟨f, doc, es, hm, hk, hf⟩ := h py!"X" .dict [py!"_"] [.inst .int none] n _ rfl (by decide) trivial h1 h2
  have : f = false := hf.mpr (by
    intro k hk
    have hk : k = py!"_" := by
      have : visible [py!"_"] = [py!"_"] := by decide +kernel
      rw [this] at hk
      simpa using hk
    subst hk
    exact ⟨⟨'_', [], rfl, .inr rfl, by simp⟩, by decide⟩)
  subst this
  simp only [List.mem_singleton] at hm
  have := recordText_false_head py!"X" doc es
  rw [hm] at this
  simp [recordText] at this

/-! ### Key literals -/

/-- The full statement of C29: in functional syntax the literal printed for a key, read as Python reads it, is the key. -/
def FaithfulKeys (E : Env) (okKeys : List Str → Prop) : Prop :=
  ∀ (name : Str) (t : Ty) (ks : List Str) (vs : List Val) (n : Node) (strs : List Str), ks.length = vs.length → okKeys ks →
    fromData E name (.map .dict t (ks.map .str) vs) = .ok n → nodeStrings E n false = .ok strs →
    ∃ functional doc entries, recordText name functional doc entries ∈ strs ∧ entries.map (·.key) = visible ks ∧
      (functional = true → ∀ e ∈ entries, ∃ r, e.functionalText = py!"        \"" ++ r ∧
        readString r = some (e.key, py!": " ++ e.type ++ py!","))

theorem readString_plain : ∀ {k rest : Str}, (∀ c ∈ k, c ≠ '"' ∧ c ≠ '\\' ∧ c ≠ '\n' ∧ c ≠ '\r') →
    readString (k ++ '"' :: rest) = some (k, rest)
  | [], rest, _ => by simp [readString]
  | c :: k, rest, h => by
    have hc := h c (by simp)
    have ih := readString_plain (k := k) (rest := rest) (fun d hd => h d (by simp [hd]))
    rw [List.cons_append, readString.eq_4, ih]
    · simp [hc.2.2]
    · exact hc.1
    · intro c' r' h1
      exact absurd h1 hc.2.1

/-- **C29** for keys without quotes, backslashes and line breaks. -/
theorem functional_keys_faithful_partial (E : Env) (hS : E.S.dict = .typedDict) :
    FaithfulKeys E (fun ks => ∀ k ∈ visible ks, ∀ c ∈ k, c ≠ '"' ∧ c ≠ '\\' ∧ c ≠ '\n' ∧ c ≠ '\r') := by
  intro name t ks vs n strs hl hok hn hs
  obtain ⟨f, doc, es, h1, h2⟩ := typed_dict_mirrors_keys E hS name t ks vs hl n strs hn hs
  refine ⟨f, doc, es, h1, h2, ?_⟩
  intro _ e he
  refine ⟨e.key ++ '"' :: (py!": " ++ e.type ++ py!","), by simp [RawEntry.functionalText], ?_⟩
  apply readString_plain
  apply hok
  rw [← h2]
  exact List.mem_map_of_mem he

example : ∀ k ∈ visible [py!"a b", py!"it's"], ∀ c ∈ k, c ≠ '"' ∧ c ≠ '\\' ∧ c ≠ '\n' ∧ c ≠ '\r' := by decide +kernel
example : declsOf (exEnv {}) py!"X" (.dict [(.str py!"a b", .inst .int none), (.str py!"it's", .inst .int none)]) =
    [recordText py!"X" true none [⟨py!"a b", py!"int", none⟩, ⟨py!"it's", py!"int", none⟩]] := by decide +kernel

/-- **C29** is false for the key `a\nb` (with a backslash): the printed literal denotes a string with a line break. -/
theorem functional_keys_faithful_fails : ¬ FaithfulKeys (exEnv {}) (fun _ => True) := by
  intro h
  have hb : ∃ n, fromData (exEnv {}) py!"X" (.map .dict .dict ([py!"a\\nb"].map .str) [.inst .int none]) = .ok n ∧
      nodeStrings (exEnv {}) n false = .ok [recordText py!"X" true none [⟨py!"a\\nb", py!"int", none⟩]] :=
    ⟨_, rfl, by rfl⟩
  obtain ⟨n, h1, h2⟩ := hb
  obtain ⟨f, doc, es, hm, hk, hf⟩ := h py!"X" .dict [py!"a\\nb"] [.inst .int none] n _ rfl trivial h1 h2
  have hk' : es.map (·.key) = [py!"a\\nb"] := by rw [hk]; decide +kernel
  cases f with
  | false =>
    simp only [List.mem_singleton] at hm
    have := recordText_false_head py!"X" doc es
    rw [hm] at this
    simp [recordText] at this
  | true =>
    clear hk hm
    cases es with
    | nil => simp at hk'
    | cons e l =>
      obtain ⟨r, h1, h2⟩ := hf rfl e (by simp)
      have hkey : e.key = py!"a\\nb" := by
        simp only [List.map_cons] at hk'
        injection hk'
      simp only [RawEntry.functionalText, hkey, List.append_assoc] at h1
      have h1 := List.append_cancel_left h1
      rw [hkey, ← h1] at h2
      have h3 : ∀ rest : Str, readString (py!"a\\nb\"" ++ rest) = some (py!"a\nb", rest) := by
        intro rest; rfl
      have h4 := h3 (py!": " ++ e.type ++ py!",")
      simp only [List.cons_append, List.nil_append] at h2 h4
      rw [h4] at h2
      simp at h2

end Verif.Props
