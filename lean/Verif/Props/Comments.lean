import Verif.Lemmas.BareRender
import Verif.Props.Coherent
/-
C87 and C88: comments of keys, passed along in the data under hidden keys.
-/
namespace Verif.Props
open Verif Verif.Spec

/-- What **C87** says of values with the property `P`: without the comments the outcome is the same, up to the docstrings of keys. The
imports are the same, and there are the same declarations in the same order before those with equal texts are dropped. -/
def CommentsOnlyDocument (E : Env) (P : Val → Prop) : Prop := ∀ name v, P v →
  (∀ e, fromData E name v = .error e ↔ fromData E name (withoutComments v) = .error e) ∧
  ∀ n n', fromData E name v = .ok n → fromData E name (withoutComments v) = .ok n' →
    (∀ b e, nodeStrings E n b = .error e ↔ nodeStrings E n' b = .error e) ∧
    ∃ l l', All₂ UpToDocs l l' ∧
      (∀ strs, nodeStrings E n false = .ok strs → strs = dedup l ∧ nodeStrings E n' false = .ok (dedup l')) ∧
      (∀ strs, nodeStrings E n true = .ok strs → ∃ imports, strs = imports :: dedup l ∧ nodeStrings E n' true = .ok (imports :: dedup l'))

/-- **C87** (partial) for comments that belong to a key, if hidden keys do not count against a limit on the elements to inspect. -/
theorem comments_only_document_partial {E : Env} (hE : E.Fair) (hO : OrderIgnoresComments E) (hk : (Key.str E.S.keyDoc).hidden = false) :
    CommentsOnlyDocument E (Commented E.S) := by
  intro name v hv
  obtain ⟨h1, h2⟩ := fromData_bare (name := name) hE hO hv
  rw [h1]
  constructor
  · intro e
    cases fromData E name v with
    | error e' => exact ⟨fun h => by injection h with h; rw [h]; rfl, fun h => by injection h with h; rw [h]⟩
    | ok n => exact ⟨fun h => by (cases h), fun h => by (cases h)⟩
  · intro n n' hn hn'
    rw [hn] at hn'
    injection hn' with hn'
    subst hn'
    have ho : OutDoc (n.render E) ((bareTree n).render E) := out_doc hk n (h2 n hn)
    have hf := firstFailure_doc ho.emitted
    have hkw : allKws (n.render E) = allKws ((bareTree n).render E) := by
      unfold allKws
      rw [ho.emitted.flatMap_eq (f := (·.kws)) (g := (·.kws)) (fun _ _ h => h.kws)]
    have he : (declTexts (n.render E)).isEmpty = (declTexts ((bareTree n).render E)).isEmpty := by
      have h0 := ho.emitted.isEmpty
      unfold declTexts
      cases h1 : (n.render E).emitted <;> cases h2 : ((bareTree n).render E).emitted <;> rw [h1, h2] at h0 <;> first | rfl | cases h0
    refine ⟨?_, (n.render E).emitted.map (·.text), ((bareTree n).render E).emitted.map (·.text),
      ho.emitted.map (fun _ _ h => h.text), ?_, ?_⟩
    · intro b e
      unfold nodeStrings
      dsimp only
      rw [← hf, ← he, ← hkw]
      cases firstFailure (n.render E).emitted with
      | some e' => exact Iff.rfl
      | none =>
        dsimp only
        split
        · exact Iff.rfl
        · split
          · cases formatImports 90 (allKws (n.render E)) with
            | ok i => exact ⟨fun h => by (cases h), fun h => by (cases h)⟩
            | error kw => exact Iff.rfl
          · exact ⟨fun h => by (cases h), fun h => by (cases h)⟩
    · intro strs hs
      unfold nodeStrings at hs ⊢
      dsimp only at hs ⊢
      rw [← hf, ← he]
      cases hff : firstFailure (n.render E).emitted with
      | some e' => rw [hff] at hs; cases hs
      | none =>
        rw [hff] at hs
        dsimp only at hs ⊢
        split at hs
        · cases hs
        · rename_i hne
          simp only [Bool.false_eq_true, if_false] at hs ⊢
          injection hs with hs
          exact ⟨hs.symm, by simp only [hne]; rfl⟩
    · intro strs hs
      unfold nodeStrings at hs ⊢
      dsimp only at hs ⊢
      rw [← hf, ← he, ← hkw]
      cases hff : firstFailure (n.render E).emitted with
      | some e' => rw [hff] at hs; cases hs
      | none =>
        rw [hff] at hs
        dsimp only at hs ⊢
        split at hs
        · cases hs
        · rename_i hne
          simp only [if_true] at hs ⊢
          cases hi : formatImports 90 (allKws (n.render E)) with
          | error kw => rw [hi] at hs; cases hs
          | ok i =>
            rw [hi] at hs
            injection hs with hs
            exact ⟨i, hs.symm, by simp only [hne]; rfl⟩

/-- **C21** (partial) for data with comments: the declarations, without the docstrings of keys, admit the data without the comments. -/
theorem hint_sound_comments_partial {E : Env} (hE : E.Fair) (hm : 0 < E.S.merge) (hO : OrderIgnoresComments E) (hk : (Key.str E.S.keyDoc).hidden = false)
    {name : Str} {v : Val} (hv : Commented E.S v) (h : WellBehaved E.S name (withoutComments v)) {n : Node} (hn : fromData E name v = .ok n)
    {strs : List Str} (hs : nodeStrings E n false = .ok strs) :
    ∃ l l' Γ, strs = dedup l ∧ All₂ UpToDocs l l' ∧ readText (dedup l') = some Γ ∧ (Γ.map (·.name)).Nodup ∧
      Admits Γ (.name name) (withoutComments v) := by
  obtain ⟨Γ, ⟨n', strs', h1, h2, h3⟩, hnd, ha, _⟩ := hint_sound_clear_partial hE hm h
  obtain ⟨_, l, l', hl, hb, _⟩ := (comments_only_document_partial hE hO hk name v hv).2 n n' hn h1
  obtain ⟨e1, e2⟩ := hb strs hs
  rw [h2] at e2
  injection e2 with e2
  exact ⟨l, l', Γ, e1, hl, e2 ▸ h3, hnd, ha⟩

theorem exEnv_order (S : Strategies) : OrderIgnoresComments (exEnv S) := fun _ _ => rfl

theorem record_has_newline (name : Str) (f : Bool) (doc : Option Str) (es : List RawEntry) : '\n' ∈ recordText name f doc es := by
  cases f <;> simp [recordText]

theorem record_functional_brace (name : Str) (doc : Option Str) (es : List RawEntry) : '{' ∈ recordText name true doc es := by
  simp [recordText]

theorem record_class_head (name : Str) (doc : Option Str) (es : List RawEntry) : (recordText name false doc es).head? = some 'c' := by
  simp [recordText]

/-- The only declaration with comments corresponds to the only one without. -/
theorem single_up_to_docs {l l' : List Str} {t t' : Str} (h : All₂ UpToDocs l l') (e : [t] = dedup l) (e' : dedup l' = [t']) : UpToDocs t t' := by
  have h1 : t ∈ l := mem_dedup.mp (by rw [← e]; simp)
  obtain ⟨b, hb, hu⟩ := h.mem_left t h1
  have h2 : b ∈ dedup l' := mem_dedup.mpr hb
  rw [e'] at h2
  simp only [List.mem_singleton] at h2
  exact h2 ▸ hu

/-- The texts generated for a value. -/
def hintTexts (E : Env) (name : Str) (v : Val) : Option (List Str) :=
  match fromData E name v with
  | .ok n => (match nodeStrings E n false with
    | .ok strs => some strs
    | .error _ => none)
  | .error _ => none

theorem hintTexts_some {E : Env} {name : Str} {v : Val} {strs : List Str} (h : hintTexts E name v = some strs) :
    ∃ n, fromData E name v = .ok n ∧ nodeStrings E n false = .ok strs := by
  unfold hintTexts at h
  split at h
  · rename_i n hn
    refine ⟨n, hn, ?_⟩
    split at h
    · rename_i s hs
      injection h with h
      rw [hs, h]
    · cases h
  · cases h

/-- The hint of one declaration changes only in docstrings. -/
theorem single_hint {E : Env} {P : Val → Prop} (h : CommentsOnlyDocument E P) {name : Str} {v : Val} (hv : P v) {t t' : Str}
    (e : hintTexts E name v = some [t]) (e' : hintTexts E name (withoutComments v) = some [t']) : UpToDocs t t' := by
  obtain ⟨n, a1, a2⟩ := hintTexts_some e
  obtain ⟨n', b1, b2⟩ := hintTexts_some e'
  obtain ⟨_, l, l', hl, hs, _⟩ := (h name v hv).2 n n' a1 b1
  obtain ⟨s1, s2⟩ := hs _ a2
  rw [b2] at s2
  injection s2 with s2
  exact single_up_to_docs hl s1 s2.symm

/-- A dictionary with a comment on its first key. -/
def commentedPair : Val := .map .dict .dict [.str py!"a", .str py!"___docstring_hidden_key_a", .str py!"b"]
  [.inst .int none, .inst .str (some py!"The first"), .inst .str (some py!"x")]

theorem commentedPair_ok {S : Strategies} (h : S.dict = .typedDict ∨ Inspected S 3) : Commented S commentedPair := by
  unfold Commented commentedPair
  simp only [Every, EveryList, CommentedAt, Owned]
  refine ⟨⟨rfl, ?_, ?_, h.imp (fun h => ⟨trivial, h⟩) id⟩, by simp⟩
  · intro k hk hh
    simp only [List.mem_cons, List.not_mem_nil, or_false] at hk
    rcases hk with rfl | rfl | rfl
    · exact absurd hh (by decide)
    · exact ⟨py!"a", by decide, by decide, by decide⟩
    · exact absurd hh (by decide)
  · intro kv hkv hh
    simp only [List.zip_cons_cons, List.zip_nil_right, List.mem_cons, List.not_mem_nil, or_false] at hkv
    rcases hkv with rfl | rfl | rfl
    · exact absurd hh (by decide)
    · exact ⟨_, rfl⟩
    · exact ⟨_, rfl⟩

/-- **C87**, negation: comments use up the limit on the elements to inspect. -/
theorem comments_only_document_fails : ¬ CommentsOnlyDocument (exEnv { dict := .dict, checkMax := 2 }) (Commented { dict := .dict, checkMax := 0 }) := by
  intro h
  have hu := single_hint h (name := py!"A") (v := commentedPair) (commentedPair_ok (.inr (.inl rfl)))
    (t := py!"A: TypeAlias = Dict[str, int]") (t' := py!"A: TypeAlias = Dict[str, Union[int, str]]") (by decide +kernel) (by decide +kernel)
  generalize e1 : py!"A: TypeAlias = Dict[str, int]" = t at hu
  generalize e2 : py!"A: TypeAlias = Dict[str, Union[int, str]]" = t' at hu
  cases hu with
  | same => rw [← e1] at e2; revert e2; decide
  | record name f doc es =>
    have := record_has_newline name f doc es
    rw [← e1] at this
    revert this; decide

/-- **C87**, negation for comments that belong to no key: they may change the syntax of the TypedDict. -/
theorem comments_only_document_fails_unowned : ¬ CommentsOnlyDocument (exEnv {}) (fun v => v = .map .dict .dict
    [.str py!"a", .str py!"___docstring_hidden_key_b c"] [.inst .int none, .inst .str (some py!"Gone")]) := by
  intro h
  have hu := single_hint h (name := py!"A") rfl
    (t := py!"A = TypedDict(\n    \"A\",\n    {\n        \"a\": int,\n    },\n)") (t' := py!"class A(TypedDict):\n    a: int") (by decide +kernel) (by decide +kernel)
  generalize e1 : py!"A = TypedDict(\n    \"A\",\n    {\n        \"a\": int,\n    },\n)" = t at hu
  generalize e2 : py!"class A(TypedDict):\n    a: int" = t' at hu
  cases hu with
  | same => rw [← e1] at e2; revert e2; decide
  | record name f doc es =>
    cases f with
    | true =>
      have := record_functional_brace name doc (es.map fun e => { e with doc := none })
      rw [← e2] at this
      revert this; decide
    | false =>
      have := record_class_head name doc es
      rw [← e1] at this
      revert this; decide

/-- Hypotheses of `hint_sound_comments_partial`. -/
example : Commented {} commentedPair ∧ WellBehaved {} py!"Config" (withoutComments commentedPair) :=
  ⟨commentedPair_ok (.inl rfl), wellBehavedB_sound (f := 10) (by decide +kernel)⟩

/-- Data in which comments are nested and elements are merged. -/
example : Commented {} (.seq .list .list [commentedPair, .map .dict .dict [.str py!"b"] [.inst .str none]]) ∧
    hintTexts (exEnv { merge := 40 }) py!"A" (.seq .list .list [commentedPair, .map .dict .dict [.str py!"b"] [.inst .str none]]) =
      some [py!"class ADict(TypedDict):\n    a: NotRequired[int]\n    \"\"\"The first.\"\"\"\n    b: str", py!"A: TypeAlias = List[ADict]"] ∧
    hintTexts (exEnv { merge := 40 }) py!"A" (withoutComments (.seq .list .list [commentedPair, .map .dict .dict [.str py!"b"] [.inst .str none]])) =
      some [py!"class ADict(TypedDict):\n    a: NotRequired[int]\n    b: str", py!"A: TypeAlias = List[ADict]"] := by
  refine ⟨?_, by decide +kernel, by decide +kernel⟩
  have := commentedPair_ok (S := {}) (.inl rfl)
  unfold Commented at this ⊢
  simp only [Every, EveryList, CommentedAt, Owned, true_and, and_true]
  refine ⟨this, rfl, ?_, ?_, .inl trivial⟩
  · intro k hk hh
    simp only [List.mem_singleton] at hk
    subst hk
    exact absurd hh (by decide)
  · intro kv hkv hh
    simp only [List.zip_cons_cons, List.zip_nil_right, List.mem_singleton] at hkv
    subst hkv
    exact absurd hh (by decide)

/-- Equal dictionaries under several keys are declared once; the comments of the others are lost. -/
example : hintTexts (exEnv {}) py!"A" (.map .dict .dict [.str py!"p", .str py!"q"]
      [.map .dict .dict [.str py!"a"] [.inst .int none],
       .map .dict .dict [.str py!"a", .str py!"___docstring_hidden_key_a"] [.inst .int none, .inst .str (some py!"Two")]]) =
    some [py!"class ADict(TypedDict):\n    a: int", py!"class A(TypedDict):\n    p: ADict\n    q: ADict"] := by decide +kernel

/-! ### C88 -/

/-- The comment stored for the key `k`. -/
def CommentFor (ks : List Str) (vs : List Val) (k text : Str) : Prop :=
  (hiddenPrefix ++ k, Val.inst .str (some text)) ∈ ks.zip vs

/-- What **C88** says of the keys `P`: the class of a dictionary has its visible keys in order, and each is followed by its comment
as a docstring if it has one, and by nothing otherwise. -/
def CommentsShown (E : Env) (P : List Str → Prop) : Prop := ∀ name t ks vs n strs, ks.length = vs.length → ks.Nodup →
  (∀ kv ∈ ks.zip vs, startsWith kv.1 hiddenPrefix = true → ∃ text, kv.2 = .inst .str (some text)) → P ks →
  fromData E name (.map .dict t (ks.map .str) vs) = .ok n → nodeStrings E n false = .ok strs →
  ∃ doc es, recordText name false doc es ∈ strs ∧ es.map (·.key) = visible ks ∧
    ∀ e ∈ es, ∀ d, e.doc = some d ↔ ∃ text, CommentFor ks vs e.key text ∧ d = formatDoc text 90 py!"    "

theorem lookup_strs {ks : List Str} {vs : List Val} {k : Str} {v : Val} (hn : ks.Nodup) :
    lookupKey (.str k) ((ks.map Key.str).zip vs) = some v ↔ (k, v) ∈ ks.zip vs := by
  induction ks generalizing vs with
  | nil => simp [lookupKey]
  | cons k' ks ih =>
    cases vs with
    | nil => simp [lookupKey]
    | cons v' vs =>
      rw [List.nodup_cons] at hn
      simp only [List.map_cons, List.zip_cons_cons, lookupKey, Key.str.injEq, List.mem_cons, Prod.mk.injEq]
      split
      · rename_i e
        subst e
        constructor
        · intro h; injection h with h; exact .inl ⟨rfl, h.symm⟩
        · rintro (⟨_, h⟩ | h)
          · rw [h]
          · exact absurd (List.of_mem_zip h).1 hn.1
      · rename_i e
        rw [ih hn.2]
        constructor
        · exact .inr
        · rintro (⟨h, _⟩ | h)
          · exact absurd h.symm e
          · exact h

/-- The docstring of a visible key is its comment. -/
theorem entryDoc_comment {ks : List Str} {vs : List Val} (hnd : ks.Nodup)
    (htx : ∀ kv ∈ ks.zip vs, startsWith kv.1 hiddenPrefix = true → ∃ text, kv.2 = .inst .str (some text)) {k : Str}
    (hvis : startsWith k hiddenPrefix = false) {d : Str} : entryDoc (DMeta.ofData ((ks.map Key.str).zip vs)) k = some d ↔
      ∃ text, CommentFor ks vs k text ∧ d = formatDoc text 90 py!"    " := by
  unfold entryDoc keyDoc CommentFor
  have ha : (DMeta.ofData ((ks.map Key.str).zip vs)).data = (ks.map Key.str).zip vs := rfl
  rw [ha, allStr_strs, hvis]
  simp only [Bool.not_false, Bool.and_self, if_true]
  cases hlk : lookupKey (.str (hiddenPrefix ++ k)) ((ks.map Key.str).zip vs) with
  | none =>
    constructor
    · intro h; cases h
    · rintro ⟨text, ht, _⟩
      rw [(lookup_strs hnd).mpr ht] at hlk
      cases hlk
  | some v =>
    obtain ⟨text, rfl⟩ := htx _ ((lookup_strs hnd).mp hlk) (by simp [startsWith])
    constructor
    · intro h
      injection h with h
      exact ⟨text, (lookup_strs hnd).mp hlk, h.symm⟩
    · rintro ⟨text', ht, rfl⟩
      rw [(lookup_strs hnd).mpr ht] at hlk
      injection hlk with hlk
      injection hlk with _ hlk
      injection hlk with hlk
      rw [hlk]
      rfl

/-- **C88** (partial) for visible ASCII keys that are identifiers, have a letter or digit and are no keywords; other dictionaries
get the functional syntax, which shows no comments. -/
theorem comments_shown_partial (E : Env) (hS : E.S.dict = .typedDict) :
    CommentsShown E (fun ks => (∀ k ∈ visible ks, (∀ c ∈ k, isAscii c = true) ∧ AsciiIdent k ∧ (∃ c ∈ k, c ≠ '_') ∧ k ∉ kwlist) ∧
      (∀ k ∈ ks, startsWith k hiddenPrefix = true → ∃ k' ∈ visible ks, k = hiddenPrefix ++ k')) := by
  intro name t ks vs n strs hl hnd htx hok hn hs
  unfold fromData at hn
  split at hn
  case isFalse => cases hn
  split at hn
  case h_2 => cases hn
  rename_i n' hb
  injection hn with hn
  subst hn
  obtain ⟨zk, h1, h2, h3⟩ := typed_dict_raw (im := sigImports E.U) hS hl hb
  have hv : ∀ k ∈ visible ks, k ∉ kwlist ∧ nameOk E.U k = true := by
    intro k hk
    obtain ⟨a, b, c, d⟩ := hok.1 k hk
    exact ⟨d, by rw [ascii_ident_nameOk E.U k a b]; exact c⟩
  have hf : isFunctional E.U (DMeta.ofData ((ks.map Key.str).zip vs)) = false := by
    rw [isFunctional_strs hl]
    intro k hk
    cases hh : startsWith k hiddenPrefix with
    | false => exact hv k (by simp [visible, List.mem_filter, hk, hh])
    | true =>
      obtain ⟨k', hk', rfl⟩ := hok.2 k hk hh
      have := ident_hidden (hv k' hk').2
      simpa using this
  rw [hf] at h1
  refine ⟨_, _, by rw [← h1]; exact root_text_mem (build_root hb) hs, h2, ?_⟩
  intro e he d
  rw [h3 e he]
  have hvis : startsWith e.key hiddenPrefix = false := by
    have : e.key ∈ visible ks := by rw [visible, ← h2]; exact List.mem_map_of_mem he
    simpa [visible, List.mem_filter] using (List.mem_filter.mp this).2
  exact entryDoc_comment hnd htx hvis

/-- **C88**, negation: in functional syntax no comments are shown. -/
theorem comments_shown_fails : ¬ CommentsShown (exEnv {}) (fun _ => True) := by
  intro h
  have e : hintTexts (exEnv {}) py!"A" (.map .dict .dict ([py!"a b", py!"___docstring_hidden_key_a b"].map .str)
      [.inst .int none, .inst .str (some py!"The first")]) =
    some [py!"A = TypedDict(\n    \"A\",\n    {\n        \"a b\": int,\n    },\n)"] := by decide +kernel
  obtain ⟨n, hn, hs⟩ := hintTexts_some e
  obtain ⟨doc, es, h1, _⟩ := h py!"A" .dict _ _ n _ rfl (by decide) (by
    intro kv hkv hh
    simp only [List.zip_cons_cons, List.zip_nil_right, List.mem_cons, List.not_mem_nil, or_false] at hkv
    rcases hkv with rfl | rfl
    · exact absurd hh (by decide)
    · exact ⟨_, rfl⟩) trivial hn hs
  simp only [List.mem_singleton] at h1
  have h2 := record_class_head py!"A" doc es
  rw [h1] at h2
  revert h2; decide

/-- Keys as in `comments_shown_partial`, and the text. -/
example : (∀ k ∈ visible [py!"port", py!"___docstring_hidden_key_port", py!"host"], (∀ c ∈ k, isAscii c = true) ∧ AsciiIdent k ∧ (∃ c ∈ k, c ≠ '_') ∧ k ∉ kwlist) ∧
    (∀ k ∈ [py!"port", py!"___docstring_hidden_key_port", py!"host"], startsWith k hiddenPrefix = true →
      ∃ k' ∈ visible [py!"port", py!"___docstring_hidden_key_port", py!"host"], k = hiddenPrefix ++ k') ∧
    hintTexts (exEnv {}) py!"A" (.map .dict .dict ([py!"port", py!"___docstring_hidden_key_port", py!"host"].map .str)
      [.inst .int none, .inst .str (some py!"Where to listen"), .inst .str (some py!"localhost")]) =
      some [py!"class A(TypedDict):\n    port: int\n    \"\"\"Where to listen.\"\"\"\n    host: str"] := by
  refine ⟨?_, ?_, by decide +kernel⟩
  · have : visible [py!"port", py!"___docstring_hidden_key_port", py!"host"] = [py!"port", py!"host"] := by decide
    rw [this]
    intro k hk
    simp only [List.mem_cons, List.not_mem_nil, or_false] at hk
    rcases hk with rfl | rfl
    · exact ⟨by decide, ⟨'p', py!"ort", rfl, .inl (by decide), by decide⟩, by decide, by decide⟩
    · exact ⟨by decide, ⟨'h', py!"ost", rfl, .inl (by decide), by decide⟩, by decide, by decide⟩
  · decide

end Verif.Props
