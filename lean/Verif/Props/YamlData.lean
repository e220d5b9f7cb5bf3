import Verif.Lemmas.YamlShown
import Verif.Props.YamlLoad
import Verif.Props.Comments
/-
C101: the hint of a YAML file, from the text of the file to the text of the hint.
-/
namespace Verif.Props
open Verif Verif.Spec

/-- The comments of every line can be written as text blocks. -/
def TextsWritable (U : Uni) (cs : List CommentsAre) (lines : List Str) : Prop := ∀ i line ts, lines[i]? = some line →
  TextsOf U lines i line cs ts → ts ≠ [] → TextBlock (splitlines (join py!"\n\n" ts))

theorem becomes_at {U : Uni} {tabs : Bool} {T : Nat → Str → List Str → Prop} {lines : List Str} : ∀ {i : Nat} {r out : List Str},
    (∃ pre, lines = pre ++ r ∧ pre.length = i) → Becomes U tabs T i r out → Becomes U tabs (fun i line ts => lines[i]? = some line ∧ T i line ts) i r out
  | i, _, _, _, .nil _ => .nil i
  | i, line :: r, _, ⟨pre, hpre, hlen⟩, .cons hts hb hrest =>
    .cons ⟨by rw [hpre, ← hlen]; simp, hts⟩ hb (becomes_at ⟨pre ++ [line], by rw [hpre]; simp, by simp [hlen]⟩ hrest)

theorem join_of_glued {a b : List Str} (h : glued a = glued b) : join py!"\n" a = join py!"\n" b := by
  cases a with
  | nil =>
    cases b with
    | nil => rfl
    | cons x b => rw [glued_cons] at h; cases h
  | cons x a =>
    cases b with
    | nil => rw [glued_cons] at h; cases h
    | cons y b =>
      rw [glued_join (by simp), glued_join (by simp)] at h
      injection h

theorem bare_ok {m' : YMap} (hd : m'.Documented) (h1 : m'.bare.items ≠ []) (h2 : (m'.bare.items.map (·.1)).Nodup) :
    m'.items ≠ [] ∧ (m'.items.map (·.1)).Nodup := by
  refine ⟨fun h => ?_, YMap.nodup_keys m' hd h2⟩
  have := YMap.key_bare m' hd
  rw [h] at this
  cases hv : m'.bare.items with
  | nil => exact h1 hv
  | cons kv d =>
    have := (this kv.1).mp (by rw [hv]; simp)
    simp at this

theorem doc_injected {U : Uni} {T : Nat → Str → List Str → Prop} (hT : ∀ i line ts, T i line ts → ts ≠ [] → TextBlock (splitlines (join py!"\n\n" ts)))
    {d : YDoc} (hd : d.OK) (hp : d.Plain) {out : List Str} (h : Becomes U false T 0 d.lines out) :
    ∃ d' : YDoc, join py!"\n" out = join py!"\n" d'.lines ∧ d'.OK ∧ d.Documents d' ∧ d'.Shows (BlockFor U T) := by
  cases d with
  | map m =>
    obtain ⟨m', e, hm, ok, _, sh, g⟩ := (map_injected hT m hd.2.2 hp).1 0 0 out h
    obtain ⟨o1, o2⟩ := bare_ok hm (by rw [e]; exact hd.1) (by rw [e]; exact hd.2.1)
    exact ⟨.map m', join_of_glued g, ⟨o1, o2, ok⟩, ⟨e, hm⟩, sh⟩
  | seq s =>
    obtain ⟨s', e, hm, ok, ne, sh, g⟩ := seq_injected hT s hd.2 hp 0 0 out h
    exact ⟨.seq s', join_of_glued g, ⟨ne hd.1, ok⟩, ⟨e, hm⟩, sh⟩

/-- **C101**, the text (partial). The temporary file made of a document is a document again, the same one with some comments as text
blocks under hidden keys, each right before its key. -/
theorem temporary_document_partial (U : Uni) (cs : List CommentsAre) (d : YDoc) (hd : d.OK) (hp : d.Plain)
    (hw : .above ∈ cs → NoWrap d.lines) (ht : TextsWritable U cs d.lines) :
    ∃ d' : YDoc, withHiddenKeys U cs d.lines = .ok (join py!"\n" d'.lines) ∧ d'.OK ∧ d.Documents d' ∧
      d'.Shows (BlockFor U fun i line ts => d.lines[i]? = some line ∧ TextsOf U d.lines i line cs ts) := by
  have hg := doc_good hd hp
  obtain ⟨text, h⟩ := extraction_succeeds_partial U cs d.lines (fun l hl r hr => (hg l hl).2 r hr)
  obtain ⟨out, h1, h2⟩ := comments_attached_partial U cs d.lines false (doc_indented hd hp) hw text h
  obtain ⟨d', e, ok, hdoc, hs⟩ := doc_injected (fun i line ts h => ht i line ts h.1 h.2) hd hp (becomes_at ⟨[], rfl, rfl⟩ h2)
  exact ⟨d', by rw [h, h1, e], ok, hdoc, hs⟩

/-- With comments beside the keys (the default) every comment can be written as a text block. -/
theorem side_writable (U : Uni) (d : YDoc) (hd : d.OK) (hp : d.Plain) : TextsWritable U [.side] d.lines := by
  intro i line ts hl h hne
  exact side_block (doc_good hd hp line (List.mem_of_getElem? hl)).1 h hne

theorem temporary_document_side (U : Uni) (d : YDoc) (hd : d.OK) (hp : d.Plain) :
    ∃ d' : YDoc, withHiddenKeys U [.side] d.lines = .ok (join py!"\n" d'.lines) ∧ d'.OK ∧ d.Documents d' ∧
      d'.Shows (BlockFor U fun i line ts => d.lines[i]? = some line ∧ TextsOf U d.lines i line [.side] ts) :=
  temporary_document_partial U [.side] d hd hp (by simp) (side_writable U d hd hp)

/-! ### The hint of the file -/

/-- The second tree gives the same hint as the first one, up to the docstrings of keys: the same imports, and the same declarations in
the same order before those with equal texts are dropped. -/
def SameHintUpToDocs (E : Env) (n n' : Node) : Prop :=
  (∀ b e, nodeStrings E n b = .error e ↔ nodeStrings E n' b = .error e) ∧
  ∃ l l', All₂ UpToDocs l l' ∧
    (∀ strs, nodeStrings E n false = .ok strs → strs = dedup l ∧ nodeStrings E n' false = .ok (dedup l')) ∧
    (∀ strs, nodeStrings E n true = .ok strs → ∃ imports, strs = imports :: dedup l ∧ nodeStrings E n' true = .ok (imports :: dedup l'))

theorem sameHintUpToDocs_refl {E : Env} (n : Node) : SameHintUpToDocs E n n := by
  refine ⟨fun _ _ => Iff.rfl, ?_⟩
  have rl : ∀ l : List Str, All₂ UpToDocs l l := by
    intro l
    induction l with
    | nil => exact .nil
    | cons a l ih => exact .cons (.same a) ih
  refine ⟨(n.render E).emitted.map (·.text), (n.render E).emitted.map (·.text), rl _, fun strs hs => ?_, fun strs hs => ?_⟩
  · have : strs = declTexts (n.render E) := by
      unfold nodeStrings at hs
      simp only at hs
      split at hs
      · cases hs
      · split at hs
        · cases hs
        · injection hs with hs; exact hs.symm
    exact ⟨this, by rw [hs, this]; rfl⟩
  · have : ∃ imports, strs = imports :: declTexts (n.render E) := by
      unfold nodeStrings at hs
      simp only at hs
      split at hs
      · cases hs
      · split at hs
        · cases hs
        · split at hs
          · split at hs
            · injection hs with hs; exact ⟨_, hs.symm⟩
            · cases hs
          · rename_i h; exact absurd trivial h
    obtain ⟨imports, rfl⟩ := this
    exact ⟨imports, rfl, hs⟩

/-- A YAML file with the document `d`, under a name that says so. -/
def FileOf (f : YamlFile) (d : YDoc) : Prop :=
  f.content = some d.text ∧ ∃ stem, stem ≠ [] ∧ (f.name = stem ++ py!".yaml" ∨ f.name = stem ++ py!".yml")

/-- The loader reads the file, and the temporary file with the document `d'`, as YAML says. -/
def LoadsBoth {ε : Type} (load : Loader ε) (f : YamlFile) (d d' : YDoc) : Prop :=
  load f.name f.content = .ok d.value ∧ load (tempName f.name) (some (join py!"\n" d'.lines)) = .ok d'.value

theorem opened {f : YamlFile} {d : YDoc} (hf : FileOf f d) (hd : d.OK) (hp : d.Plain) {cs : List CommentsAre} (hcs : ¬ (.above ∈ cs ∧ .below ∈ cs)) :
    yamlOpen f.name f.content cs = .ok d.lines :=
  yaml_opened_iff.mpr ⟨hcs, hf.2, d.text, hf.1, (YDoc_text_lines hd hp).symm⟩

/-- **C101** (partial). For a file with a document of nested mappings, sequences and scalars, `from_yaml_file` with comments gives the
same hint as without, up to the docstrings of keys; if it fails, it fails in the same way. -/
theorem yaml_hint_partial (E : Env) (hE : E.Fair) (hO : OrderIgnoresComments E) (hS : E.S.dict = .typedDict)
    (hk : (Key.str E.S.keyDoc).hidden = false) (cs : List CommentsAre) (hcs : ¬ (.above ∈ cs ∧ .below ∈ cs)) (d : YDoc) (hd : d.OK) (hp : d.Plain)
    (hw : .above ∈ cs → NoWrap d.lines) (ht : TextsWritable E.U cs d.lines) (f : YamlFile) (hf : FileOf f d) :
    ∃ d' : YDoc, withHiddenKeys E.U cs d.lines = .ok (join py!"\n" d'.lines) ∧ d'.OK ∧ d.Documents d' ∧
      ∀ {ε : Type} (load : Loader ε) (canWrite : Bool) (c : Str), LoadsBoth load f d d' →
        (∀ e, fromYaml E load canWrite f (some cs) c = .error e ↔ fromYaml E load canWrite f none c = .error e) ∧
        ∀ n n', fromYaml E load canWrite f (some cs) c = .ok n → fromYaml E load canWrite f none c = .ok n' → SameHintUpToDocs E n n' := by
  obtain ⟨d', h1, h2, h3, _⟩ := temporary_document_partial E.U cs d hd hp hw ht
  refine ⟨d', h1, h2, h3, fun {ε} load canWrite c hl => ?_⟩
  have key := comments_only_document_partial hE hO hk c d'.value (YDoc.commented hS h3)
  rw [YDoc.bare_value h3] at key
  unfold fromYaml
  simp only [opened hf hd hp hcs, hl.1]
  cases hcd : commentedData E.U load canWrite f cs d.lines with
  | none =>
    refine ⟨fun e => Iff.rfl, fun n n' hn hn' => ?_⟩
    dsimp only at hn hn'
    rw [hn] at hn'
    injection hn' with hn'
    subst hn'
    exact sameHintUpToDocs_refl n
  | some v' =>
    obtain ⟨_, text, ht', hl'⟩ := commentedData_some.mp hcd
    rw [h1] at ht'
    injection ht' with ht'
    subst ht'
    rw [hl.2] at hl'
    injection hl' with hl'
    subst hl'
    dsimp only
    cases hn : fromData E c d'.value with
    | error e =>
      have := (key.1 e).mp hn
      rw [this]
      exact ⟨fun _ => Iff.rfl, fun n n' h => by cases h⟩
    | ok n =>
      cases hn' : fromData E c d.value with
      | error e => rw [(key.1 e).mpr hn'] at hn; cases hn
      | ok n' =>
        refine ⟨fun e => ⟨fun h => by (cases h), fun h => by (cases h)⟩, fun m m' hm hm' => ?_⟩
        dsimp only at hm
        injection hm with hm
        injection hm' with hm'
        subst hm hm'
        exact key.2 n n' hn hn'

/-- **C101** and **C21** (partial): the hint, without the docstrings of keys, admits the data of the file. -/
theorem yaml_hint_sound_partial (E : Env) (hE : E.Fair) (hO : OrderIgnoresComments E) (hS : E.S.dict = .typedDict) (hm : 0 < E.S.merge)
    (hk : (Key.str E.S.keyDoc).hidden = false) (cs : List CommentsAre) (hcs : ¬ (.above ∈ cs ∧ .below ∈ cs)) (d : YDoc) (hd : d.OK) (hp : d.Plain)
    (hw : .above ∈ cs → NoWrap d.lines) (ht : TextsWritable E.U cs d.lines) (f : YamlFile) (hf : FileOf f d) (c : Str) (hv : WellBehaved E.S c d.value) :
    ∃ d' : YDoc, d'.OK ∧ d.Documents d' ∧
      ∀ {ε : Type} (load : Loader ε) (canWrite : Bool), LoadsBoth load f d d' →
        ∃ n strs, fromYaml E load canWrite f (some cs) c = .ok n ∧ nodeStrings E n false = .ok strs ∧
          ∃ l l' Γ, strs = dedup l ∧ All₂ UpToDocs l l' ∧ readText (dedup l') = some Γ ∧ (Γ.map (·.name)).Nodup ∧ Admits Γ (.name c) d.value := by
  obtain ⟨d', _, h2, h3, h⟩ := yaml_hint_partial E hE hO hS hk cs hcs d hd hp hw ht f hf
  refine ⟨d', h2, h3, fun {ε} load canWrite hl => ?_⟩
  obtain ⟨Γ, ⟨n', strs', e1, e2, e3⟩, hnd, ha, _⟩ := hint_sound_clear_partial hE hm hv
  obtain ⟨g1, g2⟩ := h load canWrite c hl
  have plain : fromYaml E load canWrite f none c = .ok n' := by
    unfold fromYaml
    simp only [hl.1, e1]
    rfl
  cases hn : fromYaml E load canWrite f (some cs) c with
  | error e => rw [(g1 e).mp hn] at plain; cases plain
  | ok n =>
    obtain ⟨b1, l, l', b2, b3, _⟩ := g2 n n' hn plain
    cases hs : nodeStrings E n false with
    | error e => rw [(b1 _ _).mp hs] at e2; cases e2
    | ok strs =>
      obtain ⟨b4, b5⟩ := b3 strs hs
      rw [e2] at b5
      injection b5 with b5
      exact ⟨n, strs, rfl, hs, l, l', Γ, b4, b2, b5 ▸ e3, hnd, ha⟩

/-- **C101** and **C88** (partial). The class made for a file with a mapping has its keys in their order. Keys that begin with an underscore
have no docstrings. Any other key is followed by the comments of its line as a docstring, if there are any. -/
theorem yaml_docs_partial (E : Env) (hE : E.Fair) (hO : OrderIgnoresComments E) (hS : E.S.dict = .typedDict)
    (hk : (Key.str E.S.keyDoc).hidden = false) (cs : List CommentsAre) (hcs : ¬ (.above ∈ cs ∧ .below ∈ cs))
    (m : YMap) (hd : (YDoc.map m).OK) (hp : m.Plain) (hkw : ∀ k ∈ m.items.map (·.1), (∃ c ∈ k, c ≠ '_') ∧ k ∉ kwlist)
    (hw : .above ∈ cs → NoWrap (m.lines 0)) (ht : TextsWritable E.U cs (m.lines 0)) (f : YamlFile) (hf : FileOf f (.map m)) :
    ∃ d' : YDoc, d'.OK ∧ (YDoc.map m).Documents d' ∧
      ∀ {ε : Type} (load : Loader ε) (c : Str) n strs, LoadsBoth load f (.map m) d' →
        fromYaml E load true f (some cs) c = .ok n → nodeStrings E n false = .ok strs →
        ∃ doc es, recordText c false doc es ∈ strs ∧ es.map (·.key) = m.items.map (·.1) ∧ ∀ e ∈ es,
          (e.key.head? = some '_' ∧ e.doc = none) ∨
          (e.key.head? ≠ some '_' ∧ ∃ i rest ts, (m.lines 0)[i]? = some (e.key ++ ':' :: rest) ∧ TextsOf E.U (m.lines 0) i (e.key ++ ':' :: rest) cs ts ∧
            ∀ text, e.doc = some text ↔ ts ≠ [] ∧ text = formatDoc (join py!"\n" (splitlines (join py!"\n\n" ts)) ++ py!"\n") 90 py!"    ") := by
  obtain ⟨d', h1, h2, h3, h4⟩ := temporary_document_partial E.U cs (.map m) hd hp hw ht
  refine ⟨d', h2, h3, fun {ε} load c n strs hl hn hs => ?_⟩
  obtain ⟨n', hn'⟩ : ∃ n', fromData E c d'.value = .ok n' := by
    cases hn' : fromData E c d'.value with
    | ok n' => exact ⟨n', rfl⟩
    | error e =>
      exfalso
      have key := (comments_only_document_partial hE hO hk c d'.value (YDoc.commented hS h3)).1 e
      rw [YDoc.bare_value h3] at key
      unfold fromYaml at hn
      simp only [opened hf hd hp hcs, hl.1, key.mp hn', commentedData_some.mpr ⟨rfl, _, h1, hl.2⟩, hn'] at hn
      cases hn
  have hn2 := yaml_with_comments E load f cs c _ (opened hf hd hp hcs) _ _ hl.1 _ h1 hl.2 n' hn'
  rw [hn] at hn2
  injection hn2 with hn2
  subst hn2
  cases d' with
  | seq s => exact absurd h3 id
  | map m' =>
    obtain ⟨hb, hdoc⟩ := h3
    subst hb
    have hvis := visible_words m' hdoc
    have hwords := words_of_map _ hd.2.2
    have hnd := YMap.nodup_keys m' hdoc hd.2.1
    have hval : (YDoc.map m').value = .map .dict .dict ((m'.items.map (·.1)).map .str) (m'.items.map (·.2)) := by
      simp [YDoc.value, dictOf]
    rw [hval] at hn'
    have hz := zip_items m'.items
    have p1 : ∀ kv ∈ (m'.items.map (·.1)).zip (m'.items.map (·.2)), startsWith kv.1 hiddenPrefix = true → ∃ text, kv.2 = .inst .str (some text) := by
      rw [hz]
      exact fun kv hkv hh => hidden_text m' hdoc kv hkv hh
    have p2 : ∀ k ∈ visible (m'.items.map (·.1)), (∀ c ∈ k, isAscii c = true) ∧ AsciiIdent k ∧ (∃ c ∈ k, c ≠ '_') ∧ k ∉ kwlist := by
      rw [hvis]
      intro k hk
      obtain ⟨a, b⟩ := plainWord_ident (hwords k hk)
      exact ⟨a, b, hkw k hk⟩
    have p3 : ∀ k ∈ m'.items.map (·.1), startsWith k hiddenPrefix = true → ∃ k' ∈ visible (m'.items.map (·.1)), k = hiddenPrefix ++ k' := by
      intro k hk hh
      obtain ⟨key, e1, e2, e3⟩ := YMap.owner m' hdoc (k := k) hh hk
      refine ⟨key, ?_, e1⟩
      rw [hvis]
      exact (YMap.key_bare m' hdoc key).mpr ⟨e2, e3⟩
    have hlen : (m'.items.map (·.1)).length = (m'.items.map (·.2)).length := by simp
    obtain ⟨doc, es, r1, r2, r3⟩ := comments_shown_partial E hS c .dict _ _ n strs hlen hnd p1 ⟨p2, p3⟩ hn' hs
    refine ⟨doc, es, r1, r2.trans hvis, fun e he => ?_⟩
    have hmem : e.key ∈ m'.bare.items.map (·.1) := by
      rw [← hvis, ← r2]
      exact List.mem_map.mpr ⟨e, he, rfl⟩
    obtain ⟨j, rest, o, t0, t1, t2⟩ := YMap_told _ 0 m' 0 none hdoc h2.2.2 hd.2.1 h4 e.key hmem
    have hzip : ∀ text, e.doc = some text ↔ ∃ ls, o = some ls ∧ text = formatDoc (blockValue ls) 90 py!"    " := by
      intro text
      rw [r3 e he text]
      unfold CommentFor
      rw [hz]
      constructor
      · rintro ⟨t, h, rfl⟩
        obtain ⟨ls, h', rfl⟩ := (t2 t).mp (.inl h)
        exact ⟨ls, h', rfl⟩
      · rintro ⟨ls, h, rfl⟩
        rcases (t2 _).mpr ⟨ls, h, rfl⟩ with h | ⟨_, _, h, _⟩
        · exact ⟨_, h, rfl⟩
        · cases h
    have hkl := keyLine_word (U := E.U) (w := 0) (hwords _ hmem) t0
    have hline : blanks 0 ++ (e.key ++ ':' :: rest) = e.key ++ ':' :: rest := rfl
    rw [hline] at hkl t1
    have hnone : o = none → e.doc = none := by
      rintro rfl
      cases hdc : e.doc with
      | none => rfl
      | some t =>
        obtain ⟨_, h, _⟩ := (hzip t).mp hdc
        cases h
    by_cases hu : e.key.head? = some '_'
    · refine .inl ⟨hu, hnone ?_⟩
      rcases t1 with ⟨h, _⟩ | ⟨_, _, _, h, _⟩
      · exact h
      · exact absurd hu (hkl.mp h)
    · refine .inr ⟨hu, j, rest, ?_⟩
      rcases t1 with ⟨h, h' | h'⟩ | ⟨ts, q1, q2, _, q3⟩
      · refine ⟨[], h'.1, h'.2, fun text => ?_⟩
        rw [hnone h]
        exact ⟨fun h => by (cases h), fun h => absurd rfl h.1⟩
      · exact absurd (hkl.mpr hu) h'
      · refine ⟨ts, q2.1, q2.2, fun text => ?_⟩
        rw [hzip text]
        constructor
        · rintro ⟨ls, h, rfl⟩
          rw [q3] at h
          injection h with h
          subst h
          exact ⟨q1, rfl⟩
        · rintro ⟨_, rfl⟩
          exact ⟨_, q3, rfl⟩

/-! ### Examples -/

def plainWordB (s : Str) : Bool := (match s with | c :: _ => !c.isDigit | [] => false) && s.all yamlChar && !yamlWords.contains (s.map Char.toLower) && decide (s.length ≤ 1024)

theorem plainWordB_sound {s : Str} (h : plainWordB s = true) : PlainWord s := by
  unfold plainWordB at h
  simp only [Bool.and_eq_true, decide_eq_true_eq, Bool.not_eq_true', List.all_eq_true] at h
  obtain ⟨⟨⟨h1, h2⟩, h3⟩, h4⟩ := h
  refine ⟨?_, h2, ?_, h4⟩
  · cases s with
    | nil => cases h1
    | cons c r => exact ⟨c, r, rfl, by simpa using h1⟩
  · intro hm
    rw [List.contains_iff_mem.mpr hm] at h3
    cases h3

instance (c : Char) : Decidable (Printed c) := inferInstanceAs (Decidable (_ ∨ _))
instance (s : Str) : Decidable (PrintedLine s) := inferInstanceAs (Decidable (∀ c ∈ s, _))

/-- A file:
```
# Settings
host: "localhost"  # Where it runs
ports:
  - 80
  - 443 # secure
db: # Data
    name: x1 # Name: of it
users:
- id: 1 # Number
  admin: null
```
-/
def exYaml : YMap :=
  .note py!"# Settings" <|
  .scalar py!"host" (.quoted py!"localhost") py!"  # Where it runs" <|
  .seq py!"ports" [] 2 (.scalar (.int py!"80") [] (.scalar (.int py!"443") py!" # secure" .nil)) <|
  .map py!"db" py!" # Data" 4 (.scalar py!"name" (.word py!"x1") py!" # Name: of it" .nil) <|
  .seq py!"users" [] 0 (.map (.scalar py!"id" (.int py!"1") py!" # Number" (.scalar py!"admin" .null [] .nil)) .nil) .nil

def exYamlFile : YamlFile := { name := py!"settings.yaml", content := some (YDoc.map exYaml).text }

example : (YDoc.map exYaml).text = py!"# Settings\nhost: \"localhost\"  # Where it runs\nports:\n  - 80\n  - 443 # secure\ndb: # Data\n    name: x1 # Name: of it\nusers:\n- id: 1 # Number\n  admin: null\n" := by
  decide +kernel

theorem tail_none : CommentTail [] := ⟨by decide, .inl rfl⟩

theorem exYaml_ok : (YDoc.map exYaml).OK := by
  refine ⟨by simp [exYaml, YMap.items], by decide +kernel, ?_⟩
  have w : ∀ {s}, plainWordB s = true → PlainWord s := plainWordB_sound
  simp only [exYaml, YMap.OK, YSeq.OK, YScalar.OK, YMap.items, YSeq.elems, YMap.begins]
  refine ⟨⟨by decide +kernel, .inr ⟨0, _, rfl⟩⟩, w (by decide +kernel), by decide +kernel, ⟨by decide +kernel, .inr ⟨1, _, rfl⟩⟩,
    w (by decide +kernel), tail_none, by simp, ⟨by decide +kernel, tail_none, by decide +kernel, ⟨by decide +kernel, .inr ⟨0, _, rfl⟩⟩, trivial⟩,
    w (by decide +kernel), ⟨by decide +kernel, .inr ⟨0, _, rfl⟩⟩, by decide, by simp, by decide +kernel,
    ⟨w (by decide +kernel), w (by decide +kernel), ⟨by decide +kernel, .inr ⟨0, _, rfl⟩⟩, trivial⟩,
    w (by decide +kernel), tail_none, by simp,
    ⟨trivial, by decide +kernel, ⟨w (by decide +kernel), by decide +kernel, ⟨by decide +kernel, .inr ⟨0, _, rfl⟩⟩, w (by decide +kernel), trivial, tail_none, trivial⟩, trivial⟩, trivial⟩

theorem exYaml_plain : (YDoc.map exYaml).Plain := by
  simp only [YDoc.Plain, exYaml, YMap.Plain, YSeq.Plain]
  decide +kernel

theorem exYaml_file : FileOf exYamlFile (.map exYaml) := ⟨rfl, py!"settings", by decide, .inl rfl⟩

/-- A loader that reads both files as YAML says. -/
theorem loader_exists (f : YamlFile) (d d' : YDoc) (h : f.name ≠ tempName f.name) : ∃ load : Loader Unit, LoadsBoth load f d d' :=
  ⟨fun name _ => .ok (if name = f.name then d.value else d'.value), by simp, by simp [Ne.symm h]⟩

theorem exYaml_named : exYamlFile.name ≠ tempName exYamlFile.name := by decide +kernel

example : ∃ text d', withHiddenKeys (exEnv {}).U [.side] (YDoc.map exYaml).lines = .ok text ∧ text = join py!"\n" d'.lines ∧
    (YDoc.map exYaml).Documents d' ∧
    text = py!"# Settings\n___docstring_hidden_key_host: |\n Where it runs.\nhost: \"localhost\"  # Where it runs\nports:\n  - 80\n  - 443 # secure\n___docstring_hidden_key_db: |\n Data.\ndb: # Data\n    ___docstring_hidden_key_name: |\n     Name: of it.\n    name: x1 # Name: of it\nusers:\n- ___docstring_hidden_key_id: |\n   Number.\n  id: 1 # Number\n  admin: null" := by
  obtain ⟨d', h1, _, h2, _⟩ := temporary_document_side (exEnv {}).U _ exYaml_ok exYaml_plain
  refine ⟨_, d', h1, rfl, h2, ?_⟩
  have : withHiddenKeys (exEnv {}).U [.side] (YDoc.map exYaml).lines = .ok py!"# Settings\n___docstring_hidden_key_host: |\n Where it runs.\nhost: \"localhost\"  # Where it runs\nports:\n  - 80\n  - 443 # secure\n___docstring_hidden_key_db: |\n Data.\ndb: # Data\n    ___docstring_hidden_key_name: |\n     Name: of it.\n    name: x1 # Name: of it\nusers:\n- ___docstring_hidden_key_id: |\n   Number.\n  id: 1 # Number\n  admin: null" := by
    decide +kernel
  rw [h1] at this
  injection this

/-- The hypotheses of the theorems hold for this file, and there is a loader. -/
example : ∃ d' : YDoc, ∃ load : Loader Unit, LoadsBoth load exYamlFile (.map exYaml) d' ∧
    ∃ n n', fromYaml (exEnv {}) load true exYamlFile (some [.side]) py!"Settings" = .ok n ∧
      fromYaml (exEnv {}) load true exYamlFile none py!"Settings" = .ok n' ∧ SameHintUpToDocs (exEnv {}) n n' := by
  obtain ⟨d', _, _, _, h⟩ := yaml_hint_partial (exEnv {}) (exEnv_fair _) (exEnv_order _) rfl (by decide) [.side] (by decide) _ exYaml_ok exYaml_plain
    (by simp) (side_writable _ _ exYaml_ok exYaml_plain) exYamlFile exYaml_file
  obtain ⟨load, hl⟩ := loader_exists exYamlFile (.map exYaml) d' exYaml_named
  obtain ⟨h1, h2⟩ := h load true py!"Settings" hl
  have plain : ∃ n', fromYaml (exEnv {}) load true exYamlFile none py!"Settings" = .ok n' := by
    unfold fromYaml
    simp only [hl.1]
    have : (match fromData (exEnv {}) py!"Settings" (YDoc.map exYaml).value with | .ok _ => true | .error _ => false) = true := by decide +kernel
    cases hd : fromData (exEnv {}) py!"Settings" (YDoc.map exYaml).value with
    | ok n => exact ⟨n, rfl⟩
    | error e => rw [hd] at this; cases this
  obtain ⟨n', hn'⟩ := plain
  cases hn : fromYaml (exEnv {}) load true exYamlFile (some [.side]) py!"Settings" with
  | error e => rw [(h1 e).mp hn] at hn'; cases hn'
  | ok n => exact ⟨d', load, hl, n, n', hn, hn', h2 n n' hn hn'⟩

example : WellBehaved {} py!"Settings" (YDoc.map exYaml).value := wellBehavedB_sound (f := 10) (by decide +kernel)

example : ∀ k ∈ exYaml.items.map (·.1), (∃ c ∈ k, c ≠ '_') ∧ k ∉ kwlist := by decide +kernel

/-- Text blocks in the file are not understood: lines in them that look like keys with comments get hidden entries of their own, and the
text changes. (`Plain` leaves text blocks out.) -/
theorem text_blocks_fails : ∃ d d' : YDoc, d.OK ∧ d'.OK ∧ withHiddenKeys (exEnv {}).U [.side] d.lines = .ok (join py!"\n" d'.lines) ∧
    withoutComments d'.value ≠ d.value := by
  have w : ∀ {s}, plainWordB s = true → PlainWord s := plainWordB_sound
  refine ⟨.map (.text py!"a" [py!"b: 1 # x"] (.scalar py!"c" (.int py!"2") [] .nil)),
    .map (.text py!"a" [py!"___docstring_hidden_key_b: |", py!" x.", py!"b: 1 # x"] (.scalar py!"c" (.int py!"2") [] .nil)), ?_, ?_, by decide +kernel, ?_⟩
  · refine ⟨by simp [YMap.items], by decide +kernel, ?_⟩
    simp only [YMap.OK, YScalar.OK, YMap.begins]
    refine ⟨w (by decide +kernel), ⟨by decide +kernel, ⟨'b', _, _, rfl, by decide⟩, ?_⟩, trivial, w (by decide +kernel), by decide +kernel, tail_none, trivial⟩
    intro l hl; injection hl with hl; subst hl; decide
  · refine ⟨by simp [YMap.items], by decide +kernel, ?_⟩
    simp only [YMap.OK, YScalar.OK, YMap.begins]
    refine ⟨w (by decide +kernel), ⟨by decide +kernel, ⟨'_', _, _, rfl, by decide⟩, ?_⟩, trivial, w (by decide +kernel), by decide +kernel, tail_none, trivial⟩
    intro l hl; injection hl with hl; subst hl; decide
  · intro h
    have e : (match withoutComments (YDoc.map (.text py!"a" [py!"___docstring_hidden_key_b: |", py!" x.", py!"b: 1 # x"] (.scalar py!"c" (.int py!"2") [] .nil))).value with
      | .map _ _ _ (.inst _ (some t) :: _) => t | _ => []) = py!"b: 1 # x\n" := by rw [h]; rfl
    revert e
    decide +kernel

end Verif.Props
