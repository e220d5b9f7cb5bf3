import Verif.Lemmas.YamlRows
import Verif.Lemmas.MergeMixed
import Verif.Props.RowComments
import Verif.Props.YamlData
/-
C101: docstrings for the comments in a list of mappings.
-/
namespace Verif.Props
open Verif Verif.Spec

theorem inspected_related {α β : Type} {R : α → β → Prop} {l : List α} {l' : List β} (S : Strategies) (h : All₂ R l l') :
    All₂ R (inspected S l) (inspected S l') := by
  unfold inspected
  split
  · exact h
  · have : ∀ (n : Nat) {l : List α} {l' : List β}, All₂ R l l' → All₂ R (l.take n) (l'.take n) := by
      intro n
      induction n with
      | zero => intro l l' _; rw [List.take_zero, List.take_zero]; exact .nil
      | succ n ih =>
        intro l l' h
        cases h with
        | nil => exact .nil
        | cons a b => exact .cons a (ih b)
    exact this _ h

theorem related_left {α β : Type} {R : α → β → Prop} {l : List α} {l' : List β} (h : All₂ R l l') : ∀ a ∈ l, ∃ b ∈ l', R a b := by
  induction h with
  | nil => intro a ha; cases ha
  | cons r _ ih =>
    intro a ha
    rcases List.mem_cons.mp ha with rfl | ha
    · exact ⟨_, .head _, r⟩
    · obtain ⟨b, hb, hr⟩ := ih a ha
      exact ⟨b, .tail _ hb, hr⟩

theorem related_right {α β : Type} {R : α → β → Prop} {l : List α} {l' : List β} (h : All₂ R l l') : ∀ b ∈ l', ∃ a ∈ l, R a b := by
  induction h with
  | nil => intro a ha; cases ha
  | cons r _ ih =>
    intro b hb
    rcases List.mem_cons.mp hb with rfl | hb
    · exact ⟨_, .head _, r⟩
    · obtain ⟨a, ha, hr⟩ := ih b hb
      exact ⟨a, .tail _ ha, hr⟩

theorem rowOf_plain {T : Nat → Str → Str → Option (List Str) → Prop} {w : Nat} {row : Nat × YMap} {m : YMap} (h : RowOf T w row m)
    (hkw : ∀ k ∈ row.2.items.map (·.1), (∃ c ∈ k, c ≠ '_') ∧ k ∉ kwlist) : PlainRow m.items := by
  refine ⟨?_, ?_⟩
  · rw [h.shown]
    intro k hk
    obtain ⟨a, b⟩ := plainWord_ident (h.words k hk)
    exact ⟨a, b, hkw k hk⟩
  · intro kv hkv hh
    obtain ⟨key, e1, e2, e3⟩ := YMap.owner m h.doc (k := kv.1) hh (List.mem_map.mpr ⟨kv, hkv, rfl⟩)
    refine ⟨⟨key, ?_, e1⟩, hidden_text m h.doc kv hkv hh⟩
    rw [h.shown, ← h.bare]
    exact (YMap.key_bare m h.doc key).mpr ⟨e2, e3⟩

/-- The docstring made of the comments of a line. -/
def lineDoc (ts : List Str) : Str := formatDoc (join py!"\n" (splitlines (join py!"\n\n" ts)) ++ py!"\n") 90 py!"    "

/-- In a list at column `w`, the line of the key in the mapping that begins in line `row.1` has these comments. -/
def RowTexts (U : Uni) (cs : List CommentsAre) (lines : List Str) (w : Nat) (row : Nat × YMap) (k : Str) (ts : List Str) : Prop :=
  ∃ j line, (k, j) ∈ row.2.keyRows (w + 2) row.1 ∧ lines[j]? = some line ∧ TextsOf U lines j line cs ts

/-- What the hint shows of the comments in a list of mappings at column `w`, of which `rows` are looked at. Every mapping is described by a class with all its
keys. Every docstring after a key is made of the comments of the line of this key in one of the mappings. If there are comments in the line of a key, the key
has a docstring, unless it begins with an underscore and is not the first one of its mapping. -/
def RowDocs (U : Uni) (cs : List CommentsAre) (lines : List Str) (w : Nat) (rows : List (Nat × YMap)) (strs : List Str) : Prop :=
  ∀ row ∈ rows, ∃ cls doc es, recordText cls false doc es ∈ strs ∧
    (∀ k ∈ row.2.items.map (·.1), ∃ e ∈ es, e.key = k) ∧
    (∀ e ∈ es, ∀ x, e.doc = some x → ∃ row' ∈ rows, ∃ ts, ts ≠ [] ∧ RowTexts U cs lines w row' e.key ts ∧ x = lineDoc ts) ∧
    ∀ k ∈ row.2.items.map (·.1), k.head? ≠ some '_' ∨ (k, row.1) ∈ row.2.keyRows (w + 2) row.1 →
      ∃ ts, RowTexts U cs lines w row k ts ∧ (ts ≠ [] → ∀ e ∈ es, e.key = k → e.doc ≠ none)

theorem rowDocs_of {E : Env} (hE : E.Fair) (hS : E.S.dict = .typedDict) {cs : List CommentsAre} {lines : List Str} {w : Nat} {rows : List (Nat × YMap)} {ms : List YMap}
    (hrel : All₂ (RowOf (BlockFor E.U fun i line ts => lines[i]? = some line ∧ TextsOf E.U lines i line cs ts) w) rows ms)
    (hkw : ∀ row ∈ rows, ∀ k ∈ row.2.items.map (·.1), (∃ c ∈ k, c ≠ '_') ∧ k ∉ kwlist)
    {c : Str} {v : Val} {n : Node} {strs : List Str} (hrows : InnerRows v .list (ms.map (·.items))) (hn : fromData E c v = .ok n) (hs : nodeStrings E n false = .ok strs) :
    RowDocs E.U cs lines w (inspected E.S rows) strs := by
  intro row hrow
  have hgood : ∀ d ∈ ms.map (·.items), IsDict d ∧ PlainRow d := by
    intro d hd
    obtain ⟨m, hm, rfl⟩ := List.mem_map.mp hd
    obtain ⟨r, hr, hro⟩ := related_right hrel m hm
    exact ⟨hro.nodup, rowOf_plain hro (hkw r hr)⟩
  have hins := inspected_related E.S hrel
  obtain ⟨m, hm, hro⟩ := related_left hins row hrow
  have told : ∀ r m, RowOf (BlockFor E.U fun i line ts => lines[i]? = some line ∧ TextsOf E.U lines i line cs ts) w r m → ∀ k ∈ r.2.items.map (·.1), ∃ j line o, (k, j) ∈ r.2.keyRows (w + 2) r.1 ∧
      ((k.head? ≠ some '_' ∨ (k, r.1) ∈ r.2.keyRows (w + 2) r.1) → KeyLine E.U false line k) ∧
      BlockFor E.U (fun i line ts => lines[i]? = some line ∧ TextsOf E.U lines i line cs ts) j line k o ∧
      ∀ text, RowComment m.items k text ↔ ∃ ls, o = some ls ∧ text = blockValue ls := by
    intro r m hr k hk
    have hwk := hr.words k hk
    have hnd : (r.2.items.map (·.1)).Nodup := by rw [← hr.shown]; exact hr.nodup.filter _
    obtain ⟨j, st, rest, o, b1, b2, b3, b4, b5⟩ := YMap_toldAt _ (w + 2) m _ r.1 none hr.doc hr.ok (by rw [hr.bare]; exact hnd) hr.shows k (by rw [hr.bare]; exact hk)
    rw [hr.bare] at b1
    refine ⟨j, _, o, b1, ?_, b4, fun text => ?_⟩
    · intro h
      rcases b2 with rfl | ⟨rfl, hlt⟩
      · exact keyLine_dash (w := w) hwk b3
      · rcases h with h | h
        · exact (keyLine_word (w := w + 2) hwk b3).mpr h
        · have := row_unique (by rw [keyRows_keys]; exact hnd) h b1
          omega
    · rw [← b5 text]
      constructor
      · exact fun h => .inl h
      · rintro (h | ⟨_, _, h, _⟩)
        · exact h
        · cases h
  have hmem : m.items ∈ inspected E.S (ms.map (·.items)) := by rw [inspected_map]; exact List.mem_map.mpr ⟨m, hm, rfl⟩
  have hlist : SeqKind.list = .tuple → E.S.tuple ≠ .fixed := fun h => by cases h
  obtain ⟨cls, doc, es, r1, r2, r3, r4⟩ := row_comments_shown_partial E hE hS c _ _ _ n strs hrows hlist hgood hn hs m.items hmem
  refine ⟨cls, doc, es, r1, fun k hk => r2 k (by rw [hro.shown]; exact hk), ?_, ?_⟩
  · intro e he x hx
    obtain ⟨d1, hd1, text, hc, rfl⟩ := r3 e he x hx
    rw [inspected_map] at hd1
    obtain ⟨m1, hm1, rfl⟩ := List.mem_map.mp hd1
    obtain ⟨row1, hrow1, hro1⟩ := related_right hins m1 hm1
    have hkey : e.key ∈ row1.2.items.map (·.1) := by
      obtain ⟨⟨k', hk', e3⟩, _⟩ := (rowOf_plain hro1 (hkw row1 (mem_inspected hrow1))).2 _ hc (by simp [startsWith])
      have : e.key = k' := List.append_cancel_left e3
      rw [this, ← hro1.shown]
      exact hk'
    obtain ⟨j, line, o, a1, _, a3, a4⟩ := told row1 m1 hro1 _ hkey
    obtain ⟨ls, rfl, rfl⟩ := (a4 text).mp hc
    rcases a3 with ⟨h, _⟩ | ⟨ts, b1, b2, _, b4⟩
    · cases h
    · injection b4 with b4
      subst b4
      exact ⟨row1, hrow1, ts, b1, ⟨j, line, a1, b2.1, b2.2⟩, rfl⟩
  · intro k hk hrec
    obtain ⟨j, line, o, a1, a2, a3, a4⟩ := told row m hro k hk
    rcases a3 with ⟨rfl, h | h⟩ | ⟨ts, b1, b2, _, b4⟩
    · exact ⟨[], ⟨j, line, a1, h.1, h.2⟩, fun h => absurd rfl h⟩
    · exact absurd (a2 hrec) h
    · refine ⟨ts, ⟨j, line, a1, b2.1, b2.2⟩, fun _ e he hek => ?_⟩
      subst hek
      exact r4 e he _ ((a4 _).mpr ⟨_, b4, rfl⟩)

/-- If a hint is made with the comments, it is that of the commented data. -/
theorem hint_of_commented {E : Env} (hE : E.Fair) (hO : OrderIgnoresComments E) (hS : E.S.dict = .typedDict) (hk : (Key.str E.S.keyDoc).hidden = false)
    {cs : List CommentsAre} (hcs : ¬ (.above ∈ cs ∧ .below ∈ cs)) {d d' : YDoc} (hd : d.OK) (hp : d.Plain) {f : YamlFile} (hf : FileOf f d)
    (h1 : withHiddenKeys E.U cs d.lines = .ok (join py!"\n" d'.lines)) (h3 : d.Documents d') {ε : Type} {load : Loader ε} (hl : LoadsBoth load f d d')
    {c : Str} {n : Node} (hn : fromYaml E load true f (some cs) c = .ok n) : fromData E c d'.value = .ok n := by
  cases hn' : fromData E c d'.value with
  | ok n' =>
    have hn2 := yaml_with_comments E load f cs c _ (opened hf hd hp hcs) _ _ hl.1 _ h1 hl.2 n' hn'
    rw [hn] at hn2
    injection hn2 with hn2
    rw [hn2]
  | error e =>
    exfalso
    have key := (comments_only_document_partial hE hO hk c d'.value (YDoc.commented hS h3)).1 e
    rw [YDoc.bare_value h3] at key
    unfold fromYaml at hn
    simp only [opened hf hd hp hcs, hl.1, key.mp hn', commentedData_some.mpr ⟨rfl, _, h1, hl.2⟩, hn'] at hn
    cases hn

/-- **C101** and **C88** (partial). The comments in a document that is a list of mappings are shown as `RowDocs` says. -/
theorem yaml_docs_rows_partial (E : Env) (hE : E.Fair) (hO : OrderIgnoresComments E) (hS : E.S.dict = .typedDict)
    (hk : (Key.str E.S.keyDoc).hidden = false) (cs : List CommentsAre) (hcs : ¬ (.above ∈ cs ∧ .below ∈ cs))
    (s : YSeq) (hd : (YDoc.seq s).OK) (hp : s.Plain) (hmaps : s.OnlyMaps)
    (hw : .above ∈ cs → NoWrap (s.lines 0)) (ht : TextsWritable E.U cs (s.lines 0)) (f : YamlFile) (hf : FileOf f (.seq s))
    (hkw : ∀ row ∈ s.rowsAt 0 0, ∀ k ∈ row.2.items.map (·.1), (∃ c ∈ k, c ≠ '_') ∧ k ∉ kwlist) :
    ∃ d' : YDoc, d'.OK ∧ (YDoc.seq s).Documents d' ∧
      ∀ {ε : Type} (load : Loader ε) (c : Str) n strs, LoadsBoth load f (.seq s) d' →
        fromYaml E load true f (some cs) c = .ok n → nodeStrings E n false = .ok strs →
        RowDocs E.U cs (s.lines 0) 0 (inspected E.S (s.rowsAt 0 0)) strs := by
  obtain ⟨d', h1, h2, h3, h4⟩ := temporary_document_partial E.U cs (.seq s) hd hp hw ht
  refine ⟨d', h2, h3, fun {ε} load c n strs hl hn hs => ?_⟩
  have hn' := hint_of_commented hE hO hS hk hcs hd hp hf h1 h3 hl hn
  cases d' with
  | map m => exact absurd h3 id
  | seq s' =>
    obtain ⟨hb, hdoc⟩ := h3
    obtain ⟨ms, hel, hrel⟩ := rows_of _ 0 s' 0 hdoc h2.2 (by rw [hb]; exact hmaps) h4
    rw [hb] at hrel
    have hn' : fromData E c (.seq .list .list s'.elems) = .ok n := hn'
    rw [hel] at hn'
    exact rowDocs_of hE hS hrel hkw (.here _ _ _) hn' hs

/-- **C101** and **C88** (partial). In a document that is a mapping, the comments in a list of mappings that is found by following keys are shown in the same
way, whatever else the document contains. -/
theorem yaml_docs_inner_rows_partial (E : Env) (hE : E.Fair) (hO : OrderIgnoresComments E) (hS : E.S.dict = .typedDict)
    (hk : (Key.str E.S.keyDoc).hidden = false) (cs : List CommentsAre) (hcs : ¬ (.above ∈ cs ∧ .below ∈ cs))
    (m : YMap) (hd : (YDoc.map m).OK) (hp : m.Plain)
    (hw : .above ∈ cs → NoWrap (m.lines 0)) (ht : TextsWritable E.U cs (m.lines 0)) (f : YamlFile) (hf : FileOf f (.map m)) :
    ∃ d' : YDoc, d'.OK ∧ (YDoc.map m).Documents d' ∧
      ∀ {ε : Type} (load : Loader ε) (c : Str) n strs, LoadsBoth load f (.map m) d' →
        fromYaml E load true f (some cs) c = .ok n → nodeStrings E n false = .ok strs →
        ∀ w i s, InnerSeq 0 0 m w i s → s.OnlyMaps →
          (∀ row ∈ s.rowsAt w i, ∀ k ∈ row.2.items.map (·.1), (∃ c ∈ k, c ≠ '_') ∧ k ∉ kwlist) →
          RowDocs E.U cs (m.lines 0) w (inspected E.S (s.rowsAt w i)) strs := by
  obtain ⟨d', h1, h2, h3, h4⟩ := temporary_document_partial E.U cs (.map m) hd hp hw ht
  refine ⟨d', h2, h3, fun {ε} load c n strs hl hn hs w i s hin hmaps hkw => ?_⟩
  have hn' := hint_of_commented hE hO hS hk hcs hd hp hf h1 h3 hl hn
  cases d' with
  | seq s => exact absurd h3 id
  | map m' =>
    obtain ⟨hb, hdoc0⟩ := h3
    have hn0 : (m'.items.map (·.1)).Nodup := YMap.nodup_keys m' hdoc0 (hb ▸ hd.2.1)
    obtain ⟨ms, hrel, hrows⟩ := inner_rows _ hin hmaps m' hb hdoc0 h2.2.2 hn0 h4
    exact rowDocs_of hE hS hrel hkw hrows hn' hs

/-- The comments of a key in a mapping are determined. -/
theorem rowTexts_unique {U : Uni} {cs : List CommentsAre} {lines : List Str} {w : Nat} {row : Nat × YMap} (hn : (row.2.items.map (·.1)).Nodup) {k : Str} {ts ts' : List Str}
    (h : RowTexts U cs lines w row k ts) (h' : RowTexts U cs lines w row k ts') : ts = ts' := by
  obtain ⟨j, line, a1, a2, a3⟩ := h
  obtain ⟨j', line', b1, b2, b3⟩ := h'
  have := row_unique (by rw [keyRows_keys]; exact hn) a1 b1
  subst this
  rw [a2] at b2
  injection b2 with b2
  subst b2
  exact textsOf_unique a3 b3

/-- If the mappings do not contradict each other, the comments of a key are shown as they are. -/
theorem yaml_row_docs_agreed {U : Uni} {cs : List CommentsAre} {lines : List Str} {w : Nat} {rows : List (Nat × YMap)} {strs : List Str} (h : RowDocs U cs lines w rows strs)
    {row : Nat × YMap} (hr : row ∈ rows) (hn : (row.2.items.map (·.1)).Nodup) {k : Str} (hk : k.head? ≠ some '_' ∨ (k, row.1) ∈ row.2.keyRows (w + 2) row.1)
    {ts : List Str} (ht : RowTexts U cs lines w row k ts) (hne : ts ≠ []) (hag : ∀ row' ∈ rows, ∀ ts', RowTexts U cs lines w row' k ts' → ts' ≠ [] → ts' = ts) :
    ∃ cls doc es, recordText cls false doc es ∈ strs ∧ (∀ k ∈ row.2.items.map (·.1), ∃ e ∈ es, e.key = k) ∧
      ∃ e ∈ es, e.key = k ∧ e.doc = some (lineDoc ts) := by
  obtain ⟨cls, doc, es, h1, h2, h3, h4⟩ := h row hr
  have hkey : k ∈ row.2.items.map (·.1) := by
    obtain ⟨j, _, a, _⟩ := ht
    rw [← keyRows_keys (w + 2) row.2 row.1]
    exact List.mem_map.mpr ⟨_, a, rfl⟩
  refine ⟨cls, doc, es, h1, h2, ?_⟩
  obtain ⟨e, he, rfl⟩ := h2 k hkey
  refine ⟨e, he, rfl, ?_⟩
  obtain ⟨ts0, b1, b2⟩ := h4 e.key hkey hk
  rw [rowTexts_unique hn b1 ht] at b2
  cases hx : e.doc with
  | none => exact absurd hx (b2 hne e he rfl)
  | some x =>
    obtain ⟨row', hr', ts', c1, c2, rfl⟩ := h3 e he x hx
    rw [hag row' hr' ts' c2 c1]

/-- A list with two mappings and a line of its own; the second mapping has a further key. -/
def exYamlRows : YSeq :=
  .note py!"# All users" <|
  .map (.scalar py!"id" (.int py!"1") py!" # Number" (.scalar py!"name" (.word py!"ann") [] .nil)) <|
  .map (.scalar py!"id" (.int py!"2") [] (.scalar py!"name" (.word py!"bob") py!" # Of the user" (.scalar py!"admin" (.bool true) [] .nil))) .nil

def exRowsFile : YamlFile := { name := py!"users.yml", content := some (YDoc.seq exYamlRows).text }

example : (YDoc.seq exYamlRows).text = py!"# All users\n- id: 1 # Number\n  name: ann\n- id: 2\n  name: bob # Of the user\n  admin: true\n" := by decide +kernel

theorem exYamlRows_ok : (YDoc.seq exYamlRows).OK := by
  refine ⟨by simp [exYamlRows, YSeq.elems], ?_⟩
  have w : ∀ {s}, plainWordB s = true → PlainWord s := plainWordB_sound
  simp only [exYamlRows, YMap.OK, YSeq.OK, YScalar.OK, YMap.items, YMap.begins]
  exact ⟨⟨by decide +kernel, .inr ⟨0, _, rfl⟩⟩, trivial, by decide +kernel,
    ⟨w (by decide +kernel), by decide +kernel, ⟨by decide +kernel, .inr ⟨0, _, rfl⟩⟩, w (by decide +kernel), w (by decide +kernel), tail_none, trivial⟩,
    trivial, by decide +kernel,
    ⟨w (by decide +kernel), by decide +kernel, tail_none, w (by decide +kernel), w (by decide +kernel), ⟨by decide +kernel, .inr ⟨0, _, rfl⟩⟩,
      w (by decide +kernel), trivial, tail_none, trivial⟩, trivial⟩

theorem exYamlRows_plain : (YDoc.seq exYamlRows).Plain := by
  simp only [YDoc.Plain, exYamlRows, YMap.Plain, YSeq.Plain]
  decide +kernel

example : exYamlRows.OnlyMaps := by simp [exYamlRows, YSeq.OnlyMaps]

/-- Of the list, the second mapping begins in line 3, and its key `name` is in line 4. -/
example : exYamlRows.rowsAt 0 0 = [(1, .scalar py!"id" (.int py!"1") py!" # Number" (.scalar py!"name" (.word py!"ann") [] .nil)),
    (3, .scalar py!"id" (.int py!"2") [] (.scalar py!"name" (.word py!"bob") py!" # Of the user" (.scalar py!"admin" (.bool true) [] .nil)))] := by
  simp [exYamlRows, YSeq.rowsAt, YMap.lines, dashed]

/-- The hypotheses hold for this file, there is a loader, and both comments are shown in the class. -/
example : ∃ d' : YDoc, ∃ load : Loader Unit, LoadsBoth load exRowsFile (.seq exYamlRows) d' ∧ (YDoc.seq exYamlRows).Documents d' ∧
    ∀ n strs, fromYaml (exEnv { merge := 50 }) load true exRowsFile (some [.side]) py!"Users" = .ok n → nodeStrings (exEnv { merge := 50 }) n false = .ok strs →
      ∀ row ∈ exYamlRows.rowsAt 0 0, ∃ cls doc es, recordText cls false doc es ∈ strs ∧ ∀ k ∈ row.2.items.map (·.1), ∃ e ∈ es, e.key = k := by
  obtain ⟨d', _, h2, h3⟩ := yaml_docs_rows_partial (exEnv { merge := 50 }) (exEnv_fair _) (exEnv_order _) rfl (by decide) [.side] (by decide) exYamlRows
    exYamlRows_ok exYamlRows_plain (by simp [exYamlRows, YSeq.OnlyMaps]) (by simp) (side_writable _ _ exYamlRows_ok exYamlRows_plain) exRowsFile
    ⟨rfl, py!"users", by decide, .inr rfl⟩ (by decide +kernel)
  obtain ⟨load, hl⟩ := loader_exists exRowsFile (.seq exYamlRows) d' (by decide +kernel)
  refine ⟨d', load, hl, h2, fun n strs hn hs row hrow => ?_⟩
  obtain ⟨cls, doc, es, a, b, _⟩ := h3 load py!"Users" n strs hl hn hs row hrow
  exact ⟨cls, doc, es, a, b⟩

/-- The comment of `id` in the first mapping, which is the only one for this key, is shown. -/
example : ∃ d' : YDoc, ∃ load : Loader Unit, LoadsBoth load exRowsFile (.seq exYamlRows) d' ∧
    ∀ n strs, fromYaml (exEnv { merge := 50 }) load true exRowsFile (some [.side]) py!"Users" = .ok n → nodeStrings (exEnv { merge := 50 }) n false = .ok strs →
      ∃ cls doc es, recordText cls false doc es ∈ strs ∧ ∃ e ∈ es, e.key = py!"id" ∧ e.doc = some (lineDoc [py!"Number."]) := by
  obtain ⟨d', _, h2, h3⟩ := yaml_docs_rows_partial (exEnv { merge := 50 }) (exEnv_fair _) (exEnv_order _) rfl (by decide) [.side] (by decide) exYamlRows
    exYamlRows_ok exYamlRows_plain (by simp [exYamlRows, YSeq.OnlyMaps]) (by simp) (side_writable _ _ exYamlRows_ok exYamlRows_plain) exRowsFile
    ⟨rfl, py!"users", by decide, .inr rfl⟩ (by decide +kernel)
  obtain ⟨load, hl⟩ := loader_exists exRowsFile (.seq exYamlRows) d' (by decide +kernel)
  refine ⟨d', load, hl, fun n strs hn hs => ?_⟩
  have hrows : inspected (exEnv { merge := 50 }).S (exYamlRows.rowsAt 0 0) = [(1, .scalar py!"id" (.int py!"1") py!" # Number" (.scalar py!"name" (.word py!"ann") [] .nil)),
      (3, .scalar py!"id" (.int py!"2") [] (.scalar py!"name" (.word py!"bob") py!" # Of the user" (.scalar py!"admin" (.bool true) [] .nil)))] := by
    simp [exYamlRows, YSeq.rowsAt, YMap.lines, dashed, inspected, exEnv]
  have h := h3 load py!"Users" n strs hl hn hs
  rw [hrows] at h
  have t1 : RowTexts (exEnv { merge := 50 }).U [.side] (exYamlRows.lines 0) 0 (1, .scalar py!"id" (.int py!"1") py!" # Number" (.scalar py!"name" (.word py!"ann") [] .nil)) py!"id" [py!"Number."] :=
    ⟨1, py!"- id: 1 # Number", by simp [YMap.keyRows], by decide +kernel,
      .take (.inl ⟨7, by decide, by decide, by unfold Unquoted; decide +kernel, by unfold Unquoted; decide +kernel, by decide +kernel⟩) (by decide) .nil⟩
  have t2 : RowTexts (exEnv { merge := 50 }).U [.side] (exYamlRows.lines 0) 0
      (3, .scalar py!"id" (.int py!"2") [] (.scalar py!"name" (.word py!"bob") py!" # Of the user" (.scalar py!"admin" (.bool true) [] .nil))) py!"id" [] :=
    ⟨3, py!"- id: 2", by simp [YMap.keyRows], by decide +kernel,
      .skip (by have := sideComment_spec py!"- id: 2"; rw [show sideComment py!"- id: 2" = [] by decide +kernel] at this; exact this) .nil⟩
  obtain ⟨cls, doc, es, a, _, b⟩ := yaml_row_docs_agreed h (.head _) (by decide +kernel) (k := py!"id") (.inl (by decide)) t1 (by simp) (by
    intro row' hr' ts' ht' hne
    simp only [List.mem_cons, List.not_mem_nil, or_false] at hr'
    rcases hr' with rfl | rfl
    · exact rowTexts_unique (by decide +kernel) ht' t1
    · exact absurd (rowTexts_unique (by decide +kernel) ht' t2) hne)
  exact ⟨cls, doc, es, a, b⟩

/-- The list below `users` in `exYaml` begins in line 8 and is behind a list of numbers. -/
example : InnerSeq 0 0 exYaml 0 8 (.map (.scalar py!"id" (.int py!"1") py!" # Number" (.scalar py!"admin" .null [] .nil)) .nil) := by
  refine .last (k := py!"users") (before := [(py!"ports", 2, 3, .scalar (.int py!"80") [] (.scalar (.int py!"443") py!" # secure" .nil))]) (after := []) ?_ ?_
  · simp [exYaml, YMap.seqsAt, YMap.lines, YSeq.lines]
  · intro b hb
    simp only [List.mem_singleton] at hb
    subst hb
    simp [YSeq.OnlyScalars]

/-- The line of `id` there has one comment. -/
example : RowTexts (exEnv {}).U [.side] (exYaml.lines 0) 0 (8, .scalar py!"id" (.int py!"1") py!" # Number" (.scalar py!"admin" .null [] .nil)) py!"id" [py!"Number."] :=
  ⟨8, py!"- id: 1 # Number", by simp [YMap.keyRows], by decide +kernel, 
    .take (.inl ⟨7, by decide, by decide, by unfold Unquoted; decide +kernel, by unfold Unquoted; decide +kernel, by decide +kernel⟩) (by decide) .nil⟩

/-- Whether the comment of a key that begins with an underscore is shown depends on where the key is: in list items, only that of the first key is taken. -/
theorem underscore_comments_fails : ∃ s : YSeq, (YDoc.seq s).OK ∧ s.Plain ∧ s.OnlyMaps ∧ s.lines 0 = [py!"- _a: 1 # One", py!"  _b: 2 # Two"] ∧
    withHiddenKeys (exEnv {}).U [.side] (s.lines 0) = .ok py!"- ___docstring_hidden_key__a: |\n   One.\n  _a: 1 # One\n  _b: 2 # Two" ∧
    RowTexts (exEnv {}).U [.side] (s.lines 0) 0 (0, .scalar py!"_a" (.int py!"1") py!" # One" (.scalar py!"_b" (.int py!"2") py!" # Two" .nil)) py!"_b" [py!"Two."] := by
  have w : ∀ {s}, plainWordB s = true → PlainWord s := plainWordB_sound
  refine ⟨.map (.scalar py!"_a" (.int py!"1") py!" # One" (.scalar py!"_b" (.int py!"2") py!" # Two" .nil)) .nil, ⟨by simp [YSeq.elems], ?_⟩, ?_, ?_, by decide +kernel, by decide +kernel, ?_⟩
  · simp only [YMap.OK, YSeq.OK, YScalar.OK, YMap.items, YMap.begins]
    exact ⟨trivial, by decide +kernel, ⟨w (by decide +kernel), by decide +kernel, ⟨by decide +kernel, .inr ⟨0, _, rfl⟩⟩,
      w (by decide +kernel), by decide +kernel, ⟨by decide +kernel, .inr ⟨0, _, rfl⟩⟩, trivial⟩, trivial⟩
  · simp only [YMap.Plain, YSeq.Plain]
    decide +kernel
  · simp [YSeq.OnlyMaps]
  · exact ⟨1, py!"  _b: 2 # Two", by simp [YMap.keyRows], by decide +kernel,
      .take (.inl ⟨7, by decide, by decide, by unfold Unquoted; decide +kernel, by unfold Unquoted; decide +kernel, by decide +kernel⟩) (by decide) .nil⟩

end Verif.Props
