import Verif.Lemmas.YamlInner
import Verif.Props.InnerComments
import Verif.Props.YamlData
/-
C101: docstrings for the comments in mappings inside mappings.
-/
namespace Verif.Props
open Verif Verif.Spec

/-- **C101** and **C88** (partial). For every mapping that is found by following keys there is a class with its keys in their order. Keys that
begin with an underscore have no docstrings. Any other key is followed by the comments of its line as a docstring, if there are any. -/
theorem yaml_docs_inner_partial (E : Env) (hE : E.Fair) (hO : OrderIgnoresComments E) (hS : E.S.dict = .typedDict)
    (hk : (Key.str E.S.keyDoc).hidden = false) (cs : List CommentsAre) (hcs : ¬ (.above ∈ cs ∧ .below ∈ cs))
    (m : YMap) (hd : (YDoc.map m).OK) (hp : m.Plain)
    (hw : .above ∈ cs → NoWrap (m.lines 0)) (ht : TextsWritable E.U cs (m.lines 0)) (f : YamlFile) (hf : FileOf f (.map m)) :
    ∃ d' : YDoc, d'.OK ∧ (YDoc.map m).Documents d' ∧
      ∀ {ε : Type} (load : Loader ε) (c : Str) n strs, LoadsBoth load f (.map m) d' →
        fromYaml E load true f (some cs) c = .ok n → nodeStrings E n false = .ok strs →
        ∀ w1 m1, InnerMap 0 m w1 m1 → (∀ k ∈ m1.items.map (·.1), (∃ c ∈ k, c ≠ '_') ∧ k ∉ kwlist) →
        ∃ cls doc es, recordText cls false doc es ∈ strs ∧ es.map (·.key) = m1.items.map (·.1) ∧ ∀ e ∈ es,
          (e.key.head? = some '_' ∧ e.doc = none) ∨
          (e.key.head? ≠ some '_' ∧ ∃ i rest ts, (m.lines 0)[i]? = some (blanks w1 ++ (e.key ++ ':' :: rest)) ∧
            TextsOf E.U (m.lines 0) i (blanks w1 ++ (e.key ++ ':' :: rest)) cs ts ∧
            ∀ text, e.doc = some text ↔ ts ≠ [] ∧ text = formatDoc (join py!"\n" (splitlines (join py!"\n\n" ts)) ++ py!"\n") 90 py!"    ") := by
  obtain ⟨d', h1, h2, h3, h4⟩ := temporary_document_partial E.U cs (.map m) hd hp hw ht
  refine ⟨d', h2, h3, fun {ε} load c n strs hl hn hs w1 m1 hin hkw => ?_⟩
  obtain ⟨n', hn'⟩ : ∃ n', fromData E c d'.value = .ok n' := by
    cases hn' : fromData E c d'.value with
    | ok n' => exact ⟨n', rfl⟩
    | error e =>
      exfalso
      have key := (comments_only_document_partial hE hO hk c d'.value (YDoc.commented hS h3)).1 e
      rw [YDoc.bare_value h3] at key
      unfold fromYaml at hn
      simp only [opened hf hd hp hcs, hl.1, key.mp hn', commentedData_some.mpr ⟨rfl, _, h1, hl.2⟩, hn'] at hn
      cases hn
  have hn2 := yaml_with_comments E load f cs c _ (opened hf hd hp hcs) _ _ hl.1 _ h1 hl.2 n' hn'
  rw [hn] at hn2
  injection hn2 with hn2
  subst hn2
  cases d' with
  | seq s => exact absurd h3 id
  | map m' =>
    obtain ⟨hb, hdoc0⟩ := h3
    have hn0 : (m'.items.map (·.1)).Nodup := YMap.nodup_keys m' hdoc0 (hb ▸ hd.2.1)
    obtain ⟨m1', j0, hb1, hdoc, hok1, hnd, hsh, hid⟩ := inner_dict _ hin m' 0 hb hdoc0 h2.2.2 hn0 h4
    subst hb1
    have hvis := visible_words m1' hdoc
    have hwords : ∀ k ∈ m1'.bare.items.map (·.1), PlainWord k := fun k hk => words_of_map m1' hok1 k ((YMap.key_bare m1' hdoc k).mp hk).1
    have hnb : (m1'.bare.items.map (·.1)).Nodup := by rw [← visible_words m1' hdoc]; exact hnd.filter _
    have hn' : fromData E c (dictOf m'.items) = .ok n := hn'
    have hz := zip_items m1'.items
    have p1 : ∀ kv ∈ (m1'.items.map (·.1)).zip (m1'.items.map (·.2)), startsWith kv.1 hiddenPrefix = true → ∃ text, kv.2 = .inst .str (some text) := by
      rw [hz]
      exact fun kv hkv hh => hidden_text m1' hdoc kv hkv hh
    have p2 : ∀ k ∈ visible (m1'.items.map (·.1)), (∀ c ∈ k, isAscii c = true) ∧ AsciiIdent k ∧ (∃ c ∈ k, c ≠ '_') ∧ k ∉ kwlist := by
      rw [hvis]
      intro k hk
      obtain ⟨a, b⟩ := plainWord_ident (hwords k hk)
      exact ⟨a, b, hkw k hk⟩
    have p3 : ∀ k ∈ m1'.items.map (·.1), startsWith k hiddenPrefix = true → ∃ k' ∈ visible (m1'.items.map (·.1)), k = hiddenPrefix ++ k' := by
      intro k hk hh
      obtain ⟨key, e1, e2, e3⟩ := YMap.owner m1' hdoc (k := k) hh hk
      refine ⟨key, ?_, e1⟩
      rw [hvis]
      exact (YMap.key_bare m1' hdoc key).mpr ⟨e2, e3⟩
    have hlen : (m1'.items.map (·.1)).length = (m1'.items.map (·.2)).length := by simp
    obtain ⟨cls, doc, es, r1, r2, r3⟩ := comments_shown_inner_partial E hS c _ _ _ n strs hid hlen hnd p1 ⟨p2, p3⟩ hn' hs
    refine ⟨cls, doc, es, r1, r2.trans hvis, fun e he => ?_⟩
    have hmem : e.key ∈ m1'.bare.items.map (·.1) := by
      rw [← hvis, ← r2]
      exact List.mem_map.mpr ⟨e, he, rfl⟩
    obtain ⟨j, rest, o, t0, t1, t2⟩ := YMap_told _ w1 m1' j0 none hdoc hok1 hnb hsh e.key hmem
    have hzip : ∀ text, e.doc = some text ↔ ∃ ls, o = some ls ∧ text = formatDoc (blockValue ls) 90 py!"    " := by
      intro text
      rw [r3 e he text]
      unfold CommentFor
      rw [hz]
      constructor
      · rintro ⟨t, h, rfl⟩
        obtain ⟨ls, h', rfl⟩ := (t2 t).mp (.inl h)
        exact ⟨ls, h', rfl⟩
      · rintro ⟨ls, h, rfl⟩
        rcases (t2 _).mpr ⟨ls, h, rfl⟩ with h | ⟨_, _, h, _⟩
        · exact ⟨_, h, rfl⟩
        · cases h
    have hkl := keyLine_word (U := E.U) (w := w1) (hwords _ hmem) t0
    have hnone : o = none → e.doc = none := by
      rintro rfl
      cases hdc : e.doc with
      | none => rfl
      | some t =>
        obtain ⟨_, h, _⟩ := (hzip t).mp hdc
        cases h
    by_cases hu : e.key.head? = some '_'
    · refine .inl ⟨hu, hnone ?_⟩
      rcases t1 with ⟨h, _⟩ | ⟨_, _, _, h, _⟩
      · exact h
      · exact absurd hu (hkl.mp h)
    · refine .inr ⟨hu, j, rest, ?_⟩
      rcases t1 with ⟨h, h' | h'⟩ | ⟨ts, q1, q2, _, q3⟩
      · refine ⟨[], h'.1, h'.2, fun text => ?_⟩
        rw [hnone h]
        exact ⟨fun h => by (cases h), fun h => absurd rfl h.1⟩
      · exact absurd (hkl.mpr hu) h'
      · refine ⟨ts, q2.1, q2.2, fun text => ?_⟩
        rw [hzip text]
        constructor
        · rintro ⟨ls, h, rfl⟩
          rw [q3] at h
          injection h with h
          subst h
          exact ⟨q1, rfl⟩
        · rintro ⟨_, rfl⟩
          exact ⟨_, q3, rfl⟩


/-- The mapping below `db` in `exYaml`. -/
example : InnerMap 0 exYaml 4 (.scalar py!"name" (.word py!"x1") py!" # Name: of it" .nil) := by
  refine .step (before := []) (after := []) (k := py!"db") (w' := 4) (by simp [exYaml, YMap.subs]) (by simp) (.here _ _)

end Verif.Props
