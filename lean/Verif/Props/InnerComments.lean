import Verif.Lemmas.InnerDicts
import Verif.Props.Comments
/-
C88: comments of keys in dictionaries inside dictionaries.
-/
namespace Verif.Props
open Verif Verif.Spec

/-- What **C88** says of all dictionaries that are found by following keys, and have keys as in `P`: there is a class with its visible keys in
order, and each is followed by its comment as a docstring if it has one, and by nothing otherwise. -/
def InnerCommentsShown (E : Env) (P : List Str → Prop) : Prop := ∀ name v ks vs n strs, InnerDict v ks vs → ks.length = vs.length → ks.Nodup →
  (∀ kv ∈ ks.zip vs, startsWith kv.1 hiddenPrefix = true → ∃ text, kv.2 = .inst .str (some text)) → P ks →
  fromData E name v = .ok n → nodeStrings E n false = .ok strs →
  ∃ cls doc es, recordText cls false doc es ∈ strs ∧ es.map (·.key) = visible ks ∧
    ∀ e ∈ es, ∀ d, e.doc = some d ↔ ∃ text, CommentFor ks vs e.key text ∧ d = formatDoc text 90 py!"    "

theorem emitted_strs {E : Env} {n : Node} {strs : List Str} {d : Decl} (hd : d ∈ (n.render E).emitted) (h : nodeStrings E n false = .ok strs) :
    d.text ∈ strs := by
  unfold nodeStrings at h
  dsimp only at h
  split at h
  · cases h
  · split at h
    · cases h
    · simp only [Bool.false_eq_true, if_false] at h
      injection h with h
      subst h
      unfold declTexts
      rw [mem_dedup]
      exact List.mem_map_of_mem hd

/-- **C88** (partial) for dictionaries inside dictionaries, with the same keys as in `comments_shown_partial`. -/
theorem comments_shown_inner_partial (E : Env) (hS : E.S.dict = .typedDict) :
    InnerCommentsShown E (fun ks => (∀ k ∈ visible ks, (∀ c ∈ k, isAscii c = true) ∧ AsciiIdent k ∧ (∃ c ∈ k, c ≠ '_') ∧ k ∉ kwlist) ∧
      (∀ k ∈ ks, startsWith k hiddenPrefix = true → ∃ k' ∈ visible ks, k = hiddenPrefix ++ k')) := by
  intro name v ks vs n strs hi hl hnd htx hok hn hs
  unfold fromData at hn
  split at hn
  case isFalse => cases hn
  split at hn
  case h_2 => cases hn
  rename_i n' hb
  injection hn with hn
  subst hn
  obtain ⟨f0, r0, nm0, t0, n0, m, hb0, hal, hbel⟩ := inner_node hS hi hb
  obtain ⟨hp, es, h1, h2, h3⟩ := sameTexts_raw (im := sigImports E.U) hS hl hb0 hal
  have hv : ∀ k ∈ visible ks, k ∉ kwlist ∧ nameOk E.U k = true := by
    intro k hk
    obtain ⟨a, b, c, d⟩ := hok.1 k hk
    exact ⟨d, by rw [ascii_ident_nameOk E.U k a b]; exact c⟩
  have hf : isFunctional E.U (DMeta.ofData ((ks.map Key.str).zip vs)) = false := by
    rw [isFunctional_strs hl]
    intro k hk
    cases hh : startsWith k hiddenPrefix with
    | false => exact hv k (by simp [visible, List.mem_filter, hk, hh])
    | true =>
      obtain ⟨k', hk', rfl⟩ := hok.2 k hk hh
      have := ident_hidden (hv k' hk').2
      simpa using this
  rw [hf] at h1
  have hmem : (m.render E).top.text ∈ strs := by
    rcases hbel with rfl | hbel
    · refine root_text_mem ?_ hs
      cases hi with
      | here => exact build_root hb
      | step => exact build_root hb
    · exact emitted_strs (visitedBelow_emitted hbel hp) hs
  refine ⟨_, _, es, by rw [← h1]; exact hmem, h2, fun e he d => ?_⟩
  rw [h3 e he]
  have hvis : startsWith e.key hiddenPrefix = false := by
    have : e.key ∈ visible ks := by rw [← h2]; exact List.mem_map_of_mem he
    simpa [visible, List.mem_filter] using (List.mem_filter.mp this).2
  exact entryDoc_comment hnd htx hvis

/-- An inner dictionary with a comment. -/
def innerPair : Val := .map .dict .dict [.str py!"p", .str py!"q"] [.map .dict .dict [.str py!"b"] [.inst .int none], commentedPair]

example : InnerDict innerPair [py!"a", py!"___docstring_hidden_key_a", py!"b"] [.inst .int none, .inst .str (some py!"The first"), .inst .str (some py!"x")] := by
  refine .step (before := [(.str py!"p", .map .dict .dict [.str py!"b"] [.inst .int none])]) (after := []) (k := .str py!"q")
    (ks' := [py!"a", py!"___docstring_hidden_key_a", py!"b"]) rfl (by decide) (by decide) rfl (by decide) rfl ?_ (.here _ _ _)
  intro k2 t2 keys2 vals2 hm _
  simp only [List.mem_singleton, Prod.mk.injEq, Val.map.injEq] at hm
  obtain ⟨_, _, _, rfl, rfl⟩ := hm
  refine ⟨rfl, fun h => ?_⟩
  have := (h (.str py!"a") (by decide)).mpr (by decide)
  revert this; decide

example : hintTexts (exEnv {}) py!"A" innerPair = some [py!"class AP(TypedDict):\n    b: int",
    py!"class AQ(TypedDict):\n    a: int\n    \"\"\"The first.\"\"\"\n    b: str", py!"class A(TypedDict):\n    p: AP\n    q: AQ"] := by decide +kernel

/-- Why the dictionaries on the way must not follow others with the same keys: the comment of the second one is lost. -/
theorem comments_shown_after_equal_fails : ∃ strs, hintTexts (exEnv {}) py!"A" (.map .dict .dict [.str py!"p", .str py!"q"]
      [.map .dict .dict [.str py!"a"] [.inst .int none],
       .map .dict .dict [.str py!"a", .str py!"___docstring_hidden_key_a"] [.inst .int none, .inst .str (some py!"Two")]]) = some strs ∧
    ∀ s ∈ strs, '"' ∉ s := by
  refine ⟨[py!"class ADict(TypedDict):\n    a: int", py!"class A(TypedDict):\n    p: ADict\n    q: ADict"], by decide +kernel, by decide⟩

end Verif.Props
