import Verif.Spec.TreeCalls
import Verif.Props.Utils
/-
Histories of calls on one generated hint (C04).
-/
namespace Verif.Props
open Verif Verif.Spec

/-- Sum of the lengths. -/
def total : List Str → Nat
  | [] => 0
  | s :: r => s.length + total r

theorem join_length (sep : Str) : ∀ (s : Str) (l : List Str), (join sep (s :: l)).length = s.length + total l + sep.length * l.length
  | s, [] => by simp [join, total]
  | s, a :: l => by
    have := join_length sep a l
    simp only [join, List.length_append, this, total, List.length_cons, Nat.mul_add, Nat.mul_one]
    omega

theorem total_le_map {g : Str → Str} (hg : ∀ s, s.length ≤ (g s).length) : ∀ l, total l ≤ total (l.map g)
  | [] => by simp [total]
  | s :: l => by simp only [List.map_cons, total]; have := hg s; have := total_le_map hg l; omega

/-- The text with imports is longer than the text without. -/
theorem imports_longer (imports : Str) {l : List Str} (h : l ≠ []) :
    (formatNodeStrings l).length < (formatNodeStrings (imports :: l)).length := by
  have hg : ∀ s : Str, s.length ≤ (if startsWith s py!"class" then '\n' :: s else s).length := by
    intro s
    split
    · simp
    · exact Nat.le_refl _
  match l, h with
  | [a], _ => simp [formatNodeStrings, spaceClasses, join_length, total]; omega
  | a :: b :: r, _ =>
    have h1 := hg b
    have h2 := total_le_map hg r
    simp only [formatNodeStrings, spaceClasses, join_length, total, List.map_cons, List.length_append, List.length_cons, List.length_nil, List.length_map]
    omega

/-- The text with imports differs from the text without. -/
theorem texts_differ {E : Env} {n : Node} {s s' : List Str} (h : nodeStrings E n true = .ok s) (h' : nodeStrings E n false = .ok s') :
    formatNodeStrings s ≠ formatNodeStrings s' := by
  unfold nodeStrings at h h'
  dsimp only at h h'
  split at h
  · cases h
  · split at h
    · cases h
    · rename_i hf hne
      rw [hf] at h'
      simp only [if_true, if_neg hne, Bool.false_eq_true, if_false, Except.ok.injEq] at h h'
      split at h
      · injection h with h
        subst h; subst h'
        intro e
        rename_i imp _
        have := imports_longer imp (l := declTexts (n.render E)) (by simpa using hne)
        rw [e] at this
        exact absurd this (Nat.lt_irrefl _)
      · cases h

/-- C04 (full statement): in every history of calls on one hint, each call does what it does on a fresh object. -/
def CallsAnswerArguments (E : Env) (n : Node) : Prop :=
  ∀ fs ops, (n.treeRun E ⟨none, fs⟩ ops).1 = (callResults (toString' E n) fs ops).1 ∧
    (n.treeRun E ⟨none, fs⟩ ops).2.fs = (callResults (toString' E n) fs ops).2

theorem nodeStrings_of_text {E : Env} {n : Node} {b : Bool} {s : Str} (h : toString' E n b = .ok s) :
    ∃ l, nodeStrings E n b = .ok l ∧ formatNodeStrings l = s := by
  unfold toString' at h
  cases hn : nodeStrings E n b with
  | error e => rw [hn] at h; cases h
  | ok l =>
    rw [hn] at h
    simp only [Except.map, Except.ok.injEq] at h
    exact ⟨l, rfl, h⟩

/-- **C04** is false of every hint with a text: a call with imports after a call without gives the text without. -/
theorem tree_calls_fails {E : Env} {n : Node} {s s' : Str} (h : toString' E n true = .ok s) (h' : toString' E n false = .ok s') (fs : Fs) :
    (n.treeRun E ⟨none, fs⟩ [.toString false, .toString true]).1 = [.text (.ok s'), .text (.ok s')] ∧ s ≠ s' ∧ ¬ CallsAnswerArguments E n := by
  obtain ⟨l, hl, rfl⟩ := nodeStrings_of_text h
  obtain ⟨l', hl', rfl⟩ := nodeStrings_of_text h'
  have hne := texts_differ hl hl'
  have e : (n.treeRun E ⟨none, fs⟩ [.toString false, .toString true]).1 = [.text (.ok (formatNodeStrings l')), .text (.ok (formatNodeStrings l'))] := by
    simp [Node.treeRun, Node.treeStep, Node.toStringCall, cachedCall, hl', Except.map]
  refine ⟨e, hne, ?_⟩
  intro hc
  have := (hc fs [.toString false, .toString true]).1
  rw [e] at this
  simp [callResults, callResult, h] at this
  exact hne this.2.symm

theorem toFile_reaches {fs : Fs} {p : Path} {create : Bool} {t t' : Except StrErr Str} (h : reachesText fs p create = false) :
    toFile t fs p create = toFile t' fs p create := by
  unfold reachesText at h
  unfold toFile
  split at h
  · rename_i hn
    rw [if_pos hn, if_pos hn]
    cases hc : create with
    | false => rfl
    | true =>
      rw [hc] at h
      simp only [Bool.true_and, Bool.not_true, Bool.false_eq_true, if_false] at h ⊢
      cases hm : makedirs fs (p.length + 1) p.parent with
      | ok fs' => rw [hm] at h; cases h
      | error e => rfl
  · cases h

/-- **C04** is false of every hint with a text: a file written after a call without imports lacks them. The path is one that can be
written. -/
theorem tree_calls_fails_file {E : Env} {n : Node} {s s' : Str} (h : toString' E n true = .ok s) (h' : toString' E n false = .ok s') (fs : Fs) (p : Path)
    (create : Bool) (hp : fs p.parent = some .dir) (hd : fs p ≠ some .dir) :
    (n.treeRun E ⟨none, fs⟩ [.toString false, .toFile p create]).2.fs p = some (.file s') ∧
    (callResults (toString' E n) fs [.toString false, .toFile p create]).2 p = some (.file s) ∧ s ≠ s' := by
  obtain ⟨l, hl, rfl⟩ := nodeStrings_of_text h
  obtain ⟨l', hl', rfl⟩ := nodeStrings_of_text h'
  refine ⟨?_, ?_, texts_differ hl hl'⟩
  · simp [Node.treeRun, Node.treeStep, Node.toStringCall, cachedCall, hl', Except.map, toFile, hp, writeStep, writeText, hd, Fs.set]
  · simp [callResults, callResult, h, toFile, hp, writeStep, writeText, hd, Fs.set]

/-- The state after calls that all ask for the same: nothing stored, or what they ask for. -/
def CacheOk (E : Env) (n : Node) (b : Bool) (c : Option (List Str)) : Prop := ∀ l, c = some l → nodeStrings E n b = .ok l

theorem toStringCall_ok {E : Env} {n : Node} {b : Bool} {c : Option (List Str)} (h : CacheOk E n b c) :
    (n.toStringCall E c b).1 = toString' E n b ∧ CacheOk E n b (n.toStringCall E c b).2 := by
  unfold Node.toStringCall cachedCall toString'
  cases c with
  | some l =>
    rw [h l rfl]
    exact ⟨rfl, h⟩
  | none =>
    cases hn : nodeStrings E n b with
    | ok l => exact ⟨rfl, fun l' h' => by injection h' with h'; rw [← h']; exact hn⟩
    | error e => exact ⟨rfl, fun l' h' => by cases h'⟩

/-- **C04** for histories whose calls all ask for imports (`to_file` always does), or all ask for none. Missing: histories with both,
for which the claim is false. -/
theorem tree_calls_partial {E : Env} {n : Node} (b : Bool) (fs : Fs) (ops : List TreeOp) (hb : ∀ op ∈ ops, asksImports op = b) :
    (n.treeRun E ⟨none, fs⟩ ops).1 = (callResults (toString' E n) fs ops).1 ∧
    (n.treeRun E ⟨none, fs⟩ ops).2.fs = (callResults (toString' E n) fs ops).2 := by
  suffices key : ∀ (ops : List TreeOp), (∀ op ∈ ops, asksImports op = b) → ∀ s : TreeState, CacheOk E n b s.cache →
      (n.treeRun E s ops).1 = (callResults (toString' E n) s.fs ops).1 ∧
      (n.treeRun E s ops).2.fs = (callResults (toString' E n) s.fs ops).2 by
    exact key ops hb ⟨none, fs⟩ (fun l h => by cases h)
  intro ops
  induction ops with
  | nil => intro _ s _; exact ⟨rfl, rfl⟩
  | cons op ops ih =>
    intro hb s hs
    have hop := hb op (by simp)
    obtain ⟨c1, c2⟩ := toStringCall_ok hs
    cases op with
    | toString b' =>
      have hop : b' = b := hop
      subst hop
      have := ih (fun o ho => hb o (by simp [ho])) { s with cache := (n.toStringCall E s.cache b').2 } c2
      simp only [Node.treeRun, Node.treeStep, callResults, callResult, c1]
      exact ⟨by rw [this.1], this.2⟩
    | toFile p create =>
      have hop : true = b := hop
      subst hop
      have := ih (fun o ho => hb o (by simp [ho])) ⟨if reachesText s.fs p create then (n.toStringCall E s.cache true).2 else s.cache,
        (toFile (n.toStringCall E s.cache true).1 s.fs p create).1⟩ (by
          dsimp only
          split
          · exact c2
          · exact hs)
      simp only [Node.treeRun, Node.treeStep, callResults, callResult, c1] at this ⊢
      exact ⟨by rw [this.1], this.2⟩

/-- Exactly: the history answers to the arguments if and only if no call after the first that makes the text asks for something
else. Stated for histories of `to_string`. -/
theorem tree_calls_iff {E : Env} {n : Node} {s s' : Str} (h : toString' E n true = .ok s) (h' : toString' E n false = .ok s') (fs : Fs) (bs : List Bool) :
    (n.treeRun E ⟨none, fs⟩ (bs.map .toString)).1 = (callResults (toString' E n) fs (bs.map .toString)).1 ↔ ∃ b, ∀ x ∈ bs, x = b := by
  constructor
  · intro he
    obtain ⟨l, hl, rfl⟩ := nodeStrings_of_text h
    obtain ⟨l', hl', rfl⟩ := nodeStrings_of_text h'
    have hne := texts_differ hl hl'
    have hall : ∀ b, ∃ m, nodeStrings E n b = .ok m ∧ toString' E n b = .ok (formatNodeStrings m) := by
      intro b
      cases b
      · exact ⟨l', hl', h'⟩
      · exact ⟨l, hl, h⟩
    have hinj : ∀ b b' m m', nodeStrings E n b = .ok m → nodeStrings E n b' = .ok m' → formatNodeStrings m = formatNodeStrings m' → b = b' := by
      intro b b' m m' e1 e2 e3
      cases b <;> cases b' <;> first | rfl | skip
      · exact absurd e3.symm (texts_differ e2 e1)
      · exact absurd e3 (texts_differ e1 e2)
    cases bs with
    | nil => exact ⟨true, by simp⟩
    | cons b bs =>
      refine ⟨b, ?_⟩
      obtain ⟨m, hm, _⟩ := hall b
      have run : ∀ (bs : List Bool), (n.treeRun E ⟨some m, fs⟩ (bs.map .toString)).1 = (callResults (toString' E n) fs (bs.map .toString)).1 →
          ∀ x ∈ bs, x = b := by
        intro bs
        induction bs with
        | nil => simp
        | cons c cs ih =>
          intro he
          obtain ⟨mc, hmc, htc⟩ := hall c
          simp only [List.map_cons, Node.treeRun, Node.treeStep, Node.toStringCall, cachedCall, callResults, callResult, htc, Except.map,
            List.cons.injEq, TreeResult.text.injEq, Except.ok.injEq] at he
          intro x hx
          rcases List.mem_cons.mp hx with rfl | hx
          · exact (hinj _ _ _ _ hm hmc he.1).symm
          · exact ih he.2 x hx
      simp only [List.map_cons, Node.treeRun, Node.treeStep, Node.toStringCall, cachedCall, hm, callResults, callResult, List.cons.injEq] at he
      intro x hx
      rcases List.mem_cons.mp hx with rfl | hx
      · rfl
      · exact run bs he.2 x hx
  · rintro ⟨b, hb⟩
    refine (tree_calls_partial b fs _ ?_).1
    intro op hop
    obtain ⟨x, hx, rfl⟩ := List.mem_map.mp hop
    exact hb x hx

/-- The hypotheses hold of the hint of an empty list. -/
example : ∃ n, fromData (exEnv {}) py!"X" (.seq .list .list []) = .ok n ∧
    toString' (exEnv {}) n true = .ok py!"from typing import Any, List\nfrom typing_extensions import TypeAlias\n\n\nX: TypeAlias = List[Any]" ∧
    toString' (exEnv {}) n false = .ok py!"X: TypeAlias = List[Any]\n" := by
  refine ⟨_, rfl, ?_, ?_⟩ <;> decide +kernel

end Verif.Props
