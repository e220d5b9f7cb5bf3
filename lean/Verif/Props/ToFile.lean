import Verif.Model.ToFile
/-
C43: `to_file` writes exactly the text or fails cleanly.
-/
namespace Verif.Props
open Verif

/-- The root is a directory, and everything else lies in a directory. -/
def WellFormed (fs : Fs) : Prop := fs [] = some .dir ∧ ∀ p, (fs p).isSome → fs p.parent = some .dir

/-- C43, the full statement. -/
def ToFileExact : Prop := ∀ (text : Str) (fs : Fs) (p : Path) (create : Bool), WellFormed fs → p ≠ [] →
  ((toFile (.ok text) fs p create).2 = some .value ↔ fs p.parent = none ∧ create = false) ∧
  ((toFile (.ok text) fs p create).2 = some .value → (toFile (.ok text) fs p create).1 = fs) ∧
  (¬ (fs p.parent = none ∧ create = false) →
    (toFile (.ok text) fs p create).2 = none ∧ (toFile (.ok text) fs p create).1 p = some (.file text))

/-- It is false when the path is an existing directory. -/
theorem to_file_exact_fails : ¬ ToFileExact := by
  intro h
  have h1 := (h [] (fun q => if q = [] ∨ q = [py!"a"] then some .dir else none) [py!"a"] false ⟨rfl, ?_⟩ (by decide)).2.2 (by decide)
  · exact absurd h1.1 (by decide)
  · intro p hp
    have : p = [] ∨ p = [py!"a"] := by
      false_or_by_contra
      rename_i hn
      simp [hn] at hp
    rcases this with rfl | rfl <;> rfl

/-- Nothing that exists is touched, and only directories are added. -/
theorem makedirs_spec {fs fs' : Fs} : ∀ {fuel : Nat} {p : Path}, makedirs fs fuel p = .ok fs' →
    fs' p = some .dir ∧ ∀ q, fs' q = fs q ∨ (fs q = none ∧ fs' q = some .dir ∧ q <+: p)
  | 0, _, h => by cases h
  | fuel + 1, p, h => by
    unfold makedirs at h
    cases hp : fs p with
    | some e =>
      rw [hp] at h
      cases e with
      | dir => injection h with h; subst h; exact ⟨hp, fun q => .inl rfl⟩
      | file s => cases h
    | none =>
      rw [hp] at h
      cases hm : makedirs fs fuel p.parent with
      | error e => simp only [hm] at h; cases h
      | ok fs1 =>
        simp only [hm] at h
        injection h with h
        subst h
        refine ⟨by simp [Fs.set], fun q => ?_⟩
        by_cases hq : q = p
        · subst hq; exact .inr ⟨hp, by simp [Fs.set], List.prefix_rfl⟩
        · have := (makedirs_spec hm).2 q
          rw [show fs1.set p .dir q = fs1 q by simp [Fs.set, hq]]
          exact this.imp id (fun h => ⟨h.1, h.2.1, h.2.2.trans (List.dropLast_prefix p)⟩)

/-- `makedirs` succeeds unless an ancestor is a file. -/
theorem makedirs_total {fs : Fs} (hroot : fs [] = some .dir) : ∀ (fuel : Nat) (p : Path), p.length < fuel →
    (∀ q, q <+: p → ∀ s, fs q ≠ some (.file s)) → ∃ fs', makedirs fs fuel p = .ok fs'
  | 0, _, h, _ => by omega
  | fuel + 1, p, hl, ha => by
    unfold makedirs
    cases hp : fs p with
    | some e =>
      cases e with
      | dir => exact ⟨_, rfl⟩
      | file s => exact absurd hp (ha p List.prefix_rfl s)
    | none =>
      have hne : p ≠ [] := by rintro rfl; rw [hroot] at hp; cases hp
      have hlen : p.parent.length < fuel := by
        have : p.length ≠ 0 := by simpa using hne
        simp only [Path.parent, List.length_dropLast]; omega
      obtain ⟨fs1, h1⟩ := makedirs_total hroot fuel p.parent hlen (fun q hq => ha q (hq.trans (List.dropLast_prefix p)))
      simp only [h1]
      exact ⟨_, rfl⟩

/-- `ValueError` exactly when the directory is missing and creating it was not requested; then nothing changed. -/
theorem to_file_value_error (text : Except StrErr Str) (fs : Fs) (p : Path) (create : Bool) :
    ((toFile text fs p create).2 = some .value ↔ fs p.parent = none ∧ create = false) ∧
    ((toFile text fs p create).2 = some .value → (toFile text fs p create).1 = fs) := by
  have hw : ∀ fs : Fs, ∀ s, writeText fs p s ≠ .error .value := by
    intro fs s h
    unfold writeText at h
    split at h
    · cases h
    · split at h <;> cases h
  have hmk : ∀ fuel q, makedirs fs fuel q ≠ .error .value := by
    intro fuel
    induction fuel with
    | zero => intro q h; cases h
    | succ fuel ih =>
      intro q h
      unfold makedirs at h
      cases hq : fs q with
      | some e => rw [hq] at h; cases e <;> cases h
      | none =>
        rw [hq] at h
        cases hm : makedirs fs fuel q.parent with
        | ok _ => simp only [hm] at h; cases h
        | error e =>
          simp only [hm] at h
          injection h with h
          subst h
          exact ih _ hm
  have hwr : ∀ fs : Fs, (writeStep text p fs).2 ≠ some FileErr.value := by
    intro fs h
    unfold writeStep at h
    cases text with
    | error e => cases h
    | ok s =>
      cases hx : writeText fs p s with
      | ok _ => simp [hx] at h
      | error e =>
        simp only [hx] at h
        injection h with h
        subst h
        exact hw _ _ hx
  unfold toFile
  cases hpar : fs p.parent with
  | some e =>
    simp only [Option.isNone_some, Bool.false_eq_true, if_false, reduceCtorEq, false_and, iff_false]
    exact ⟨hwr fs, fun h => absurd h (hwr fs)⟩
  | none =>
    cases create with
    | false => simp
    | true =>
      simp only [Option.isNone_none, if_true, Bool.not_true, Bool.false_eq_true, if_false, Bool.true_eq_false, and_false, iff_false]
      cases hm : makedirs fs (p.length + 1) p.parent with
      | error e => simp; rintro rfl; exact absurd hm (hmk _ _)
      | ok fs1 => exact ⟨hwr fs1, fun h => absurd h (hwr fs1)⟩

/-- When `to_file` returns, the text could be generated, the file holds exactly it, and apart from new directories on the way to it
nothing else changed. -/
theorem to_file_writes_exactly {text : Except StrErr Str} {fs : Fs} {p : Path} {create : Bool}
    (h : (toFile text fs p create).2 = none) :
    ∃ s, text = .ok s ∧ (toFile text fs p create).1 p = some (.file s) ∧
      ∀ q, q ≠ p → (toFile text fs p create).1 q = fs q ∨
        (fs q = none ∧ (toFile text fs p create).1 q = some .dir ∧ q <+: p.parent ∧ create = true) := by
  have hwr : ∀ fs1 : Fs, (writeStep text p fs1).2 = none → ∃ s, text = .ok s ∧ (writeStep text p fs1).1 = fs1.set p (.file s) := by
    intro fs1 h
    unfold writeStep at h ⊢
    cases text with
    | error e => cases h
    | ok s =>
      refine ⟨s, rfl, ?_⟩
      cases hw : writeText fs1 p s with
      | error e => simp [hw] at h
      | ok fs2 =>
        simp only [hw]
        unfold writeText at hw
        split at hw
        · cases hw
        · split at hw
          · injection hw with hw; exact hw.symm
          · cases hw
  unfold toFile at h ⊢
  cases hpar : fs p.parent with
  | some e =>
    simp only [hpar, Option.isNone_some, Bool.false_eq_true, if_false] at h ⊢
    obtain ⟨s, hs, h2⟩ := hwr fs h
    refine ⟨s, hs, ?_, ?_⟩
    · rw [h2]; simp [Fs.set]
    · intro q hq; rw [h2]; exact .inl (by simp [Fs.set, hq])
  | none =>
    cases create with
    | false => simp [hpar] at h
    | true =>
      simp only [hpar, Option.isNone_none, if_true, Bool.not_true, Bool.false_eq_true, if_false] at h ⊢
      cases hm : makedirs fs (p.length + 1) p.parent with
      | error e => simp [hm] at h
      | ok fs1 =>
        simp only [hm] at h ⊢
        obtain ⟨s, hs, h2⟩ := hwr fs1 h
        refine ⟨s, hs, ?_, ?_⟩
        · rw [h2]; simp [Fs.set]
        · intro q hq
          rw [h2, show fs1.set p (.file s) q = fs1 q by simp [Fs.set, hq]]
          exact ((makedirs_spec hm).2 q).imp id (fun h => ⟨h.1, h.2.1, h.2.2, trivial⟩)

/-- `to_file` succeeds when the path is no directory and the existing part of the way to it consists of directories. -/
theorem to_file_succeeds_partial {s : Str} {fs : Fs} {p : Path} {create : Bool} (hroot : fs [] = some .dir)
    (hp : p ≠ []) (hd : fs p ≠ some .dir) (ha : ∀ q, q <+: p.parent → ∀ t, fs q ≠ some (.file t))
    (hc : fs p.parent = none → create = true) : (toFile (.ok s) fs p create).2 = none := by
  unfold toFile
  cases hpar : fs p.parent with
  | some e =>
    cases e with
    | file t => exact absurd hpar (ha _ List.prefix_rfl t)
    | dir => simp [writeStep, writeText, hd, hpar]
  | none =>
    rw [hc hpar]
    have hlen : p.parent.length < p.length + 1 := by simp only [Path.parent, List.length_dropLast]; omega
    obtain ⟨fs1, h1⟩ := makedirs_total hroot _ _ hlen ha
    have h2 := makedirs_spec h1
    have h3 : fs1 p ≠ some .dir := by
      intro h
      rcases h2.2 p with h4 | h4
      · rw [h4] at h; exact hd h
      · have := h4.2.2.length_le
        have hl : p.length ≠ 0 := by simpa using hp
        simp only [Path.parent, List.length_dropLast] at this
        omega
    simp [h1, writeStep, writeText, h3, h2.1]

/-- When `to_file` fails, whatever the reason, everything that existed is as before, the file at the path included: at most there are new
directories on the way to it. -/
theorem to_file_failure_keeps {text : Except StrErr Str} {fs : Fs} {p : Path} {create : Bool} {e : FileErr}
    (h : (toFile text fs p create).2 = some e) (q : Path) :
    (toFile text fs p create).1 q = fs q ∨
      (fs q = none ∧ (toFile text fs p create).1 q = some .dir ∧ q <+: p.parent ∧ create = true) := by
  have hwr : ∀ fs1 : Fs, (writeStep text p fs1).2 = some e → (writeStep text p fs1).1 = fs1 := by
    intro fs1 h
    unfold writeStep at h ⊢
    cases text with
    | error e => rfl
    | ok s =>
      cases hw : writeText fs1 p s with
      | error e => simp [hw]
      | ok fs2 => simp [hw] at h
  unfold toFile at h ⊢
  cases hpar : fs p.parent with
  | some d =>
    simp only [hpar, Option.isNone_some, Bool.false_eq_true, if_false] at h ⊢
    rw [hwr fs h]
    exact .inl rfl
  | none =>
    cases create with
    | false => simp
    | true =>
      simp only [hpar, Option.isNone_none, if_true, Bool.not_true, Bool.false_eq_true, if_false] at h ⊢
      cases hm : makedirs fs (p.length + 1) p.parent with
      | error e => exact .inl rfl
      | ok fs1 =>
        simp only [hm] at h ⊢
        rw [hwr fs1 h]
        exact ((makedirs_spec hm).2 q).imp id (fun h => ⟨h.1, h.2.1, h.2.2, trivial⟩)

/-- A file that already exists keeps its text if no new one can be made. -/
example : (toFile (.error .noHints) (fun q => if q = [] then some .dir else if q = [py!"a.py"] then some (.file py!"x") else none) [py!"a.py"] true).2 =
      some (.text .noHints) ∧
    (toFile (.error .noHints) (fun q => if q = [] then some .dir else if q = [py!"a.py"] then some (.file py!"x") else none) [py!"a.py"] true).1
      [py!"a.py"] = some (.file py!"x") := by decide +kernel

/-- So `to_file` of the hint of `v`, called on a fresh tree, leaves the text that `to_string` gives, imports included. -/
theorem to_file_of_data {E : Env} {name : Str} {v : Val} {n : Node} {fs : Fs} {p : Path} {create : Bool}
    (hn : fromData E name v = .ok n) (h : (treeToFile E n fs p create).2 = none) :
    ∃ s, generate E name v true = .ok s ∧ (treeToFile E n fs p create).1 p = some (.file s) ∧
      ∀ q, ¬ q <+: p → (treeToFile E n fs p create).1 q = fs q := by
  obtain ⟨s, hs, h1, h2⟩ := to_file_writes_exactly h
  refine ⟨s, ?_, h1, ?_⟩
  · unfold generate
    rw [hn]
    simp only [hs]
  · intro q hq
    rcases h2 q (fun e => hq (e ▸ List.prefix_rfl)) with h | h
    · exact h
    · exact absurd (h.2.2.1.trans (List.dropLast_prefix p)) hq

example : (match fromData (exEnv {}) py!"X" (.seq .list .list [.inst .int none]) with
    | .ok n => (treeToFile (exEnv {}) n (fun q => if q = [] then some .dir else none) [py!"x.py"] false).1 [py!"x.py"]
    | .error _ => none) = some (.file py!"from typing import List\nfrom typing_extensions import TypeAlias\n\n\nX: TypeAlias = List[int]") := by
  decide +kernel

/-- A file below two missing directories. -/
example : (toFile (.ok py!"x") (fun q => if q = [] then some .dir else none) [py!"a", py!"b", py!"c.py"] true).2 = none ∧
    (toFile (.ok py!"x") (fun q => if q = [] then some .dir else none) [py!"a", py!"b", py!"c.py"] true).1 [py!"a"] = some .dir := by decide +kernel

end Verif.Props
