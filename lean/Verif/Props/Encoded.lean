import Verif.Lemmas.Encoded
import Verif.Props.LiveCrash
/-
C99: live generators in any locale.
-/
namespace Verif.Props
open Verif Verif.Spec

/-- **C99** (partial). If class names and hints consist of characters that the locale writes as UTF-8 does, and have no `\r`, then every
history of calls has the outcomes it would have if files were read back as written, and its files can be read as UTF-8. Missing: other
characters. -/
theorem locale_free_partial {l : Locale} (ha : Locale.AsciiBased l) (E : Env) : LocaleFree l E (SafeTexts l E) := by
  intro hist h
  refine run_bytes ha hist (empty_bytes l E (fun S => ∃ j mode, .new j S mode ∈ hist)) ?_
  intro e he
  cases e with
  | new i S mode => exact ⟨i, mode, he⟩
  | call i c v => exact ⟨(h i c v he).1, fun S text ⟨j, mode, hj⟩ ht => (h i c v he).2 j S mode text hj ht⟩
  | reset => trivial

theorem utf8_based (crlf : Bool) : Locale.AsciiBased (utf8Locale crlf) := by
  intro c h
  simp only [utf8Locale, utf8Char, if_pos h]

/-- No hint of the history has a `\r`. -/
def NoReturns (E : Env) (hist : List Event) : Prop :=
  ∀ i c v j S mode text, .call i c v ∈ hist → .new j S mode ∈ hist → generate { E with S := S } c v true = .ok text → '\r' ∉ text

/-- The names that are given to calls are class names. -/
def NamesOk (E : Env) (hist : List Event) : Prop := ∀ i c v, .call i c v ∈ hist → nameOk E.U c = true

/-- **C99** (partial), where the locale is UTF-8, with any line ends: only `\r` is missing. -/
theorem utf8_free_partial (crlf : Bool) (E : Env) : LocaleFree (utf8Locale crlf) E (fun hist => NoReturns E hist ∧ NamesOk E hist) := by
  intro hist ⟨h, hn⟩
  refine locale_free_partial (utf8_based crlf) E hist ?_
  intro i c v hc
  refine ⟨fun x hx => ⟨?_, rfl⟩, fun j S mode text hj ht x hx => ⟨?_, rfl⟩⟩
  · rintro rfl
    rcases (className_of_nameOk (hn i c v hc)).2 _ hx with h | h
    · simp only [Uni.isAlnum, E.U.alpha_ascii '\r' (by decide), E.U.numeric_ascii '\r' (by decide)] at h
      revert h; decide
    · revert h; decide
  · rintro rfl
    exact h i c v j S mode text hc hj ht hx

/-- **C99** (partial), for hints in ASCII and every locale that extends it. -/
theorem ascii_free_partial {l : Locale} (ha : Locale.AsciiBased l) (E : Env) :
    LocaleFree l E (fun hist => NoReturns E hist ∧ NamesOk E hist ∧ ∀ i c v, .call i c v ∈ hist → (∀ x ∈ c, x.toNat < 128) ∧
      ∀ j S mode text, .new j S mode ∈ hist → generate { E with S := S } c v true = .ok text → ∀ x ∈ text, x.toNat < 128) := by
  intro hist ⟨h, hn, h7⟩
  refine locale_free_partial ha E hist ?_
  intro i c v hc
  refine ⟨fun x hx => safe_ascii ha ((h7 i c v hc).1 x hx) ?_, fun j S mode text hj ht x hx => safe_ascii ha ((h7 i c v hc).2 j S mode text hj ht x hx) ?_⟩
  · rintro rfl
    rcases (className_of_nameOk (hn i c v hc)).2 _ hx with h | h
    · simp only [Uni.isAlnum, E.U.alpha_ascii '\r' (by decide), E.U.numeric_ascii '\r' (by decide)] at h
      revert h; decide
    · revert h; decide
  · rintro rfl
    exact h i c v j S mode text hc hj ht hx

/-! ### Histories for which the claim is false -/

theorem latin1_based : Locale.AsciiBased latin1 := by
  intro c h
  simp only [latin1]
  rw [if_pos (by omega)]

def isRaised : Outcome → Option TextErr
  | .raised e => some e
  | _ => none

/-- `{"é": 1}`, generated and generated again with validation. -/
def accents : List Event :=
  [.new 0 {} .validate, .call 0 py!"X" (dictOf [(py!"é", .inst .int none)]), .call 0 py!"X" (dictOf [(py!"é", .inst .int none)])]

theorem accents_names : NamesOk (exEnv {}) accents := by
  intro i c v hc
  simp only [accents, List.mem_cons, List.not_mem_nil, or_false, reduceCtorEq, false_or, Event.call.injEq] at hc
  rcases hc with ⟨_, rfl, _⟩ | ⟨_, rfl, _⟩ <;> decide +kernel

theorem accents_returns : NoReturns (exEnv {}) accents := by
  intro i c v j S mode text hc hj ht
  simp only [accents, List.mem_cons, List.not_mem_nil, or_false, reduceCtorEq, false_or, Event.call.injEq, Event.new.injEq] at hc hj
  obtain ⟨_, rfl, _⟩ := hj
  have hc : c = py!"X" ∧ v = dictOf [(py!"é", .inst .int none)] := by rcases hc with ⟨_, rfl, rfl⟩ | ⟨_, rfl, rfl⟩ <;> exact ⟨rfl, rfl⟩
  rw [hc.1, hc.2] at ht
  have key : (match generate { exEnv {} with S := {} } py!"X" (dictOf [(py!"é", .inst .int none)]) true with
    | .ok t => decide ('\r' ∉ t)
    | .error _ => true) = true := by decide +kernel
  rw [ht] at key
  exact of_decide_eq_true key

/-- **C99** is false as stated where the locale is Latin-1 (as on Windows in western Europe): hints with accents cannot be read again. -/
theorem locale_free_fails : ¬ LocaleFree latin1 (exEnv {}) (fun hist => NoReturns (exEnv {}) hist ∧ NamesOk (exEnv {}) hist) := by
  intro h
  have h1 := (h accents ⟨accents_returns, accents_names⟩).1
  have h2 : (ByteWorld.empty.run latin1 (exEnv {}) accents).1.map isRaised = [none, none, some .decode] := by decide +kernel
  have h3 : (seenAll (exEnv {}) World.empty accents).map isRaised = [none, none, none] := by decide +kernel
  rw [h1, h3] at h2
  cases h2

/-- `{"a\rb": 1}`, generated and generated again with validation. -/
def returns : List Event :=
  [.new 0 {} .validate, .call 0 py!"X" (dictOf [(py!"a\rb", .inst .int none)]), .call 0 py!"X" (dictOf [(py!"a\rb", .inst .int none)])]

/-- **C99** is false as stated for hints with `\r`, in UTF-8 as well: the same data does not pass the validation. -/
theorem carriage_return_fails : ¬ LocaleFree (utf8Locale false) (exEnv {}) (NamesOk (exEnv {})) := by
  intro h
  have hn : NamesOk (exEnv {}) returns := by
    intro i c v hc
    simp only [returns, List.mem_cons, List.not_mem_nil, or_false, reduceCtorEq, false_or, Event.call.injEq] at hc
    rcases hc with ⟨_, rfl, _⟩ | ⟨_, rfl, _⟩ <;> decide +kernel
  have h1 := (h returns hn).1
  have h2 : (ByteWorld.empty.run (utf8Locale false) (exEnv {}) returns).1.map isRaised = [none, none, some (.live .validation)] := by decide +kernel
  have h3 : (seenAll (exEnv {}) World.empty returns).map isRaised = [none, none, none] := by decide +kernel
  rw [h1, h3] at h2
  cases h2

/-- The ASCII table and `é`. -/
def accentUni : Uni := { asciiUni with
  isAlpha := fun c => asciiUni.isAlpha c || c == 'é'
  alpha_ascii := by
    intro c h
    have : (c == 'é') = false := by
      by_cases hc : c = 'é'
      · subst hc; simp [isAscii] at h
      · simpa using hc
    simp [asciiUni.alpha_ascii c h, this]
  space_alnum := by
    intro c h
    have h1 := asciiUni.space_alnum c h
    have : (c == 'é') = false := by
      by_cases hc : c = 'é'
      · subst hc; revert h; decide
      · simpa using hc
    simp [h1, this] }

/-- A class `Café` in Latin-1, and everything afterwards: no generator can be created any more, until `reset`. -/
def afterCafe : List Event :=
  [.new 0 {} .overwrite, .call 0 py!"Café" (.inst .int none), .new 1 {} .overwrite, .call 1 py!"A" (.inst .int none), .new 2 {} .validate,
    .reset, .new 3 {} .overwrite, .call 3 py!"A" (.inst .int none)]

/-- A class name with an accent makes the constructor fail. -/
theorem class_name_blocks :
    (ByteWorld.empty.run latin1 { exEnv {} with U := accentUni } afterCafe).1.map isRaised =
      [none, none, some .decode, none, some .decode, none, none, none] ∧
    (seenAll { exEnv {} with U := accentUni } World.empty afterCafe).map isRaised = [none, none, none, none, none, none, none, none] := by
  decide +kernel

/-- A character that the locale does not have: the call fails and leaves an empty file behind, also of a class that was registered. -/
theorem unencodable_erases :
    (ByteWorld.empty.run latin1 (exEnv {})
      [.new 0 {} .overwrite, .call 0 py!"X" (.inst .int none), .call 0 py!"X" (dictOf [(py!"→", .inst .int none)])]).1.map isRaised =
      [none, none, some .encode] ∧
    (ByteWorld.empty.run latin1 (exEnv {})
      [.new 0 {} .overwrite, .call 0 py!"X" (.inst .int none), .call 0 py!"X" (dictOf [(py!"→", .inst .int none)])]).2.files py!"X" = some [] := by
  decide +kernel

/-! ### Histories that meet the hypotheses -/

/-- The history of `accents` in UTF-8, with the line ends of Windows. -/
example : (ByteWorld.empty.run (utf8Locale true) (exEnv {}) accents).1 = seenAll (exEnv {}) World.empty accents ∧
    (seenAll (exEnv {}) World.empty accents).map isRaised = [none, none, none] :=
  ⟨(utf8_free_partial true (exEnv {}) accents ⟨accents_returns, accents_names⟩).1, by decide +kernel⟩

/-- `{"a": 1}` and a validation that fails. -/
def plainCalls : List Event :=
  [.new 0 {} .validate, .call 0 py!"X" (dictOf [(py!"a", .inst .int none)]), .call 0 py!"X" (dictOf [(py!"b", .inst .int none)])]

theorem plainCalls_safe : SafeTexts latin1 (exEnv {}) plainCalls := by
  intro i c v hc
  simp only [plainCalls, List.mem_cons, List.not_mem_nil, or_false, reduceCtorEq, false_or, Event.call.injEq] at hc
  have key : ∀ w, w = dictOf [(py!"a", .inst .int none)] ∨ w = dictOf [(py!"b", .inst .int none)] →
      (match generate { exEnv {} with S := {} } py!"X" w true with
      | .ok t => plainB t
      | .error _ => true) = true := by
    rintro w (rfl | rfl) <;> decide +kernel
  have hc : c = py!"X" ∧ (v = dictOf [(py!"a", .inst .int none)] ∨ v = dictOf [(py!"b", .inst .int none)]) := by
    rcases hc with ⟨_, rfl, rfl⟩ | ⟨_, rfl, rfl⟩ <;> simp
  rw [hc.1]
  refine ⟨safe_plain latin1_based (by decide +kernel), fun j S mode text hj ht => ?_⟩
  simp only [plainCalls, List.mem_cons, List.not_mem_nil, or_false, reduceCtorEq, Event.new.injEq] at hj
  obtain ⟨_, rfl, _⟩ := hj
  have := key v hc.2
  rw [ht] at this
  exact safe_plain latin1_based this

example : (ByteWorld.empty.run latin1 (exEnv {}) plainCalls).1 = seenAll (exEnv {}) World.empty plainCalls ∧
    (seenAll (exEnv {}) World.empty plainCalls).map isRaised = [none, none, some (.live .validation)] :=
  ⟨(locale_free_partial latin1_based (exEnv {}) plainCalls plainCalls_safe).1, by decide +kernel⟩

end Verif.Props
