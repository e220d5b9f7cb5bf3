import Verif.Spec.Encoded
import Verif.Lemmas.Crash
/-
C99: the files of the live generator as bytes.
-/
namespace Verif
open Verif.Spec

/-! ### Texts -/

theorem utf8First_char (c : Char) (r : Bytes) : utf8First (utf8Char c ++ r) = some (c, r) := by
  have hv : c.toNat < 0xD800 ∨ (0xDFFF < c.toNat ∧ c.toNat < 0x110000) := c.valid
  have hc : Char.ofNat c.toNat = c := Char.ofNat_toNat c
  generalize hn : c.toNat = n at *
  unfold utf8Char
  simp only [hn]
  split
  · simp only [List.cons_append, List.nil_append, utf8First]
    rw [if_pos (by assumption), hc]
  split
  · simp only [List.cons_append, List.nil_append, utf8First]
    rw [if_neg (by omega), if_neg (by omega), if_pos (by omega), if_pos (by simp only [isCont, Bool.and_eq_true, decide_eq_true_eq]; omega)]
    rw [show (0xC0 + n / 64 - 0xC0) * 64 + (0x80 + n % 64 - 0x80) = n by omega, hc]
  split
  · simp only [List.cons_append, List.nil_append, utf8First]
    have e : (0xE0 + n / 4096 - 0xE0) * 4096 + (0x80 + n / 64 % 64 - 0x80) * 64 + (0x80 + n % 64 - 0x80) = n := by omega
    rw [if_neg (by omega), if_neg (by omega), if_neg (by omega), if_pos (by omega), e,
      if_pos (by simp only [isCont, Bool.and_eq_true, Bool.or_eq_true, decide_eq_true_eq]; omega), hc]
  · simp only [List.cons_append, List.nil_append, utf8First]
    have e : (0xF0 + n / 262144 - 0xF0) * 262144 + (0x80 + n / 4096 % 64 - 0x80) * 4096 + (0x80 + n / 64 % 64 - 0x80) * 64 + (0x80 + n % 64 - 0x80) = n := by
      omega
    rw [if_neg (by omega), if_neg (by omega), if_neg (by omega), if_neg (by omega), if_pos (by omega), e,
      if_pos (by simp only [isCont, Bool.and_eq_true, decide_eq_true_eq]; omega), hc]

theorem utf8Char_pos (c : Char) : 1 ≤ (utf8Char c).length := by
  unfold utf8Char
  dsimp only
  split
  · simp
  split
  · simp
  split <;> simp

theorem utf8Decode_encode : ∀ (s : Str) (n : Nat), (s.flatMap utf8Char).length ≤ n → utf8Decode n (s.flatMap utf8Char) = some s
  | [], n, _ => by cases n <;> rfl
  | c :: r, n, h => by
    have hp := utf8Char_pos c
    simp only [List.flatMap_cons, List.length_append] at h
    cases n with
    | zero => omega
    | succ n =>
      have hne : utf8Char c ++ r.flatMap utf8Char ≠ [] := by
        intro e
        have := congrArg List.length e
        simp only [List.length_append, List.length_nil] at this
        omega
      rw [List.flatMap_cons]
      have key : utf8Decode (n + 1) (utf8Char c ++ r.flatMap utf8Char) =
          match utf8First (utf8Char c ++ r.flatMap utf8Char) with
          | some (c, r) => (utf8Decode n r).map (c :: ·)
          | none => none := by
        cases hh : utf8Char c ++ r.flatMap utf8Char with
        | nil => exact absurd hh hne
        | cons a b => rfl
      rw [key, utf8First_char]
      simp only [utf8Decode_encode r n (by omega), Option.map_some]

/-- The line ends of the platform. -/
def lineEnds (crlf : Bool) (s : Str) : Str := s.flatMap (fun c => if c = '\n' && crlf then py!"\r\n" else [c])

theorem universal_lineEnds {crlf : Bool} : ∀ {s : Str}, '\r' ∉ s → universalNewlines (lineEnds crlf s) = s
  | [], _ => rfl
  | c :: r, h => by
    have hc : c ≠ '\r' := by rintro rfl; exact h (by simp)
    have ih := universal_lineEnds (crlf := crlf) (s := r) (fun hm => h (by simp [hm]))
    unfold lineEnds at *
    rw [List.flatMap_cons]
    split
    · rename_i hcr
      simp only [Bool.and_eq_true, decide_eq_true_eq] at hcr
      rw [hcr.1]
      show universalNewlines ('\r' :: '\n' :: _) = _
      rw [universalNewlines]
      exact congrArg _ ih
    · simp only [List.cons_append, List.nil_append]
      rw [universalNewlines.eq_3, if_neg hc, ih]
      intro _ e
      exact absurd e hc

theorem encodeAll_utf8 {enc : Char → Option Bytes} : ∀ {s : Str}, (∀ c ∈ s, enc c = some (utf8Char c)) → encodeAll enc s = some (s.flatMap utf8Char)
  | [], _ => rfl
  | c :: r, h => by
    rw [encodeAll, h c (by simp), encodeAll_utf8 (fun x hx => h x (by simp [hx]))]
    rfl

/-- A text of safe characters is read back as written. -/
theorem write_reads {l : Locale} (ha : Locale.AsciiBased l) {t : Str} (h : ∀ x ∈ t, Locale.Safe l x) :
    ∃ b, l.write t = some b ∧ readUtf8 b = some t := by
  have h1 : ∀ c ∈ lineEnds l.crlf t, l.enc c = some (utf8Char c) := by
    intro c hc
    obtain ⟨x, hx, hc⟩ := List.mem_flatMap.mp hc
    split at hc
    · have : c = '\r' ∨ c = '\n' := by simpa using hc
      rcases this with rfl | rfl
      · exact ha _ (by decide)
      · exact ha _ (by decide)
    · rw [List.mem_singleton.mp hc]
      exact (h x hx).2
  refine ⟨(lineEnds l.crlf t).flatMap utf8Char, encodeAll_utf8 h1, ?_⟩
  unfold readUtf8
  rw [utf8Decode_encode _ _ (Nat.le_refl _), Option.map_some, universal_lineEnds]
  intro hm
  exact (h _ hm).1 rfl

theorem safe_ascii {l : Locale} (ha : Locale.AsciiBased l) {c : Char} (h : c.toNat < 128) (hr : c ≠ '\r') : Locale.Safe l c :=
  ⟨hr, by rw [ha c h, utf8Char, if_pos h]⟩

/-! ### Stubs -/

/-- All characters of a text are safe. -/
def SafeStr (l : Locale) (s : Str) : Prop := ∀ x ∈ s, Locale.Safe l x

theorem safeStr_append {l : Locale} {a b : Str} (ha : SafeStr l a) (hb : SafeStr l b) : SafeStr l (a ++ b) := by
  intro x hx
  rcases List.mem_append.mp hx with h | h
  · exact ha x h
  · exact hb x h

def plainB (s : Str) : Bool := s.all (fun c => decide (c.toNat < 128) && c != '\r')

theorem safe_plain {l : Locale} (ha : Locale.AsciiBased l) {s : Str} (h : plainB s = true) : SafeStr l s := by
  intro x hx
  have := List.all_eq_true.mp h x hx
  simp only [Bool.and_eq_true, decide_eq_true_eq, bne_iff_ne] at this
  exact safe_ascii ha this.1 this.2

theorem safe_plains {l : Locale} (ha : Locale.AsciiBased l) {L : List Str} (h : L.all plainB = true) : ∀ s ∈ L, SafeStr l s :=
  fun s hs => safe_plain ha (List.all_eq_true.mp h s hs)

theorem safeStr_join {l : Locale} {sep : Str} (hs : SafeStr l sep) : ∀ {L : List Str}, (∀ s ∈ L, SafeStr l s) → SafeStr l (join sep L)
  | [], _ => by intro x hx; cases hx
  | [a], h => by simpa [join] using h a (by simp)
  | a :: b :: r, h => by
    simp only [join]
    exact safeStr_append (safeStr_append (h a (by simp)) hs) (safeStr_join hs (fun s hs => h s (by simp [hs])))

theorem safe_elems {l : Locale} (ha : Locale.AsciiBased l) {U : Uni} {m : Method} (h1 : SafeStr l m.pre) (h2 : SafeStr l m.post) {Y ys : List Str}
    (h : Elems U m Y ys) (hy : ∀ c ∈ ys, SafeStr l c) : ∀ s ∈ Y, SafeStr l s := by
  have deco : ∀ {d : Str}, d = overloadLine ∨ d = overrideLine → SafeStr l d := by
    intro d hd
    rcases hd with rfl | rfl <;> exact safe_plain ha (by decide +kernel)
  induction h with
  | nil => intro s hs; cases hs
  | deco hd _ ih =>
    intro s hs
    rcases List.mem_cons.mp hs with rfl | hs
    · exact deco hd
    · exact ih hy s hs
  | @over ds c S cs hds hc _ ih =>
    intro s hs
    have hcs := hy c (by simp)
    rcases List.mem_cons.mp hs with rfl | hs
    · refine safeStr_join (safe_plain ha (by decide +kernel)) ?_
      intro s hs
      rcases List.mem_append.mp hs with hs | hs
      · exact deco (hds s hs)
      · rw [List.mem_singleton.mp hs]
        unfold Method.overload Method.line
        exact safeStr_append (safeStr_append (safeStr_append (safeStr_append h1 (safeStr_append (safeStr_append
          (safe_plain ha (by decide +kernel)) hcs) (safe_plain ha (by decide +kernel)))) h2) hcs) (safe_plain ha (by decide +kernel))
    · exact ih (fun c hc => hy c (by simp [hc])) s hs

theorem safe_registry {l : Locale} (ha : Locale.AsciiBased l) {cs : List Str} (h : ∀ c ∈ cs, SafeStr l c) : SafeStr l (registryLine cs) := by
  unfold registryLine
  refine safeStr_append (safeStr_append (safe_plain ha (by decide +kernel)) ?_) ?_
  · split
    · exact safe_plain ha (by decide +kernel)
    · intro x hx; cases hx
  · unfold registryValue
    split
    · exact safe_plain ha (by decide +kernel)
    · refine safeStr_append (safeStr_append (safe_plain ha (by decide +kernel)) (safeStr_join (safe_plain ha (by decide +kernel)) ?_))
        (safe_plain ha (by decide +kernel))
      intro s hs
      obtain ⟨c, hc, rfl⟩ := List.mem_map.mp hs
      exact safeStr_append (safeStr_append (safe_plain ha (by decide +kernel)) (h c hc)) (safe_plain ha (by decide +kernel))

/-- The text of a stub with safe class names is safe. -/
theorem safe_stub {l : Locale} (ha : Locale.AsciiBased l) {U : Uni} {cs is ys ds L : List Str} (h : IsStub U cs is ys ds L)
    (h1 : ∀ c ∈ cs, SafeStr l c) (h2 : ∀ c ∈ is, SafeStr l c) (h3 : ∀ c ∈ ys, SafeStr l c) (h4 : ∀ c ∈ ds, SafeStr l c) :
    SafeStr l (join py!"\n" L) := by
  obtain ⟨_, _, Y, D, tail, hY, hD, ht, rfl⟩ := h
  refine safeStr_join (safe_plain ha (by decide +kernel)) ?_
  have app : ∀ {A B : List Str}, (∀ s ∈ A, SafeStr l s) → (∀ s ∈ B, SafeStr l s) → ∀ s ∈ A ++ B, SafeStr l s := by
    intro A B hA hB s hs
    rcases List.mem_append.mp hs with h | h
    · exact hA s h
    · exact hB s h
  refine app (app (app (app (app (app (app (app ?_ (safe_plains ha (by decide +kernel))) ?_) (safe_plains ha (by decide +kernel)))
    (app (safe_elems ha (safe_plain ha (by decide +kernel)) (safe_plain ha (by decide +kernel)) hY h3) (safe_plains ha (by decide +kernel))))
    (safe_plains ha (by decide +kernel)))
    (app (safe_elems ha (safe_plain ha (by decide +kernel)) (safe_plain ha (by decide +kernel)) hD h4) (safe_plains ha (by decide +kernel))))
    (safe_plains ha (by decide +kernel))) ?_
  · intro s hs
    obtain ⟨c, hc, rfl⟩ := List.mem_map.mp hs
    exact safeStr_append (safeStr_append (safeStr_append (safe_plain ha (by decide +kernel)) (h2 c hc)) (safe_plain ha (by decide +kernel))) (h2 c hc)
  · intro s hs
    rw [List.mem_singleton.mp hs]
    exact safe_registry ha h1
  · rcases ht with rfl | rfl <;> exact safe_plains ha (by decide +kernel)

/-! ### Calls -/

theorem present_classes {lines : List Str} {bd : ByteDisk} {d : Disk} (h : ∀ c, Reads (bd.files c) (d.files c)) :
    classesAdded lines bd.present = classesAdded lines d := by
  have : ∀ c, (bd.present.files c).isNone = (d.files c).isNone := by
    intro c
    have := h c
    simp only [ByteDisk.present]
    cases h1 : bd.files c <;> cases h2 : d.files c <;> rw [h1, h2] at this <;> simp_all [Reads]
  unfold classesAdded
  simp only [this]

theorem reads_writeClass {bd : ByteDisk} {d : Disk} {b : Bytes} {t c : Str} (h : ∀ x, Reads (bd.files x) (d.files x)) (hb : readUtf8 b = some t) (x : Str) :
    Reads ((bd.writeClass c b).files x) ((d.writeClass c t).files x) := by
  simp only [ByteDisk.writeClass, Disk.writeClass]
  split
  · exact hb
  · exact h x

theorem runEditsBytes_ok {l : Locale} {e : Edit} {es : List Edit} {L L' : List Str} {d : ByteDisk} {b : Bytes} (h : e L = (L', none))
    (hw : l.write (join py!"\n" L') = some b) : runEditsBytes l (e :: es) L d = runEditsBytes l es L' (d.writePyi b) := by
  simp only [runEditsBytes, h, hw]

/-- The same class is added to the stub, and what is written can be read. -/
theorem newClass_bytes {l : Locale} (ha : Locale.AsciiBased l) {U : Uni} {cs L : List Str} (h : Complete U cs L) (hs : ∀ c ∈ cs, SafeStr l c) {c : Str}
    (hc : ClassName U c) (hcs : SafeStr l c) (d : Disk) (bd : ByteDisk) :
    ∃ L' states b, Complete U (cs ++ [c]) L' ∧ runEdits (newClassEdits c) L d = (L', d.writePyi (join py!"\n" L'), states, none) ∧
      runEditsBytes l (newClassEdits c) L bd = (L', bd.writePyi b, none) ∧ readUtf8 b = some (join py!"\n" L') := by
  obtain ⟨L', states, k1, k2, _⟩ := newClass_stub h hc d
  obtain ⟨is, ys, ds, p1, p2, p3, h⟩ := h
  obtain ⟨L1, e1, h1⟩ := addRegistry_stub h hc
  obtain ⟨L2, e2, h2⟩ := addClassImport_stub h1 hc
  obtain ⟨L3, ds1, ds2, hds, e3, h3⟩ := addOverload_data h2 hc
  obtain ⟨L4, ys1, ys2, hys, e4, h4⟩ := addOverload_yaml h3 hc
  subst hds hys
  have s0 : ∀ x ∈ cs ++ [c], SafeStr l x := by
    intro x hx
    rcases List.mem_append.mp hx with hx | hx
    · exact hs x hx
    · rw [List.mem_singleton.mp hx]; exact hcs
  have si : ∀ x ∈ is, SafeStr l x := fun x hx => hs x (p1.subset hx)
  have sy : ∀ x ∈ ys1 ++ ys2, SafeStr l x := fun x hx => hs x (p2.subset hx)
  have sd : ∀ x ∈ ds1 ++ ds2, SafeStr l x := fun x hx => hs x (p3.subset hx)
  have cons : ∀ {A B : List Str}, (∀ x ∈ A ++ B, SafeStr l x) → ∀ x ∈ A ++ c :: B, SafeStr l x := by
    intro A B hAB x hx
    rcases List.mem_append.mp hx with hx | hx
    · exact hAB x (by simp [hx])
    · rcases List.mem_cons.mp hx with rfl | hx
      · exact hcs
      · exact hAB x (by simp [hx])
  obtain ⟨b1, w1, _⟩ := write_reads ha (safe_stub ha h1 s0 si sy sd)
  obtain ⟨b2, w2, _⟩ := write_reads ha (safe_stub ha h2 s0 (cons (A := []) si) sy sd)
  obtain ⟨b3, w3, _⟩ := write_reads ha (safe_stub ha h3 s0 (cons (A := []) si) sy (cons sd))
  obtain ⟨b4, w4, r4⟩ := write_reads ha (safe_stub ha h4 s0 (cons (A := []) si) (cons sy) (cons sd))
  have e : L' = L4 := by
    rw [newClassEdits, runEdits_ok e1, runEdits_ok e2, runEdits_ok e3, runEdits_ok e4] at k2
    have := congrArg Prod.fst k2
    exact this.symm
  subst e
  refine ⟨L', states, b4, k1, k2, ?_, r4⟩
  rw [newClassEdits, runEditsBytes_ok e1 w1, runEditsBytes_ok e2 w2, runEditsBytes_ok e3 w3, runEditsBytes_ok e4 w4]
  rfl

/-- The generator knows only classes with safe names. -/
def SafeLines (l : Locale) (U : Uni) (lines : List Str) : Prop := ∃ cs, Complete U cs lines ∧ ∀ c ∈ cs, SafeStr l c

/-- The same result as a value. -/
def sameResult : Except TextErr Val → Except LiveErr Val → Prop
  | .ok v, .ok w => v = w
  | .error e, .error e' => e = .live e'
  | _, _ => False

theorem call_bytes {l : Locale} (ha : Locale.AsciiBased l) {E : Env} {g : Live} {d : Disk} {bd : ByteDisk} {c : Str} {v : Val}
    (hg : SafeLines l E.U g.lines) (hcs : SafeStr l c) (ht : ∀ text, generate { E with S := g.S } c v true = .ok text → SafeStr l text)
    (hp : Reads bd.pyi d.pyi) (hf : ∀ x, Reads (bd.files x) (d.files x)) (hst : ∀ text, d.pyi = some text → SafeLines l E.U (splitlines text)) :
    (g.fromDataBytes l E bd c v).live = (g.fromData E d c v).live ∧
    sameResult (g.fromDataBytes l E bd c v).result (g.fromData E d c v).result ∧
    Reads (g.fromDataBytes l E bd c v).disk.pyi (g.fromData E d c v).disk.pyi ∧
    (∀ x, Reads ((g.fromDataBytes l E bd c v).disk.files x) ((g.fromData E d c v).disk.files x)) ∧
    SafeLines l E.U (g.fromData E d c v).live.lines ∧ (g.fromData E d c v).live.S = g.S ∧
    ∀ text, (g.fromData E d c v).disk.pyi = some text → SafeLines l E.U (splitlines text) := by
  unfold Live.fromDataBytes Live.fromData
  by_cases hn : nameOk E.U c = true
  · simp only [hn, if_true, present_classes hf]
    cases hca : classesAdded g.lines d with
    | error e => exact ⟨rfl, rfl, hp, hf, hg, rfl, hst⟩
    | ok names =>
      simp only
      cases hgen : generate { E with S := g.S } c v true with
      | error e => exact ⟨rfl, rfl, hp, hf, hg, rfl, hst⟩
      | ok text =>
        simp only
        have hcmp : compareBytes (names.contains c && g.mode == .validate) text ((bd.files c).getD []) =
            if (names.contains c && g.mode == .validate && removeDocstrings text != removeDocstrings ((d.files c).getD [])) = true then
              some (.live .validation) else none := by
          have : readUtf8 ((bd.files c).getD []) = some ((d.files c).getD []) := by
            have := hf c
            cases h1 : bd.files c <;> cases h2 : d.files c <;> rw [h1, h2] at this
            · rfl
            · cases this
            · cases this
            · exact this
          rw [compareBytes, this]
          cases names.contains c && g.mode == .validate <;> simp
        rw [hcmp]
        by_cases hv : (names.contains c && g.mode == .validate && removeDocstrings text != removeDocstrings ((d.files c).getD [])) = true
        · simp only [if_pos hv]
          exact ⟨trivial, rfl, hp, hf, hg, trivial, hst⟩
        · simp only [if_neg hv]
          obtain ⟨b, hw, hr⟩ := write_reads ha (ht text hgen)
          simp only [hw]
          have hf' : ∀ x, Reads (({ bd with build := true } : ByteDisk).writeClass c b |>.files x) (({ d with build := true } : Disk).writeClass c text |>.files x) :=
            reads_writeClass hf hr
          rw [present_classes hf']
          cases hca' : classesAdded g.lines (({ d with build := true } : Disk).writeClass c text) with
          | error e => exact ⟨rfl, rfl, hp, hf', hg, rfl, hst⟩
          | ok names' =>
            simp only
            by_cases hm : names'.contains c = true
            · simp only [if_pos hm]
              exact ⟨trivial, rfl, hp, hf', hg, trivial, hst⟩
            · simp only [if_neg hm]
              obtain ⟨cs, hcomp, hsafe⟩ := hg
              obtain ⟨L', states, b', k1, k2, k3, k4⟩ := newClass_bytes ha hcomp hsafe (className_of_nameOk hn) hcs
                (({ d with build := true } : Disk).writeClass c text) (({ bd with build := true } : ByteDisk).writeClass c b)
              rw [k2, k3]
              have s0 : ∀ x ∈ cs ++ [c], SafeStr l x := by
                intro x hx
                rcases List.mem_append.mp hx with hx | hx
                · exact hsafe x hx
                · rw [List.mem_singleton.mp hx]; exact hcs
              refine ⟨rfl, rfl, k4, hf', ⟨_, k1, s0⟩, trivial, ?_⟩
              intro t e
              cases e
              exact ⟨_, complete_reload k1, s0⟩
  · simp only [hn]
    exact ⟨rfl, rfl, hp, hf, hg, rfl, hst⟩

/-! ### Histories -/

/-- The two worlds agree, and nothing in them is unsafe. -/
structure SameWorld (l : Locale) (E : Env) (known : Strategies → Prop) (bw : ByteWorld) (w : World) : Prop where
  gens : bw.gens = w.gens
  lines : ∀ i g, w.gens i = some g → SafeLines l E.U g.lines ∧ known g.S
  pyi : Reads bw.disk.pyi w.disk.pyi
  files : ∀ c, Reads (bw.disk.files c) (w.disk.files c)
  stub : ∀ text, w.disk.pyi = some text → SafeLines l E.U (splitlines text)

/-- An event with safe texts. -/
def SafeEvent (l : Locale) (E : Env) (known : Strategies → Prop) : Event → Prop
  | .new _ S _ => known S
  | .call _ c v => SafeStr l c ∧ ∀ S text, known S → generate { E with S := S } c v true = .ok text → SafeStr l text
  | .reset => True

theorem newLive_bytes {l : Locale} {E : Env} {S : Strategies} {mode : Mode} {bd : ByteDisk} {d : Disk} (hp : Reads bd.pyi d.pyi)
    (hst : ∀ text, d.pyi = some text → SafeLines l E.U (splitlines text)) :
    ∃ g, newLiveBytes S mode bd = .ok g ∧ newLive S mode d = .ok g ∧ SafeLines l E.U g.lines ∧ g.S = S := by
  cases h1 : bd.pyi <;> cases h2 : d.pyi <;> rw [h1, h2] at hp
  · obtain ⟨L, e, hc⟩ := generateStub_complete E.U
    exact ⟨⟨S, mode, L⟩, by simp only [newLiveBytes, h1, e], by simp only [newLive, h2, e, Except.map], ⟨[], hc, fun _ h => by cases h⟩, rfl⟩
  · cases hp
  · cases hp
  · rename_i b t
    have hp : readUtf8 b = some t := hp
    exact ⟨⟨S, mode, splitlines t⟩, by simp only [newLiveBytes, h1, hp], by simp only [newLive, h2], hst t h2, rfl⟩

theorem step_bytes {l : Locale} (ha : Locale.AsciiBased l) {E : Env} {known : Strategies → Prop} {bw : ByteWorld} {w : World}
    (h : SameWorld l E known bw w) {e : Event} (he : SafeEvent l E known e) :
    bw.outcome l E e = seenCall E w e ∧ SameWorld l E known (bw.step l E e) (w.step E e) := by
  cases e with
  | new i S mode =>
    obtain ⟨g, h1, h2, h3, h4⟩ := newLive_bytes (S := S) (mode := mode) h.pyi h.stub
    refine ⟨by simp only [ByteWorld.outcome, seenCall, h1, h2], ?_⟩
    simp only [ByteWorld.step, World.step, h1, h2]
    refine ⟨by rw [h.gens], ?_, h.pyi, h.files, h.stub⟩
    intro j g' hg
    simp only at hg
    split at hg
    · cases hg
      exact ⟨h3, h4 ▸ he⟩
    · exact h.lines j g' hg
  | call i c v =>
    cases hg : w.gens i with
    | none =>
      have hg' : bw.gens i = none := by rw [h.gens]; exact hg
      refine ⟨by simp only [ByteWorld.outcome, seenCall, hg, hg'], ?_⟩
      simp only [ByteWorld.step, World.step, hg, hg']
      exact h
    | some g =>
      have hg' : bw.gens i = some g := by rw [h.gens]; exact hg
      obtain ⟨k1, k2⟩ := h.lines i g hg
      obtain ⟨r1, r2, r3, r4, r5, r6, r7⟩ := call_bytes ha (v := v) k1 he.1 (fun text ht => he.2 _ text k2 ht) h.pyi h.files h.stub
      constructor
      · simp only [ByteWorld.outcome, seenCall, hg, hg']
        cases h1 : (g.fromDataBytes l E bw.disk c v).result <;> cases h2 : (g.fromData E w.disk c v).result <;> rw [h1, h2] at r2
        · rw [show _ = _ from r2]
        · cases r2
        · cases r2
        · rw [show _ = _ from r2]
      · simp only [ByteWorld.step, World.step, hg, hg']
        refine ⟨by rw [h.gens, r1], ?_, r3, r4, r7⟩
        intro j g' hj
        simp only at hj
        split at hj
        · cases hj
          exact ⟨r5, r6 ▸ k2⟩
        · exact h.lines j g' hj
  | reset => exact ⟨rfl, h.gens, h.lines, trivial, fun _ => trivial, fun _ e => by cases e⟩

theorem run_bytes {l : Locale} (ha : Locale.AsciiBased l) {E : Env} {known : Strategies → Prop} : ∀ (hist : List Event) {bw : ByteWorld} {w : World},
    SameWorld l E known bw w → (∀ e ∈ hist, SafeEvent l E known e) →
    (bw.run l E hist).1 = seenAll E w hist ∧ Reads (bw.run l E hist).2.pyi (w.run E hist).disk.pyi ∧
      ∀ c, Reads ((bw.run l E hist).2.files c) ((w.run E hist).disk.files c)
  | [], _, _, h, _ => ⟨rfl, h.pyi, h.files⟩
  | e :: es, bw, w, h, he => by
    obtain ⟨h1, h2⟩ := step_bytes ha h (he e (by simp))
    obtain ⟨k1, k2, k3⟩ := run_bytes ha es h2 (fun x hx => he x (by simp [hx]))
    exact ⟨by simp only [ByteWorld.run, seenAll, h1, k1], k2, k3⟩

theorem empty_bytes (l : Locale) (E : Env) (known : Strategies → Prop) : SameWorld l E known .empty .empty :=
  ⟨rfl, (fun _ _ h => by cases h), trivial, fun _ => trivial, (fun _ h => by cases h)⟩

end Verif
