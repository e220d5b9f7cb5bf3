import Verif.Lemmas.Reload
import Verif.Spec.Live
/-
Calls of live generators.
-/
namespace Verif
open Verif.Spec

theorem className_of_nameOk {U : Uni} {c : Str} (h : nameOk U c = true) : ClassName U c := by
  unfold nameOk at h
  simp only [Bool.and_eq_true, Bool.not_eq_true', List.isEmpty_eq_false_iff, List.all_eq_true, List.mem_filter, bne_iff_ne, ne_eq] at h
  obtain ⟨⟨h1, h2⟩, _⟩ := h
  constructor
  · rintro rfl; exact h1 rfl
  · intro x hx
    by_cases e : x = '_'
    · exact .inr e
    · exact .inl (h2 x ⟨hx, e⟩)

section
variable {U : Uni}

/-- A stub with the import and the overloads of every registered class. -/
def Complete (U : Uni) (cs L : List Str) : Prop := ∃ is ys ds, is.Perm cs ∧ ys.Perm cs ∧ ds.Perm cs ∧ IsStub U cs is ys ds L

theorem complete_registered {cs L : List Str} (h : Complete U cs L) : registered L = .ok cs := by
  obtain ⟨is, ys, ds, _, _, _, h⟩ := h
  exact registry_stub h

theorem complete_unique {cs cs' L : List Str} (h : Complete U cs L) (h' : Complete U cs' L) : cs = cs' := by
  have := (complete_registered h).symm.trans (complete_registered h')
  cases this; rfl

theorem complete_reload {cs L : List Str} (h : Complete U cs L) : Complete U cs (splitlines (join py!"\n" L)) := by
  obtain ⟨is, ys, ds, p1, p2, p3, h⟩ := h
  exact ⟨is, ys, ds, p1, p2, p3, reload_stub h⟩

theorem complete_names {cs L : List Str} (h : Complete U cs L) : ∀ c ∈ cs, ClassName U c := by
  obtain ⟨is, ys, ds, _, _, _, h⟩ := h
  exact h.1

theorem generateStub_complete (U : Uni) : ∃ L, generateStub = .ok L ∧ Complete U [] L := by
  obtain ⟨L, h, h'⟩ := generateStub_isStub U
  exact ⟨L, h, [], [], [], .refl _, .refl _, .refl _, h'⟩

theorem perm_insert {α} {a b cs : List α} (c : α) (h : (a ++ b).Perm cs) : (a ++ c :: b).Perm (cs ++ [c]) := by
  refine List.perm_middle.trans ?_
  refine (List.Perm.cons c h).trans ?_
  exact (List.perm_append_comm (l₁ := [c]) (l₂ := cs))

theorem runEdits_ok {e : Edit} {es : List Edit} {L L' : List Str} {d : Disk} (h : e L = (L', none)) :
    runEdits (e :: es) L d = ((runEdits es L' (d.writePyi (join py!"\n" L'))).1, (runEdits es L' (d.writePyi (join py!"\n" L'))).2.1,
      (prefixes (join py!"\n" L')).map d.writePyi ++ (runEdits es L' (d.writePyi (join py!"\n" L'))).2.2.1,
      (runEdits es L' (d.writePyi (join py!"\n" L'))).2.2.2) := by
  simp only [runEdits, h]

/-- A disk on the way: the stub being written has the new registry. -/
def Writing (U : Uni) (cs : List Str) (d s : Disk) : Prop := ∃ is ys ds L n, IsStub U cs is ys ds L ∧ s = d.writePyi ((join py!"\n" L).take n)

/-- Adding a class to a complete stub. -/
theorem newClass_stub {cs L : List Str} (h : Complete U cs L) {c : Str} (hc : ClassName U c) (d : Disk) :
    ∃ L' states, Complete U (cs ++ [c]) L' ∧ runEdits (newClassEdits c) L d = (L', d.writePyi (join py!"\n" L'), states, none) ∧
      ∀ s ∈ states, Writing U (cs ++ [c]) d s := by
  obtain ⟨is, ys, ds, p1, p2, p3, h⟩ := h
  obtain ⟨L1, e1, h1⟩ := addRegistry_stub h hc
  obtain ⟨L2, e2, h2⟩ := addClassImport_stub h1 hc
  obtain ⟨L3, ds1, ds2, hds, e3, h3⟩ := addOverload_data h2 hc
  obtain ⟨L4, ys1, ys2, hys, e4, h4⟩ := addOverload_yaml h3 hc
  subst hds hys
  refine ⟨L4, (prefixes (join py!"\n" L1)).map d.writePyi ++ ((prefixes (join py!"\n" L2)).map d.writePyi ++
      ((prefixes (join py!"\n" L3)).map d.writePyi ++ (prefixes (join py!"\n" L4)).map d.writePyi)),
    ⟨c :: is, ys1 ++ c :: ys2, ds1 ++ c :: ds2, ?_, perm_insert c p2, perm_insert c p3, h4⟩, ?_, ?_⟩
  · exact perm_insert (a := []) c p1
  · rw [newClassEdits, runEdits_ok e1, runEdits_ok e2, runEdits_ok e3, runEdits_ok e4]
    simp [runEdits, Disk.writePyi]
    rfl
  · intro s hs
    have key : ∀ {is ys ds L}, IsStub U (cs ++ [c]) is ys ds L → s ∈ (prefixes (join py!"\n" L)).map d.writePyi → Writing U (cs ++ [c]) d s := by
      intro is ys ds L hL hm
      obtain ⟨t, ht, rfl⟩ := List.mem_map.mp hm
      obtain ⟨n, _, rfl⟩ := List.mem_map.mp ht
      exact ⟨is, ys, ds, L, n, hL, rfl⟩
    rcases List.mem_append.mp hs with hs | hs
    · exact key h1 hs
    rcases List.mem_append.mp hs with hs | hs
    · exact key h2 hs
    rcases List.mem_append.mp hs with hs | hs
    · exact key h3 hs
    · exact key h4 hs

theorem mem_prefixes {s t : Str} : t ∈ prefixes s ↔ t <+: s := by
  unfold prefixes
  constructor
  · intro h
    obtain ⟨n, _, rfl⟩ := List.mem_map.mp h
    exact List.take_prefix n s
  · intro h
    refine List.mem_map.mpr ⟨t.length, ?_, ?_⟩
    · have := h.length_le
      simp; omega
    · exact (List.prefix_iff_eq_take.mp h).symm

/-! ### The outcome of a call -/

theorem classesAdded_ok {cs L : List Str} {d : Disk} (h : Complete U cs L) (hf : ∀ c ∈ cs, (d.files c).isSome) :
    classesAdded L d = .ok (dedup cs) := by
  unfold classesAdded
  rw [complete_registered h]
  have : cs.find? (fun c => (d.files c).isNone) = none := by
    rw [List.find?_eq_none]
    intro c hc
    have := hf c hc
    cases h : d.files c <;> simp_all
  simp only [this]

theorem classesAdded_files {L : List Str} {d : Disk} {names : List Str} (h : classesAdded L d = .ok names) : ∃ cs, registered L = .ok cs ∧
    names = dedup cs ∧ ∀ c ∈ cs, (d.files c).isSome := by
  unfold classesAdded at h
  split at h
  · cases h
  · rename_i cs hcs
    split at h
    · cases h
    · rename_i hf
      cases h
      refine ⟨cs, hcs, rfl, ?_⟩
      intro c hc
      rw [List.find?_eq_none] at hf
      have := hf c hc
      cases h : d.files c <;> simp_all

theorem writeClass_files {d : Disk} {c s x : Str} (h : (d.files x).isSome) : ((d.writeClass c s).files x).isSome := by
  simp only [Disk.writeClass]
  split
  · rfl
  · exact h

/-- A call of a generator with a complete stub. -/
theorem call_cases (E : Env) (g : Live) (d : Disk) (c : Str) (v : Val) {cs : List Str} (h : Complete E.U cs g.lines) :
    ((g.fromData E d c v).live = g ∧ (g.fromData E d c v).disk = d ∧ (g.fromData E d c v).states = [d] ∧ ∃ e, (g.fromData E d c v).result = .error e ∧
      ((e = .className ∧ nameOk E.U c = false) ∨
       (nameOk E.U c = true ∧ ∃ x, e = .missing x ∧ x ∈ cs ∧ d.files x = none) ∨
       (nameOk E.U c = true ∧ (∀ x ∈ cs, (d.files x).isSome) ∧ ∃ e', e = .gen e' ∧ generate { E with S := g.S } c v true = .error e') ∨
       (e = .validation ∧ nameOk E.U c = true ∧ (∀ x ∈ cs, (d.files x).isSome) ∧ c ∈ cs ∧ g.mode = .validate ∧
         ∃ text, generate { E with S := g.S } c v true = .ok text ∧ removeDocstrings text ≠ removeDocstrings ((d.files c).getD [])))) ∨
    (nameOk E.U c = true ∧ (∀ x ∈ cs, (d.files x).isSome) ∧ ∃ text, generate { E with S := g.S } c v true = .ok text ∧
      ¬ (c ∈ cs ∧ g.mode = .validate ∧ removeDocstrings text ≠ removeDocstrings ((d.files c).getD [])) ∧
      (g.fromData E d c v).result = .ok v ∧
      ((c ∈ cs ∧ (g.fromData E d c v).live = g ∧ (g.fromData E d c v).disk = { d with build := true }.writeClass c text ∧
        (g.fromData E d c v).states = d :: { d with build := true } :: (prefixes text).map ({ d with build := true }.writeClass c)) ∨
       (c ∉ cs ∧ ∃ L' states, Complete E.U (cs ++ [c]) L' ∧ (g.fromData E d c v).live = { g with lines := L' } ∧
        (g.fromData E d c v).disk = ({ d with build := true }.writeClass c text).writePyi (join py!"\n" L') ∧
        (g.fromData E d c v).states = d :: { d with build := true } :: (prefixes text).map ({ d with build := true }.writeClass c) ++ states ∧
        ∀ s ∈ states, Writing E.U (cs ++ [c]) ({ d with build := true }.writeClass c text) s))) := by
  unfold Live.fromData
  by_cases hn : nameOk E.U c = true
  · simp only [hn, if_true]
    cases hca : classesAdded g.lines d with
    | error e =>
      left
      refine ⟨rfl, rfl, rfl, e, rfl, .inr (.inl ⟨trivial, ?_⟩)⟩
      unfold classesAdded at hca
      rw [complete_registered h] at hca
      simp only at hca
      split at hca
      · rename_i x hx
        cases hca
        refine ⟨x, rfl, List.mem_of_find?_eq_some hx, ?_⟩
        have := List.find?_some hx
        simpa using this
      · cases hca
    | ok names =>
      obtain ⟨cs', hcs', rfl, hf⟩ := classesAdded_files hca
      rw [complete_registered h] at hcs'
      cases hcs'
      simp only
      cases hg : generate { E with S := g.S } c v true with
      | error e => left; exact ⟨rfl, rfl, rfl, _, rfl, .inr (.inr (.inl ⟨trivial, hf, e, rfl, rfl⟩))⟩
      | ok text =>
        simp only
        by_cases hv : ((dedup cs).contains c && g.mode == .validate && removeDocstrings text != removeDocstrings ((d.files c).getD [])) = true
        · simp only [hv, if_true]
          left
          simp only [Bool.and_eq_true, List.contains_iff_mem, mem_dedup, beq_iff_eq, bne_iff_ne] at hv
          exact ⟨trivial, trivial, trivial, _, rfl, .inr (.inr (.inr ⟨rfl, trivial, hf, hv.1.1, hv.1.2, text, rfl, hv.2⟩))⟩
        · right
          rw [if_neg hv]
          simp only [Bool.and_eq_true, List.contains_iff_mem, mem_dedup, beq_iff_eq, bne_iff_ne, and_assoc] at hv
          refine ⟨trivial, hf, text, rfl, hv, ?_⟩
          have hf2 : ∀ x ∈ cs, ((Disk.writeClass { d with build := true } c text).files x).isSome := fun x hx => writeClass_files (d := { d with build := true }) (hf x hx)
          rw [classesAdded_ok h hf2]
          simp only
          by_cases hm : c ∈ cs
          · have hm' : (dedup cs).contains c = true := by simpa [mem_dedup] using hm
            simp only [hm', if_true]
            exact ⟨trivial, .inl ⟨hm, trivial, trivial, trivial⟩⟩
          · have hm' : ¬ (dedup cs).contains c = true := by simpa [mem_dedup] using hm
            simp only [if_neg hm']
            obtain ⟨L', states, hL', hr, hs⟩ := newClass_stub h (className_of_nameOk hn) (Disk.writeClass { d with build := true } c text)
            rw [hr]
            exact ⟨rfl, .inr ⟨hm, L', states, hL', rfl, rfl, rfl, hs⟩⟩
  · left
    simp only [hn]
    exact ⟨rfl, rfl, rfl, _, rfl, .inl ⟨rfl, by simpa using hn⟩⟩

/-! ### Histories -/

/-- The disk and the generators agree with the expected state. Generators may be outdated. -/
structure Agrees (E : Env) (w : World) (st : LiveState) : Prop where
  settings : ∀ i, (w.gens i).map (fun g => (g.S, g.mode)) = st.gens i
  nodup : st.classes.Nodup
  files : ∀ c, w.disk.files c = st.text c
  exist : ∀ c, (st.text c).isSome ↔ c ∈ st.classes
  stub : match w.disk.pyi with
    | none => st.classes = []
    | some text => Complete E.U st.classes (splitlines text)
  gens : ∀ i g, w.gens i = some g → ∃ cs, Complete E.U cs g.lines

theorem upToDate_complete {E : Env} {d : Disk} {g : Live} {classes cs : List Str} (hu : UpToDate d g) (hg : Complete E.U cs g.lines)
    (hs : match d.pyi with
      | none => classes = []
      | some text => Complete E.U classes (splitlines text)) : Complete E.U classes g.lines := by
  unfold UpToDate at hu
  cases hp : d.pyi with
  | none =>
    simp only [hp] at hu hs
    obtain ⟨L, h1, h2⟩ := generateStub_complete E.U
    rw [h1] at hu
    cases hu
    rw [hs]; exact h2
  | some text =>
    simp only [hp] at hu hs
    rcases hu with hu | hu
    · rw [hu]; exact hs
    · have := complete_reload hg
      rw [hu] at this
      rw [complete_unique hs this]; exact hg

theorem newLive_complete {E : Env} {S : Strategies} {mode : Mode} {d : Disk} {classes : List Str}
    (hs : match d.pyi with
      | none => classes = []
      | some text => Complete E.U classes (splitlines text)) : ∃ L, newLive S mode d = .ok { S, mode, lines := L } ∧ Complete E.U classes L ∧
      UpToDate d { S, mode, lines := L } := by
  unfold newLive UpToDate
  cases hp : d.pyi with
  | none =>
    simp only [hp] at hs ⊢
    obtain ⟨L, h1, h2⟩ := generateStub_complete E.U
    exact ⟨L, by rw [h1]; rfl, by rw [hs]; exact h2, h1⟩
  | some text =>
    simp only [hp] at hs ⊢
    exact ⟨splitlines text, rfl, hs, .inl rfl⟩

theorem accepts_none {E : Env} {st : LiveState} {S : Strategies} {mode : Mode} {c : Str} {v : Val}
    (h : nameOk E.U c = false ∨ (∃ e, generate { E with S := S } c v true = .error e) ∨
      (c ∈ st.classes ∧ mode = .validate ∧ ∃ text, generate { E with S := S } c v true = .ok text ∧
        removeDocstrings text ≠ removeDocstrings ((st.text c).getD []))) : st.accepts E S mode c v = none := by
  unfold LiveState.accepts
  rcases h with h | ⟨e, h⟩ | ⟨h1, h2, text, h3, h4⟩
  · simp [h]
  · rw [h]; simp
  · rw [h3]
    have : (c ∈ st.classes ∧ mode = .validate ∧ removeDocstrings text ≠ removeDocstrings ((st.text c).getD [])) := ⟨h1, h2, h4⟩
    simp [this]

theorem accepts_some {E : Env} {st : LiveState} {S : Strategies} {mode : Mode} {c : Str} {v : Val} {text : Str}
    (h0 : nameOk E.U c = true) (h1 : generate { E with S := S } c v true = .ok text)
    (h2 : ¬ (c ∈ st.classes ∧ mode = .validate ∧ removeDocstrings text ≠ removeDocstrings ((st.text c).getD []))) :
    st.accepts E S mode c v = some text := by
  unfold LiveState.accepts
  rw [h1]
  simp only
  rw [if_neg h2, if_pos h0]

/-- A call of an up-to-date generator. -/
theorem call_agrees {E : Env} {w : World} {st : LiveState} (h : Agrees E w st) {i : Nat} {g : Live} (hg : w.gens i = some g) (hu : UpToDate w.disk g)
    (c : Str) (v : Val) : Agrees E (w.step E (.call i c v)) (st.step E (.call i c v)) ∧
      (∀ g', (w.step E (.call i c v)).gens i = some g' → UpToDate (w.step E (.call i c v)).disk g') ∧
      ((∃ e, (g.fromData E w.disk c v).result = .error e ∧ st.accepts E g.S g.mode c v = none) ∨
       ((g.fromData E w.disk c v).result = .ok v ∧ ∃ text, st.accepts E g.S g.mode c v = some text)) := by
  obtain ⟨cs, hcs⟩ := h.gens i g hg
  have hC := upToDate_complete hu hcs h.stub
  have hset : st.gens i = some (g.S, g.mode) := by rw [← h.settings i, hg]; rfl
  have hfiles : ∀ x ∈ st.classes, (w.disk.files x).isSome := by
    intro x hx; rw [h.files]; exact (h.exist x).mpr hx
  simp only [World.step, hg, LiveState.step, hset]
  rcases call_cases E g w.disk c v hC with ⟨e1, e2, _, e, e3, hcase⟩ | ⟨hn, _, text, hgen, hval, hres, hcase⟩
  · -- rejected
    have hacc : st.accepts E g.S g.mode c v = none := by
      rcases hcase with ⟨_, h1⟩ | ⟨_, x, _, hx, hx'⟩ | ⟨_, _, e', _, h1⟩ | ⟨_, _, _, h1, h2, text, h3, h4⟩
      · exact accepts_none (.inl h1)
      · have := hfiles x hx
        rw [hx'] at this; cases this
      · exact accepts_none (.inr (.inl ⟨e', h1⟩))
      · exact accepts_none (.inr (.inr ⟨h1, h2, text, h3, by rw [← h.files]; exact h4⟩))
    have hgens : (fun j => if j = i then some (g.fromData E w.disk c v).live else w.gens j) = w.gens := by
      funext j
      split
      · subst_vars; rw [e1, hg]
      · rfl
    rw [hacc, e2, hgens]
    refine ⟨h, ?_, .inl ⟨e, e3, rfl⟩⟩
    intro g' hg'
    simp only [if_true, e1] at hg'; cases hg'
    exact hu
  · have hacc : st.accepts E g.S g.mode c v = some text := accepts_some hn hgen (by rw [← h.files]; exact hval)
    rw [hacc, hres]
    simp only
    rcases hcase with ⟨hm, e1, e2, _⟩ | ⟨hm, L', states, hL', e1, e2, _, _⟩
    · -- known class
      have hgens : (fun j => if j = i then some (g.fromData E w.disk c v).live else w.gens j) = w.gens := by
        funext j
        split
        · subst_vars; rw [e1, hg]
        · rfl
      rw [e2, hgens, if_pos hm]
      refine ⟨⟨h.settings, h.nodup, ?_, ?_, h.stub, h.gens⟩, ?_, .inr ⟨trivial, text, rfl⟩⟩
      · intro x
        simp only [Disk.writeClass]
        split
        · rfl
        · exact h.files x
      · intro x
        simp only
        split
        · subst_vars; simp [hm]
        · exact h.exist x
      · intro g' hg'
        simp only [if_true, e1] at hg'; cases hg'
        exact hu
    · -- new class
      rw [e1, e2, if_neg hm]
      refine ⟨⟨?_, ?_, ?_, ?_, ?_, ?_⟩, ?_, .inr ⟨trivial, text, rfl⟩⟩
      · intro j
        simp only
        split
        · subst_vars; rw [hset]; rfl
        · exact h.settings j
      · rw [List.nodup_append]
        refine ⟨h.nodup, by simp, ?_⟩
        intro a ha b hb
        rw [List.mem_singleton.mp hb]
        rintro rfl
        exact hm ha
      · intro x
        simp only [Disk.writePyi, Disk.writeClass]
        split
        · rfl
        · exact h.files x
      · intro x
        simp only [List.mem_append, List.mem_singleton]
        split
        · subst_vars; simp
        · rename_i hx
          rw [h.exist x]; simp [hx]
      · exact complete_reload hL'
      · intro j g' hg'
        simp only at hg'
        split at hg'
        · cases hg'; exact ⟨_, hL'⟩
        · exact h.gens j g' hg'
      · intro g' hg'
        simp only [if_true] at hg'
        cases hg'
        exact .inr rfl

theorem new_agrees {E : Env} {w : World} {st : LiveState} (h : Agrees E w st) (i : Nat) (S : Strategies) (mode : Mode) :
    Agrees E (w.step E (.new i S mode)) (st.step E (.new i S mode)) ∧
      ∀ g, (w.step E (.new i S mode)).gens i = some g → UpToDate (w.step E (.new i S mode)).disk g := by
  obtain ⟨L, h1, h2, h3⟩ := newLive_complete (E := E) (S := S) (mode := mode) h.stub
  simp only [World.step, h1, LiveState.step]
  refine ⟨⟨?_, h.nodup, h.files, h.exist, h.stub, ?_⟩, ?_⟩
  · intro j
    simp only
    split
    · rfl
    · exact h.settings j
  · intro j g hg
    simp only at hg
    split at hg
    · cases hg; exact ⟨_, h2⟩
    · exact h.gens j g hg
  · intro g hg
    simp only [if_true] at hg
    cases hg
    exact h3

theorem reset_agrees {E : Env} {w : World} {st : LiveState} (h : Agrees E w st) : Agrees E (w.step E .reset) (st.step E .reset) :=
  ⟨h.settings, .nil, fun _ => rfl, fun _ => by simp [LiveState.step], rfl, h.gens⟩

theorem run_agrees {E : Env} : ∀ {hist : List Event} {w : World} {st : LiveState}, Agrees E w st → CallsUpToDate E w hist →
    Agrees E (w.run E hist) (st.run E hist)
  | [], _, _, h, _ => h
  | .new i S mode :: es, _, _, h, hu => run_agrees (hist := es) (new_agrees h i S mode).1 hu.2
  | .reset :: es, _, _, h, hu => run_agrees (hist := es) (reset_agrees h) hu.2
  | .call i c v :: es, w, st, h, hu => by
    cases hg : w.gens i with
    | none =>
      have hset : st.gens i = none := by rw [← h.settings i, hg]; rfl
      have e1 : w.step E (.call i c v) = w := by simp [World.step, hg]
      have e2 : st.step E (.call i c v) = st := by simp [LiveState.step, hset]
      have hu2 := hu.2
      rw [e1] at hu2
      have := run_agrees (hist := es) h hu2
      simpa only [World.run, LiveState.run, e1, e2] using this
    | some g => exact run_agrees (hist := es) (call_agrees h hg (hu.1 g hg) c v).1 hu.2

theorem empty_agrees (E : Env) : Agrees E World.empty LiveState.empty :=
  ⟨fun _ => rfl, .nil, fun _ => rfl, fun _ => by simp [LiveState.empty], rfl, fun _ _ h => by cases h⟩

/-- One generator at a time is always up to date. -/
theorem oneAtATime_upToDate {E : Env} : ∀ {hist : List Event} {w : World} {st : LiveState} {cur : Option Nat}, Agrees E w st →
    (∀ i g, cur = some i → w.gens i = some g → UpToDate w.disk g) → OneAtATime cur hist → CallsUpToDate E w hist
  | [], _, _, _, _, _, _ => trivial
  | .new i S mode :: es, w, st, cur, h, _, ho =>
    ⟨trivial, oneAtATime_upToDate (cur := some i) (new_agrees h i S mode).1 (fun j g hj hg => by cases hj; exact (new_agrees h i S mode).2 g hg) ho⟩
  | .reset :: es, w, st, cur, h, _, ho => ⟨trivial, oneAtATime_upToDate (cur := none) (reset_agrees h) (fun _ _ hj => by cases hj) ho⟩
  | .call i c v :: es, w, st, cur, h, hc, ho => by
    obtain ⟨rfl, ho⟩ := ho
    refine ⟨fun g hg => hc i g rfl hg, ?_⟩
    cases hg : w.gens i with
    | none =>
      have hset : st.gens i = none := by rw [← h.settings i, hg]; rfl
      have e1 : w.step E (.call i c v) = w := by simp [World.step, hg]
      rw [e1]
      exact oneAtATime_upToDate h hc ho
    | some g =>
      have := call_agrees h hg (hc i g rfl hg) c v
      exact oneAtATime_upToDate (cur := some i) this.1 (fun j g' hj hg' => by cases hj; exact this.2.1 g' hg') ho

end
end Verif
