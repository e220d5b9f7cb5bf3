import Verif.Lemmas.Snapshot
/-
C97: changes made to the data after `from_data`.
-/
namespace Verif.Props
open Verif Verif.Spec

/-- **C97** (partial). Whatever is done to lists, sets, dictionaries and other containers after `from_data` has no influence on the hint,
as long as the documentation of dictionaries stays, and with it whether all labels of a frame are literals. Missing: changes of functions,
classes and element types of arrays in place. -/
theorem snapshot_partial (E : Env) : Snapshot E (HarmlessTree E.S) := by
  intro c v n _ fs calls
  generalize (⟨none, fs⟩ : TreeState) = s
  intro h
  induction calls generalizing s with
  | nil => rfl
  | cons x r ih =>
    obtain ⟨n', op⟩ := x
    obtain ⟨h1, h2⟩ := h _ (.head _)
    simp only [laterRun, List.map_cons, Node.treeRun]
    rw [treeStep_later h1 h2, ih _ (fun y hy => h y (.tail _ hy))]

/-- **C97**: once a text was returned, no change whatsoever has an influence on later calls. -/
theorem snapshot_once_printed (E : Env) (n : Node) (fs : Fs) (b : Bool) (text : Str)
    (h : (n.treeStep E ⟨none, fs⟩ (.toString b)).1 = .text (.ok text)) (calls : List (Node × TreeOp)) :
    laterRun E (n.treeStep E ⟨none, fs⟩ (.toString b)).2 calls =
      n.treeRun E (n.treeStep E ⟨none, fs⟩ (.toString b)).2 (calls.map (·.2)) := by
  obtain ⟨l, hl⟩ : ∃ l, (n.treeStep E ⟨none, fs⟩ (.toString b)).2.cache = some l := by
    simp only [Node.treeStep, Node.toStringCall, cachedCall] at h ⊢
    cases hn : nodeStrings E n b with
    | ok r => exact ⟨r, rfl⟩
    | error e => rw [hn] at h; simp [Except.map] at h
  generalize (n.treeStep E ⟨none, fs⟩ (.toString b)).2 = s at hl ⊢
  induction calls generalizing s with
  | nil => rfl
  | cons x r ih =>
    obtain ⟨n', op⟩ := x
    obtain ⟨e, hc⟩ := treeStep_cached (E := E) n n' hl op
    simp only [laterRun, List.map_cons, Node.treeRun]
    rw [e, ih _ hc]

/-! ### Where the claim is false -/

mutual
/-- The tree after a change of everything it refers to. -/
def changed (f : NKind → NKind) : Node → Node
  | .mk h kids => .mk { h with kind := f h.kind } (changedList f kids)
def changedList (f : NKind → NKind) : List Node → List Node
  | [] => []
  | k :: r => changed f k :: changedList f r
end

mutual
theorem changed_later {f : NKind → NKind} (h : ∀ k : NKind, k.Later (f k)) : ∀ n : Node, n.Later (changed f n)
  | .mk hd kids => by
    rw [changed]
    unfold Node.Later
    exact ⟨h _, rfl, rfl, rfl, rfl, changedList_later h kids⟩
theorem changedList_later {f : NKind → NKind} (h : ∀ k : NKind, k.Later (f k)) : ∀ l : List Node, laterList l (changedList f l)
  | [] => by rw [changedList]; unfold laterList; trivial
  | k :: r => by
    rw [changedList]
    unfold laterList
    exact ⟨changed_later h k, changedList_later h r⟩
end

mutual
theorem changed_harmless {S : Strategies} {f : NKind → NKind} (h : ∀ k, Harmless S k (f k)) : ∀ n : Node, HarmlessTree S n (changed f n)
  | .mk hd kids => by
    rw [changed]
    unfold HarmlessTree
    exact ⟨h _, changedList_harmless h kids⟩
theorem changedList_harmless {S : Strategies} {f : NKind → NKind} (h : ∀ k, Harmless S k (f k)) :
    ∀ l : List Node, HarmlessTrees S l (changedList f l)
  | [] => by rw [changedList]; unfold HarmlessTrees; trivial
  | k :: r => by
    rw [changedList]
    unfold HarmlessTrees
    exact ⟨changed_harmless h k, changedList_harmless h r⟩
end

mutual
theorem changed_id : ∀ n : Node, changed id n = n
  | .mk h kids => by rw [changed, changedList_id kids]; rfl
theorem changedList_id : ∀ l : List Node, changedList id l = l
  | [] => by rw [changedList]
  | k :: r => by rw [changedList, changed_id k, changedList_id r]
end

/-- The text of the hint right after `from_data`, and after a change. -/
def beforeAfter (E : Env) (v : Val) (f : NKind → NKind) : Option (List TreeResult × List TreeResult) :=
  match fromData E py!"X" v with
  | .ok n => some ((n.treeRun E ⟨none, fun _ => none⟩ [.toString false]).1, (laterRun E ⟨none, fun _ => none⟩ [(changed f n, .toString false)]).1)
  | .error _ => none

theorem snapshot_refuted {E : Env} {v : Val} {f : NKind → NKind} (hf : ∀ k : NKind, k.Later (f k)) {a b : List TreeResult}
    (h : beforeAfter E v f = some (a, b)) (hab : a ≠ b) : ¬ Snapshot E (fun _ _ => True) := by
  intro hs
  unfold beforeAfter at h
  cases hn : fromData E py!"X" v with
  | error e => rw [hn] at h; cases h
  | ok n =>
    rw [hn] at h
    cases h
    have := hs _ _ n hn (fun _ => none) [(changed f n, .toString false)] (by simpa using changed_later hf n)
    exact hab (congrArg (·.1) this).symm

/-- Another documentation is stored in every dictionary. -/
def newDoc : NKind → NKind
  | .dict _ m => .dict [(.str py!"doc", .inst .str (some py!"New"))] m
  | k => k

/-- **C97 is false**: the documentation of a dictionary is read when the text is made. -/
theorem snapshot_doc_fails : ¬ Snapshot (exEnv { keyDoc := py!"doc" }) (fun _ _ => True) :=
  snapshot_refuted (f := newDoc) (v := .dict [(.str py!"doc", .inst .str (some py!"Old"))])
    (fun k => by cases k <;> constructor)
    (a := [.text (.ok py!"class X(TypedDict):\n    \"\"\"Old.\"\"\"\n\n    doc: str\n")])
    (b := [.text (.ok py!"class X(TypedDict):\n    \"\"\"New.\"\"\"\n\n    doc: str\n")]) (by decide +kernel) (by decide +kernel)

/-- The elements of every array get another type. -/
def newElements : NKind → NKind
  | .ndarray _ => .ndarray py!"int8"
  | k => k

/-- **C97 is false** of arrays whose elements are reinterpreted in place. -/
theorem snapshot_array_fails : ¬ Snapshot (exEnv {}) (fun _ _ => True) :=
  snapshot_refuted (f := newElements) (v := .ndarray ⟨py!"ndarray", 0⟩ py!"int64")
    (fun k => by cases k <;> constructor)
    (a := [.text (.ok py!"X: TypeAlias = \"NDArray[np.int64]\"\n")]) (b := [.text (.ok py!"X: TypeAlias = \"NDArray[np.int8]\"\n")])
    (by decide +kernel) (by decide +kernel)

/-- A label of every frame is replaced by one that is no literal. -/
def newLabels : NKind → NKind
  | .frame i => .frame { i with literalLabels := false }
  | k => k

/-- A frame in a dictionary. -/
def frameInDict : Val :=
  .dict [(.str py!"f", .map (.frame ⟨py!"c", true⟩) ⟨py!"DataFrame", 0⟩ [.str py!"a"] [.seq .series ⟨py!"Series", 0⟩ [.inst .int none]])]

/-- **C97 is false** of frames: their labels are looked at when the text is made. -/
theorem snapshot_frame_fails : ¬ Snapshot (exEnv { minHeight := 2 }) (fun _ _ => True) := by
  obtain ⟨x, hx, hne⟩ : ∃ x, beforeAfter (exEnv { minHeight := 2 }) frameInDict newLabels = some x ∧ x.1 ≠ x.2 := by
    have : (beforeAfter (exEnv { minHeight := 2 }) frameInDict newLabels).any (fun x => x.1 != x.2) = true := by decide +kernel
    cases h : beforeAfter (exEnv { minHeight := 2 }) frameInDict newLabels with
    | none => rw [h] at this; cases this
    | some x => rw [h] at this; exact ⟨x, rfl, by simpa using this⟩
  exact snapshot_refuted (a := x.1) (b := x.2) (fun k => by cases k <;> constructor) hx hne

/-! ### Cases that meet the hypotheses -/

/-- Every dictionary is emptied. -/
def emptied : NKind → NKind
  | .dict _ m => .dict [] m
  | k => k

/-- A nested dictionary whose dictionaries are emptied after `from_data`, and two calls. -/
example : ∃ n, fromData (exEnv {}) py!"X" (.dict [(.str py!"a", .dict [(.str py!"b", .inst .int none)])]) = .ok n ∧
    (∀ x ∈ [(n, TreeOp.toString true), (changed emptied n, .toString true)], n.Later x.1 ∧ HarmlessTree (exEnv {}).S n x.1) := by
  refine ⟨_, rfl, ?_⟩
  intro x hx
  have self : ∀ n : Node, n.Later n ∧ HarmlessTree (exEnv {}).S n n := fun n => by
    have e : changed id n = n := by
      exact changed_id n
    have h1 := changed_later (f := id) (fun k => .same k) n
    have h2 := changed_harmless (S := (exEnv {}).S) (f := id) (fun k => by cases k <;> first | rfl | exact ⟨rfl, .inl rfl⟩) n
    rw [e] at h1 h2
    exact ⟨h1, h2⟩
  simp only [List.mem_cons, List.not_mem_nil, or_false] at hx
  rcases hx with rfl | rfl
  · exact self _
  · exact ⟨changed_later (fun k => by cases k <;> constructor) _,
      changed_harmless (fun k => by cases k <;> first | rfl | exact ⟨rfl, .inl rfl⟩) _⟩

/-- The text after the change is the one from before. -/
example : beforeAfter (exEnv {}) (.dict [(.str py!"a", .dict [(.str py!"b", .inst .int none)])]) emptied =
    some ([.text (.ok py!"class XA(TypedDict):\n    b: int\n\n\nclass X(TypedDict):\n    a: XA")],
      [.text (.ok py!"class XA(TypedDict):\n    b: int\n\n\nclass X(TypedDict):\n    a: XA")]) := by decide +kernel

end Verif.Props
