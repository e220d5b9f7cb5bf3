import Verif.Lemmas.SoundHolds
import Verif.Lemmas.CoherentCheck
import Verif.Props.Order
/-
C21, C31 and C33 for data that mix collections of all kinds, with dictionaries that are merged at any depth.
-/
namespace Verif.Props
open Verif Verif.Spec

/-- The trees of coherent and neat data, and their text. -/
theorem coherent_tree {E : Env} (hE : E.Fair) (hm : 0 < E.S.merge) {name : Str} {v : Val} (hc : CamelName name)
    (ht : Coherent E.S v) (hn : Neat v) (hf : Fresh name v) {n : Node} (hb : fromData E name v = .ok n) :
    NodeFor E.S [v] v n ∧ NodeAll (NeatHdr name) n ∧ n.hdr.root = true ∧ n.name = name ∧
    nodeStrings E n false = .ok ((dedupDecls (n.abs E).emitted).map TDecl.print) := by
  have hr : Regular E.U v := plainAt_regular (coherent_plainAt ht) hn
  obtain ⟨_, h2, _, h4, h5, _⟩ := regular_build hE hm hr hb
  exact ⟨build_for hE hm _ _ _ _ _ ht h2, neat_build hE hc hn hf h2 (by omega), h4, h5, regular_strings hE hm hr hb⟩

/-- **C21** (partial). The generated text of coherent data can be read, and if it declares no name twice, the type of the
requested name admits the value it was generated from and every value that it covers. Missing: dictionaries in one sequence
whose values under a shared key do not cover each other, values side by side that the generator cannot tell apart although
they need different hints (`classes_told_apart_fails`, `empties_told_apart_fails`), hidden or `None` keys, elements beyond the
inspected ones, functions that are not lambdas, and data frames with labels other than strings of letters, digits, underscores
and spaces. -/
theorem hint_sound_coherent_partial {E : Env} (hE : E.Fair) (hm : 0 < E.S.merge) {name : Str} {v : Val}
    (hc : CamelName name) (ht : Coherent E.S v) (hn : Neat v) (hf : Fresh name v) {n : Node} (hb : fromData E name v = .ok n) :
    ∃ strs Γ, nodeStrings E n false = .ok strs ∧ readText strs = some Γ ∧
      ((Γ.map (·.name)).Nodup → Admits Γ (.name name) v ∧ ∀ w, Covers E.S v w → Admits Γ (.name name) w) := by
  obtain ⟨g, h1, h2, h3, h4⟩ := coherent_tree hE hm hc ht hn hf hb
  refine ⟨_, _, h4, (root_texts hE g.trim h1 h2).1, fun hnd => ?_⟩
  have key : ∀ w, Covers E.S v w → Admits (dedupDecls (n.abs E).emitted) (.name name) w := fun w hw =>
    root_holds hE g.trim h1 h2 h3 hf.1 (g.holds w hw) hnd
  exact ⟨key v (covers_refl v ht), key⟩

/-- Data about which nothing remains to be assumed: coherent, with ASCII names that the requested name does not clash with,
and with clear names, so that no name is declared twice. -/
structure WellBehaved (S : Strategies) (name : Str) (v : Val) : Prop where
  camel : CamelName name
  coherent : Coherent S v
  neat : Neat v
  fresh : Fresh name v
  clear : ClearNames S v
  letters : ValAll LetterFirst (fun _ => True) (fun _ => True) v

theorem camel_nameOk {U : Uni} {s : Str} (h : CamelName s) : nameOk U s = true := by
  obtain ⟨c, r, rfl, hu, ha⟩ := h
  have hal : c.isAlpha = true := by simp [Char.isAlpha, hu]
  refine (ascii_ident_nameOk U _ (fun d hd => (asciiAlnum_iff.mp (ha d hd)).1) ⟨c, r, rfl, .inl hal, ?_⟩).mpr ⟨c, by simp, ?_⟩
  · intro d hd
    have := (asciiAlnum_iff.mp (ha d (by simp [hd]))).2
    simp only [Char.isAlphanum, Bool.or_eq_true] at this
    rcases this with h | h
    · exact .inl h
    · exact .inr (.inl h)
  · rintro rfl
    revert hu; decide

/-- **C21** (partial). For well-behaved data the hint is generated, can be read, declares every name once, and its
declarations admit the value it was generated from and every value that it covers. -/
theorem hint_sound_clear_partial {E : Env} (hE : E.Fair) (hm : 0 < E.S.merge) {name : Str} {v : Val}
    (h : WellBehaved E.S name v) :
    ∃ Γ, Hint E name v Γ ∧ (Γ.map (·.name)).Nodup ∧ Admits Γ (.name name) v ∧ ∀ w, Covers E.S v w → Admits Γ (.name name) w := by
  have hr : Regular E.U v := plainAt_regular (coherent_plainAt h.coherent) h.neat
  obtain ⟨n, hb, _⟩ := names_always_valid_partial E hE hm name v (camel_nameOk h.camel) hr.1
  obtain ⟨g, h1, h2, h3, h4⟩ := coherent_tree hE hm h.camel h.coherent h.neat h.fresh hb
  obtain ⟨strs, k1, _, k2⟩ := one_definition_partial hE hm hr h.clear h.letters h.camel hb
  rw [h4] at k1
  cases k1
  obtain ⟨r1, r2, _⟩ := root_texts hE g.trim h1 h2
  have hnd : ((dedupDecls (n.abs E).emitted).map (·.name)).Nodup := by
    rw [List.map_map] at k2
    rw [show (dedupDecls (n.abs E).emitted).map (·.name) = (dedupDecls (n.abs E).emitted).map (declName ∘ TDecl.print) from
      List.map_congr_left (fun d hd => (declName_print (r2 d hd).1.1.2 (r2 d hd).1.2.1).symm)]
    exact k2
  have key : ∀ w, Covers E.S v w → Admits (dedupDecls (n.abs E).emitted) (.name name) w := fun w hw =>
    root_holds hE g.trim h1 h2 h3 h.fresh.1 (g.holds w hw) hnd
  exact ⟨_, ⟨n, _, hb, h4, r1⟩, hnd, key v (covers_refl v h.coherent), key⟩

/-! ### Values that meet the hypotheses -/

/-- `{"name": "x", "sizes": (1, 2.5), "tags": {"a", "b"}, "limits": MappingProxyType({"low": 1, "high": 2}),
"users": [{"id": 1, "mail": "m", "roles": [frozenset({"r"})]},
{"id": 2, "mail": "n", "roles": [frozenset({"s"})], "groups": [{"key": "k"}, {"key": "l", "size": 1}]}]}`: all kinds of collections, and
dictionaries that are merged at two levels. -/
def sampleMixed : Val :=
  let i : Val := .inst .int none
  let s : Val := .inst .str none
  let r : Val := .seq .list .list [.seq .frozenset .frozenset [s]]
  dictOf [(py!"name", s), (py!"sizes", .seq .tuple .tuple [i, .inst .float none]), (py!"tags", .seq .set .set [s, s]),
    (py!"limits", .map .proxy .mappingproxy [.str py!"low", .str py!"high"] [i, i]),
    (py!"users", .seq .list .list [
      dictOf [(py!"id", i), (py!"mail", s), (py!"roles", r)],
      dictOf [(py!"id", i), (py!"mail", s), (py!"roles", r),
        (py!"groups", .seq .list .list [dictOf [(py!"key", s)], dictOf [(py!"key", s), (py!"size", i)]])]])]

set_option maxRecDepth 8000 in
example : declsOf (exEnv {}) py!"Config" sampleMixed =
    [py!"ConfigUsersDictRoles: TypeAlias = List[FrozenSet[str]]",
     recordText py!"ConfigUsersDictGroupsDict" false none [⟨py!"key", py!"str", none⟩, ⟨py!"size", py!"NotRequired[int]", none⟩],
     py!"ConfigUsersDictGroups: TypeAlias = List[ConfigUsersDictGroupsDict]",
     recordText py!"ConfigUsersDict" false none [⟨py!"id", py!"int", none⟩, ⟨py!"mail", py!"str", none⟩,
      ⟨py!"roles", py!"ConfigUsersDictRoles", none⟩, ⟨py!"groups", py!"NotRequired[ConfigUsersDictGroups]", none⟩],
     py!"ConfigUsers: TypeAlias = List[ConfigUsersDict]",
     recordText py!"Config" false none [⟨py!"name", py!"str", none⟩, ⟨py!"sizes", py!"Tuple[int, float]", none⟩,
      ⟨py!"tags", py!"Set[str]", none⟩, ⟨py!"limits", py!"MappingProxyType[str, int]", none⟩, ⟨py!"users", py!"ConfigUsers", none⟩]] := by
  decide +kernel

def letterFirstB (t : Ty) : Bool :=
  match t.name with
  | c :: r => c.isAlpha && (c :: r).all asciiAlnum
  | [] => false

theorem letterFirstB_sound {t : Ty} (h : letterFirstB t = true) : LetterFirst t := by
  unfold letterFirstB at h
  split at h
  · rename_i c r e
    rw [Bool.and_eq_true, List.all_eq_true] at h
    exact ⟨c, r, e, h.1, h.2⟩
  · cases h

mutual
/-- `FreshClass` throughout given data by computation. -/
def freshB (name : Str) : Val → Bool
  | .seq _ _ es => freshsB name es
  | .map _ _ _ vs => freshsB name vs
  | .cls _ n => decide (¬ name <+: n)
  | _ => true
def freshsB (name : Str) : List Val → Bool
  | [] => true
  | v :: r => freshB name v && freshsB name r
end

mutual
theorem freshB_sound {name : Str} : ∀ {v : Val}, freshB name v = true → Every (FreshClass name) v
  | .seq .., h => ⟨trivial, freshsB_sound (by simpa [freshB] using h)⟩
  | .map .., h => ⟨trivial, freshsB_sound (by simpa [freshB] using h)⟩
  | .cls .., h => by
    simp only [freshB, decide_eq_true_eq] at h
    exact h
  | .inst .., _ | .func _, _ | .module _, _ | .io _, _ | .ndarray .., _ => trivial
theorem freshsB_sound {name : Str} : ∀ {l : List Val}, freshsB name l = true → EveryList (FreshClass name) l
  | [], _ => trivial
  | v :: r, h => by
    rw [freshsB, Bool.and_eq_true] at h
    exact ⟨freshB_sound h.1, freshsB_sound h.2⟩
end

/-- Good behaviour of given data by computation. -/
def wellBehavedB (S : Strategies) (f : Nat) (name : Str) (v : Val) : Bool :=
  (match name with
    | c :: r => c.isUpper && (c :: r).all asciiAlnum
    | [] => false) && coherentB S f v && valAllB (fun t => decide (NeatTy t)) (fun k => decide (NeatKey k)) v &&
  decide (∀ n ∈ py!"int" :: py!"str" :: py!"dict" :: typingNames, ¬ name <+: n) &&
  valAllB (fun t => decide (¬ name <+: t.name)) (fun k => decide (¬ name <+: k.ty.name)) v && clearB S v &&
  valAllB letterFirstB (fun _ => true) v && freshB name v

theorem wellBehavedB_sound {S : Strategies} {f : Nat} {name : Str} {v : Val} (h : wellBehavedB S f name v = true) :
    WellBehaved S name v := by
  unfold wellBehavedB at h
  simp only [Bool.and_eq_true, decide_eq_true_eq] at h
  obtain ⟨⟨⟨⟨⟨⟨⟨h1, h2⟩, h3⟩, h4⟩, h5⟩, h6⟩, h7⟩, h8⟩ := h
  refine ⟨?_, coherentB_sound h2, valAllB_sound (fun _ h => of_decide_eq_true h) (fun _ h => of_decide_eq_true h) h3,
    ⟨h4, valAllB_sound (fun _ h => of_decide_eq_true h) (fun _ h => of_decide_eq_true h) h5, freshB_sound h8⟩, clearB_spec h6,
    valAllB_sound (fun _ => letterFirstB_sound) (fun _ _ => trivial) h7⟩
  split at h1
  · rename_i c r
    rw [Bool.and_eq_true, List.all_eq_true] at h1
    exact ⟨c, r, rfl, h1.1, h1.2⟩
  · cases h1

theorem sampleMixed_ok : WellBehaved {} py!"Config" sampleMixed := wellBehavedB_sound (f := 10) (by decide +kernel)

example : ∃ Γ, Hint (exEnv {}) py!"Config" sampleMixed Γ ∧ Admits Γ (.name py!"Config") sampleMixed := by
  obtain ⟨Γ, h, _, h', _⟩ := hint_sound_clear_partial (exEnv_fair {}) (by decide) sampleMixed_ok
  exact ⟨Γ, h, h'⟩

/-- `{"model": User, "plugins": (json, re), "log": open("x"), "grid": np.zeros(3), "handlers": [{"kind": int}, {"kind": int,
"source": np.ones(2)}]}`: classes, modules, files and arrays. -/
def sampleObjects : Val :=
  dictOf [(py!"model", .cls .type py!"User"), (py!"plugins", .seq .tuple .tuple [.module ⟨py!"module", 0⟩, .module ⟨py!"module", 0⟩]),
    (py!"log", .io ⟨py!"TextIOWrapper", 0⟩), (py!"grid", .ndarray ⟨py!"ndarray", 0⟩ py!"float64"),
    (py!"handlers", .seq .list .list [dictOf [(py!"kind", .cls .type py!"int")],
      dictOf [(py!"kind", .cls .type py!"int"), (py!"source", .ndarray ⟨py!"ndarray", 0⟩ py!"float64")]])]

set_option maxRecDepth 8000 in
example : declsOf (exEnv {}) py!"Config" sampleObjects =
    [recordText py!"ConfigHandlersDict" false none [⟨py!"kind", py!"Type[int]", none⟩,
      ⟨py!"source", py!"NotRequired[\"NDArray[np.float64]\"]", none⟩],
     py!"ConfigHandlers: TypeAlias = List[ConfigHandlersDict]",
     recordText py!"Config" false none [⟨py!"model", py!"Type[\"User\"]", none⟩, ⟨py!"plugins", py!"Tuple[ModuleType, ModuleType]", none⟩,
      ⟨py!"log", py!"TextIO", none⟩, ⟨py!"grid", py!"\"NDArray[np.float64]\"", none⟩, ⟨py!"handlers", py!"ConfigHandlers", none⟩]] := by
  decide +kernel

theorem sampleObjects_ok : WellBehaved {} py!"Config" sampleObjects := wellBehavedB_sound (f := 10) (by decide +kernel)

example : ∃ Γ, Hint (exEnv {}) py!"Config" sampleObjects Γ ∧ Admits Γ (.name py!"Config") sampleObjects := by
  obtain ⟨Γ, h, _, h', _⟩ := hint_sound_clear_partial (exEnv_fair {}) (by decide) sampleObjects_ok
  exact ⟨Γ, h, h'⟩

/-- A lambda with `n` parameters. -/
def lambdaOf (n : Nat) : Val :=
  .func ⟨⟨py!"function", 0⟩, true, .ok (py!"(" ++ join py!", " (List.replicate n py!"x") ++ py!")") n, .unavailable⟩

/-- `{"now": MethodType(max, 3), "steps": [lambda x: x, lambda x: 2 * x, lambda x, y: x], "rules": ({"test": lambda: True},)}`: lambdas
and a builtin method without a signature. -/
def sampleLambdas : Val :=
  dictOf [(py!"now", .func ⟨⟨py!"method", 0⟩, false, .valueError, .unavailable⟩),
    (py!"steps", .seq .list .list [lambdaOf 1, lambdaOf 1, lambdaOf 2]), (py!"rules", .seq .tuple .tuple [dictOf [(py!"test", lambdaOf 0)]])]

set_option maxRecDepth 8000 in
example : declsOf (exEnv {}) py!"Config" sampleLambdas =
    [py!"ConfigNow: TypeAlias = Callable", py!"ConfigStepsFunction: TypeAlias = Callable[[Any], Any]",
     py!"ConfigStepsFunction2: TypeAlias = Callable[[Any, Any], Any]", py!"ConfigRulesDictTest: TypeAlias = Callable[[], Any]",
     recordText py!"ConfigRulesDict" false none [⟨py!"test", py!"ConfigRulesDictTest", none⟩],
     py!"ConfigRules: TypeAlias = Tuple[ConfigRulesDict]",
     recordText py!"Config" false none [⟨py!"now", py!"ConfigNow", none⟩,
      ⟨py!"steps", py!"List[Union[ConfigStepsFunction, ConfigStepsFunction2]]", none⟩, ⟨py!"rules", py!"ConfigRules", none⟩]] := by
  decide +kernel

theorem sampleLambdas_ok : WellBehaved {} py!"Config" sampleLambdas := wellBehavedB_sound (f := 10) (by decide +kernel)

example : ∃ Γ, Hint (exEnv {}) py!"Config" sampleLambdas Γ ∧ Admits Γ (.name py!"Config") sampleLambdas := by
  obtain ⟨Γ, h, _, h', _⟩ := hint_sound_clear_partial (exEnv_fair {}) (by decide) sampleLambdas_ok
  exact ⟨Γ, h, h'⟩

/-- Why values side by side must be told apart: classes are compared by their metaclass and arrays without the type of their
elements, so `[int, str]` is described by `List[Type[int]]`, and an array of floats after an array of integers is lost. -/
theorem classes_told_apart_fails :
    (∃ Γ, Hint (exEnv {}) py!"X" (.seq .list .list [.cls .type py!"int", .cls .type py!"str"]) Γ ∧
      ¬ Admits Γ (.name py!"X") (.seq .list .list [.cls .type py!"int", .cls .type py!"str"])) ∧
    ∃ Γ, Hint (exEnv {}) py!"X" (.seq .list .list [.ndarray ⟨py!"ndarray", 0⟩ py!"int64", .ndarray ⟨py!"ndarray", 0⟩ py!"float64"]) Γ ∧
      ¬ Admits Γ (.name py!"X") (.seq .list .list [.ndarray ⟨py!"ndarray", 0⟩ py!"int64", .ndarray ⟨py!"ndarray", 0⟩ py!"float64"]) :=
  ⟨rejects_spec (by decide +kernel), rejects_spec (by decide +kernel)⟩

/-- `{"env": {}, "jobs": [{}, {"cmd": "make"}], "seen": [[], {}, set()], "limits": MappingProxyType({})}`: empty
collections of all kinds. -/
def sampleEmpties : Val :=
  dictOf [(py!"env", dictOf []), (py!"jobs", .seq .list .list [dictOf [], dictOf [(py!"cmd", .inst .str none)]]),
    (py!"seen", .seq .list .list [.seq .list .list [], dictOf [], .seq .set .set []]),
    (py!"limits", .map .proxy .mappingproxy [] [])]

set_option maxRecDepth 8000 in
example : declsOf (exEnv {}) py!"Config" sampleEmpties =
    [recordText py!"ConfigEnv" false none [], recordText py!"ConfigJobsDict" false none [],
     recordText py!"ConfigJobsDict2" false none [⟨py!"cmd", py!"str", none⟩],
     py!"ConfigJobs: TypeAlias = List[Union[ConfigJobsDict, ConfigJobsDict2]]", recordText py!"ConfigSeenDict" false none [],
     py!"ConfigSeen: TypeAlias = List[Union[ConfigSeenDict, List[Any], Set[Any]]]",
     recordText py!"Config" false none [⟨py!"env", py!"ConfigEnv", none⟩, ⟨py!"jobs", py!"ConfigJobs", none⟩,
      ⟨py!"seen", py!"ConfigSeen", none⟩, ⟨py!"limits", py!"MappingProxyType[Any, Any]", none⟩]] := by
  decide +kernel

theorem sampleEmpties_ok : WellBehaved {} py!"Config" sampleEmpties := wellBehavedB_sound (f := 10) (by decide +kernel)

example : ∃ Γ, Hint (exEnv {}) py!"Config" sampleEmpties Γ ∧ Admits Γ (.name py!"Config") sampleEmpties := by
  obtain ⟨Γ, h, _, h', _⟩ := hint_sound_clear_partial (exEnv_fair {}) (by decide) sampleEmpties_ok
  exact ⟨Γ, h, h'⟩

/-- Empty collections of different kinds have the same structural hash. Side by side they are told apart, but two lists that
contain them are not: `[[{}], [[]]]` is described by a list of lists of empty TypedDicts, which does not admit it. -/
theorem empties_told_apart_fails :
    ∃ Γ, Hint (exEnv {}) py!"X" (.seq .list .list [.seq .list .list [dictOf []], .seq .list .list [.seq .list .list []]]) Γ ∧
      ¬ Admits Γ (.name py!"X") (.seq .list .list [.seq .list .list [dictOf []], .seq .list .list [.seq .list .list []]]) :=
  rejects_spec (by decide +kernel)

/-- A data frame given by the text of its list of columns and by its columns. -/
def tableOf (columns : Str) (cols : Dct) : Val :=
  .map (.frame ⟨columns, true⟩) ⟨py!"DataFrame", 0⟩ (cols.map (fun c => .str c.1)) (cols.map (·.2))

/-- A column with elements of the given classes. -/
def columnOf (ts : List Ty) : Val := .seq .series ⟨py!"Series", 0⟩ (ts.map (fun t => .inst t none))

/-- `{"raw": [DataFrame({"size": …, "unit price": …}), DataFrame({"size": …})], "sum": DataFrame()}`, with further frames under the
labels `low` and `high` of a frame with two levels. -/
def sampleTables : Val :=
  dictOf [(py!"raw", .seq .list .list [tableOf py!"a" [(py!"size", columnOf [.int, .int]), (py!"unit price", columnOf [.float, .str])],
      tableOf py!"b" [(py!"size", columnOf [.int])]]),
    (py!"sum", tableOf py!"" []),
    (py!"range", tableOf py!"c" [(py!"low", tableOf py!"d" [(py!"x", columnOf [.int])]), (py!"high", tableOf py!"d" [(py!"x", columnOf [.str])])])]

set_option maxRecDepth 8000 in
example : (declsOf (exEnv {}) py!"Config" sampleTables).map (·.takeWhile (· ≠ '\n')) =
    [py!"class ConfigRawDataframe(pd.DataFrame):", py!"class ConfigRawDataframe2(pd.DataFrame):",
     py!"ConfigRaw: TypeAlias = List[Union[ConfigRawDataframe, ConfigRawDataframe2]]",
     py!"ConfigSum: TypeAlias = pd.DataFrame", py!"class ConfigRangeLow(pd.DataFrame):", py!"class ConfigRangeHigh(pd.DataFrame):",
     py!"class ConfigRange(pd.DataFrame):", py!"class Config(TypedDict):"] := by
  decide +kernel

theorem sampleTables_ok : WellBehaved {} py!"Config" sampleTables := wellBehavedB_sound (f := 10) (by decide +kernel)

example : ∃ Γ, Hint (exEnv {}) py!"Config" sampleTables Γ ∧ Admits Γ (.name py!"Config") sampleTables := by
  obtain ⟨Γ, h, _, h', _⟩ := hint_sound_clear_partial (exEnv_fair {}) (by decide) sampleTables_ok
  exact ⟨Γ, h, h'⟩

/-- Data frames side by side are compared by the names of their columns only: of two frames with the same columns, but columns of
other types, the second is lost, and the hint does not admit the list. With the strategy that does not hint columns, the second
of any two frames is lost, although the columns of the first are declared. -/
theorem frames_told_apart_fails :
    (∃ Γ, Hint (exEnv {}) py!"X" (.seq .list .list [tableOf py!"a" [(py!"a", columnOf [.int])], tableOf py!"a" [(py!"a", columnOf [.str])]]) Γ ∧
      ¬ Admits Γ (.name py!"X") (.seq .list .list [tableOf py!"a" [(py!"a", columnOf [.int])], tableOf py!"a" [(py!"a", columnOf [.str])]])) ∧
    ∃ Γ, Hint (exEnv { pandas := .none }) py!"X" (.seq .list .list [tableOf py!"a" [(py!"a", columnOf [.int])], tableOf py!"b" [(py!"b", columnOf [.int])]]) Γ ∧
      ¬ Admits Γ (.name py!"X") (.seq .list .list [tableOf py!"a" [(py!"a", columnOf [.int])], tableOf py!"b" [(py!"b", columnOf [.int])]]) :=
  ⟨rejects_spec (by decide +kernel), rejects_spec (by decide +kernel)⟩

/-- The test refuses the data for which the hint is unsound. -/
example : coherentB {} 10 (.seq .list .list (listsOfTwo.map dictOf)) = false := by decide +kernel

/-! ### Merged dictionaries -/

/-- Where dictionaries share a key, the values cover each other. -/
def SharedCover (S : Strategies) (ds : List Dct) : Prop :=
  ∀ d ∈ ds, ∀ e ∈ ds, ∀ x ∈ d, ∀ y ∈ e, x.1 = y.1 → Covers S x.2 y.2

theorem dictOf_pairs (d : Dct) : (dictOf d).items = d.map (fun kv => (.str kv.1, kv.2)) := by
  simp only [dictOf, Val.items]
  induction d with
  | nil => rfl
  | cons a r ih => simp [ih]

theorem dictOf_record {S : Strategies} (hS : S.dict = .typedDict) (d : Dct) : IsRecord S (dictOf d) := by
  refine ⟨hS, fun k hk => ?_⟩
  obtain ⟨_, _, rfl⟩ := List.mem_map.mp hk
  rfl

theorem alike_dicts {S : Strategies} (hS : S.dict = .typedDict) {d e : Dct} (h : Alike S (dictOf d) (dictOf e)) :
    (∀ s y, (s, y) ∈ d → ∃ z, (s, z) ∈ e) ∧ ∀ s y, (s, y) ∈ e → ∃ z, (s, z) ∈ d := by
  have back : ∀ {f : Dct} {s z}, (Key.str s, z) ∈ (dictOf f).items → (s, z) ∈ f := by
    intro f s z hz
    rw [dictOf_pairs] at hz
    obtain ⟨⟨s', z'⟩, h, e⟩ := List.mem_map.mp hz
    simp only [Prod.mk.injEq, Key.str.injEq] at e
    exact e.1 ▸ e.2 ▸ h
  have fwd : ∀ {f : Dct} {s z}, (s, z) ∈ f → (Key.str s, z) ∈ (dictOf f).items := by
    intro f s z hz
    rw [dictOf_pairs]
    exact List.mem_map.mpr ⟨_, hz, rfl⟩
  unfold dictOf at h
  cases h with
  | leaf h => exact h.elim
  | empty h1 h2 =>
    have h1 : (dictOf d).items = [] := h1.2
    have h2 : (dictOf e).items = [] := h2.2
    refine ⟨fun s y hy => ?_, fun s y hy => ?_⟩
    · have := fwd hy
      rw [h1] at this
      cases this
    · have := fwd hy
      rw [h2] at this
      cases this
  | record R _ _ _ h1 h2 =>
    refine ⟨fun s y hy => ?_, fun s y hy => ?_⟩
    · obtain ⟨w, hw, _⟩ := h1 _ (fwd hy)
      exact ⟨w, back hw⟩
    · obtain ⟨w, hw, _⟩ := h2 _ (fwd hy)
      exact ⟨w, back hw⟩
  | mapping R _ _ hr => exact absurd (dictOf_record hS d) hr

/-- Dictionaries whose shared keys hold values that cover each other make a coherent sequence. -/
theorem coherent_dicts {S : Strategies} (hS : S.dict = .typedDict) {k : SeqKind} {t : Ty} {ds : List Dct} (hi : Inspected S ds.length)
    (hd : ∀ d ∈ ds, Coherent S (dictOf d)) (hs : SharedCover S ds) (ha : ToldApart S (ds.flatMap (·.map (·.2)))) :
    Coherent S (.seq k t (ds.map dictOf)) := by
  have hold : ∀ {k x}, Holding S (ds.map dictOf) k x → ∃ d ∈ ds, ∃ s, (s, x) ∈ d ∧ k = .str s := by
    rintro k x ⟨v, hv, _, hx⟩
    obtain ⟨d, hdm, rfl⟩ := List.mem_map.mp hv
    rw [dictOf_pairs] at hx
    obtain ⟨⟨s, y⟩, hy, e⟩ := List.mem_map.mp hx
    simp only [Prod.mk.injEq] at e
    exact ⟨d, hdm, s, e.2 ▸ hy, e.1.symm⟩
  have flat : ∀ {d : Dct} {s x}, d ∈ ds → (s, x) ∈ d → x ∈ ds.flatMap (·.map (·.2)) := fun hdm hx =>
    List.mem_flatMap.mpr ⟨_, hdm, List.mem_map.mpr ⟨_, hx, rfl⟩⟩
  refine ⟨⟨by simpa using hi, ?_, ?_, ?_⟩, everyList_iff.mpr ?_⟩
  · intro x hx y hy _ hal
    obtain ⟨d, hdm, rfl⟩ := List.mem_map.mp hx
    obtain ⟨e, hem, rfl⟩ := List.mem_map.mp hy
    obtain ⟨a1, a2⟩ := alike_dicts hS hal
    refine .record (fun a b => ∃ s, (s, a) ∈ d ∧ (s, b) ∈ e) (dictOf_record hS d) (by simp) ?_ ?_ ?_
    · intro x
      constructor
      · intro h
        obtain ⟨⟨s, y⟩, hy, rfl⟩ := List.mem_map.mp h
        obtain ⟨z, hz⟩ := a1 s y hy
        exact List.mem_map.mpr ⟨_, hz, rfl⟩
      · intro h
        obtain ⟨⟨s, y⟩, hy, rfl⟩ := List.mem_map.mp h
        obtain ⟨z, hz⟩ := a2 s y hy
        exact List.mem_map.mpr ⟨_, hz, rfl⟩
    · rintro a b ⟨s, h1, h2⟩
      exact hs d hdm e hem _ h1 _ h2 rfl
    · intro kw hkw
      have hkw : kw ∈ (dictOf e).items := hkw
      rw [dictOf_pairs] at hkw
      obtain ⟨⟨s, y⟩, hy, rfl⟩ := List.mem_map.mp hkw
      obtain ⟨z, hz⟩ := a2 s y hy
      refine ⟨z, ?_, s, hz, hy⟩
      show (Key.str s, z) ∈ (dictOf d).items
      rw [dictOf_pairs]
      exact List.mem_map.mpr ⟨_, hz, rfl⟩
  · intro k x k' y hx hy
    obtain ⟨d, hdm, s, hx, _⟩ := hold hx
    obtain ⟨d', hdm', s', hy, _⟩ := hold hy
    exact ha x (flat hdm hx) y (flat hdm' hy)
  · intro k x y hx hy
    obtain ⟨d, hdm, s, hx, e⟩ := hold hx
    obtain ⟨d', hdm', s', hy, e'⟩ := hold hy
    exact hs d hdm d' hdm' _ hx _ hy (by rw [e] at e'; exact Key.str.inj e')
  · intro v hv
    obtain ⟨d, hdm, rfl⟩ := List.mem_map.mp hv
    exact hd d hdm

/-- **C31** (partial). The hint of a sequence of dictionaries admits all of them, merged or not, if values under shared keys
cover each other and the values in the dictionaries are told apart. The dictionaries may contain further sequences of
dictionaries that are merged, and all kinds of collections. -/
theorem merge_sound_coherent_partial {E : Env} (hE : E.Fair) (hm : 0 < E.S.merge) (hS : E.S.dict = .typedDict) {k : SeqKind}
    {name : Str} {t : Ty} {ds : List Dct} (hc : CamelName name) (hd : ∀ d ∈ ds, Coherent E.S (dictOf d))
    (hs : SharedCover E.S ds) (ha : ToldApart E.S (ds.flatMap (·.map (·.2)))) (hi : Inspected E.S ds.length)
    (hn : Neat (.seq k t (ds.map dictOf))) (hf : Fresh name (.seq k t (ds.map dictOf))) {n : Node}
    (hb : fromData E name (.seq k t (ds.map dictOf)) = .ok n) :
    ∃ strs Γ, nodeStrings E n false = .ok strs ∧ readText strs = some Γ ∧
      ((Γ.map (·.name)).Nodup → Admits Γ (.name name) (.seq k t (ds.map dictOf))) := by
  obtain ⟨strs, Γ, h1, h2, h3⟩ := hint_sound_coherent_partial hE hm hc (coherent_dicts hS hi hd hs ha) hn hf hb
  exact ⟨strs, Γ, h1, h2, fun h => (h3 h).1⟩

/-! ### Equal trees -/

/-- **C33** (partial). If coherent data have trees that are considered equal, the values are of the same kind and alike. -/
theorem equal_alike_partial {E : Env} (hE : E.Fair) (hm : 0 < E.S.merge) {name name' : Str} {v w : Val}
    (ht : Coherent E.S v) (hn : Neat v) (ht' : Coherent E.S w) (hn' : Neat w) {n m : Node} (hb : fromData E name v = .ok n)
    (hb' : fromData E name' w = .ok m) (he : nodeEq E.S n m = true) : SameKind v w ∧ Alike E.S v w := by
  obtain ⟨_, h2, _⟩ := regular_build hE hm (plainAt_regular (coherent_plainAt ht) hn) hb
  obtain ⟨_, h2', _⟩ := regular_build hE hm (plainAt_regular (coherent_plainAt ht') hn') hb'
  exact ((build_for hE hm _ _ _ _ _ ht h2).equal (build_for hE hm _ _ _ _ _ ht' h2') (coherent_at ht) (coherent_at ht') he).1

/-- **C33** (partial). If moreover alike values of the same kind cover each other, the hint of one admits the other. -/
theorem equal_sound_coherent_partial {E : Env} (hE : E.Fair) (hm : 0 < E.S.merge) {name name' : Str} {v w : Val}
    (hc : CamelName name) (ht : Coherent E.S v) (hn : Neat v) (hf : Fresh name v) (ht' : Coherent E.S w) (hn' : Neat w)
    (ha : ToldApart E.S [v, w]) {n m : Node} (hb : fromData E name v = .ok n) (hb' : fromData E name' w = .ok m)
    (he : nodeEq E.S n m = true) {strs : List Str} {Γ : List TDecl} (hs : nodeStrings E n false = .ok strs)
    (hr : readText strs = some Γ) (hnd : (Γ.map (·.name)).Nodup) : Admits Γ (.name name) w := by
  obtain ⟨h1, h2⟩ := equal_alike_partial hE hm ht hn ht' hn' hb hb' he
  obtain ⟨strs', Γ', k1, k2, k3⟩ := hint_sound_coherent_partial hE hm hc ht hn hf hb
  rw [hs] at k1
  cases k1
  rw [hr] at k2
  cases k2
  exact (k3 hnd).2 w (ha v (by simp) w (by simp) h1 h2)

end Verif.Props
