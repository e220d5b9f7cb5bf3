import Verif.Props.Frames
import Verif.Props.Order
/-
C69 for frames whose columns get different names.
-/
namespace Verif.Props
open Verif Verif.Spec

/-- A type written for a column: the name of the one declaration in the text that describes the column, or the type that this
declaration would have. -/
def ColumnHintOnce (E : Env) (strs : List Str) (fuel : Nat) (v : Val) (type : Str) : Prop :=
  ∃ (declared : Str) (k : Node), build E fuel false declared v = .ok k ∧
    (type = declared ∧ strs.filter (fun s => declName s = declared) = [(k.render E).top.text] ∨ type = withoutLvalue (k.render E).top.text)

theorem filter_name_single {α β} [DecidableEq β] (f : α → β) : ∀ {l : List α}, (l.map f).Nodup → ∀ {a}, a ∈ l →
    l.filter (fun x => f x = f a) = [a]
  | [], _, _, h => by simp at h
  | x :: r, hn, a, h => by
    rw [List.map_cons, List.nodup_cons] at hn
    rcases List.mem_cons.mp h with rfl | h
    · rw [List.filter_cons_of_pos (by simp)]
      congr 1
      rw [List.filter_eq_nil_iff]
      intro y hy
      have : f y ≠ f a := fun e => hn.1 (by rw [← e]; exact List.mem_map_of_mem hy)
      simpa using this
    · rw [List.filter_cons_of_neg, filter_name_single f hn.2 h]
      have : f x ≠ f a := fun e => hn.1 (by rw [e]; exact List.mem_map_of_mem h)
      simpa using this

/-- **C69, partial.** If the names of a frame are clear, each column with a name of its own is described by the one declaration of this name.
Missing: labels other than strings that begin with a letter and contribute differently to names. -/
theorem frame_columns_clear_partial {E : Env} (hE : E.Fair) (hm : 0 < E.S.merge) {name : Str} {t : Ty} {i : FrameInfo} {ks : List Key}
    {vs : List Val} (hl : ks.length = vs.length) (hne : ks ≠ []) (hv : Regular E.U (.map (.frame i) t ks vs))
    (hs : ClearNames E.S (.map (.frame i) t ks vs)) (hlt : ValAll LetterFirst (fun _ => True) (fun _ => True) (.map (.frame i) t ks vs))
    (hc : CamelName name) {n : Node} (hn : fromData E name (.map (.frame i) t ks vs) = .ok n) :
    ∃ (strs : List Str) (cols : List Column), nodeStrings E n false = .ok strs ∧
      (match E.S.pandas with
        | .full => closedFrame name cols
        | _ => openFrame name cols) ∈ strs ∧
      All₂ (fun kv c => literalOf E.reprStr kv.1 = some c.label ∧ ColumnHintOnce E strs (depthList vs + 1) kv.2 c.type) (ks.zip vs) cols := by
  obtain ⟨strs, h1, _, h3⟩ := one_definition_partial hE hm hv hs hlt hc hn
  have hk : ∀ k ∈ ks, ∃ l, literalOf E.reprStr k = some l := by
    intro k hk
    have := hs.1.1.2.1 k hk
    cases k with
    | str s => exact ⟨_, rfl⟩
    | none => exact this.elim
    | other t r => exact this.elim
  obtain ⟨cols, h4, h5⟩ := frame_columns_made E name t i ks vs hl hne hk n strs hn h1
  refine ⟨strs, cols, h1, h4, All₂.imp (fun kv c h => ⟨h.1, ?_⟩) h5⟩
  obtain ⟨k, hkn, hb, h⟩ := h.2
  refine ⟨k.name, k, hb, h.imp (fun h => ⟨h.1, ?_⟩) id⟩
  obtain ⟨_, hp, ht⟩ := h
  obtain ⟨g1, g2, g3, g4, g5, _⟩ := regular_build hE hm hv hn
  cases n with
  | mk hd kids =>
    have hreg : NodeAll (RegHdr E name) k := nodeAllList_iff.mp g3.2 k hkn
    have hcor : Corr (k.render E) (k.abs E) := out_corr (nodeAll_imp (fun _ h => h.2.2) hreg)
    have he : (k.render E).top.text = (k.abs E).decl.print := hcor.top hp
    have hname : declName (k.render E).top.text = k.name := by
      have hx := (nodeAll_hdr hreg).1
      have hdn : (k.abs E).decl.name = k.name := abs_name
      rw [he, declName_print, hdn]
      · rw [hdn]; exact word_ident hx.2
      · rw [hdn]
        obtain ⟨c, r, rfl, hu', _⟩ := hc
        intro e
        have := hx.1
        change _ <+: k.name at this
        rw [e] at this
        obtain ⟨s, e'⟩ := this
        injection e' with e' _
        subst e'
        revert hu'; decide
    rw [← hname]
    exact filter_name_single declName h3 ht

/-- A frame with two levels of labels: `prices` over `low` and `high`, `dates` over `first`. -/
def sampleColumns : Val :=
  sampleFrame [(.str py!"prices", sampleFrame [(.str py!"low", sampleSeries .float), (.str py!"high", sampleSeries .float)]),
    (.str py!"dates", sampleFrame [(.str py!"first", sampleSeries .str)])]

/-- `sampleColumns` meets the hypotheses. -/
example : declsOf (exEnv {}) py!"Table" sampleColumns =
      [closedFrame py!"TablePrices" [⟨py!"'low'", py!"pd.Series[float]"⟩, ⟨py!"'high'", py!"pd.Series[float]"⟩],
       closedFrame py!"TableDates" [⟨py!"'first'", py!"pd.Series[str]"⟩],
       closedFrame py!"Table" [⟨py!"'prices'", py!"TablePrices"⟩, ⟨py!"'dates'", py!"TableDates"⟩]] ∧
    Regular (exEnv {}).U sampleColumns ∧ ClearNames (exEnv {}).S sampleColumns ∧
    ValAll LetterFirst (fun _ => True) (fun _ => True) sampleColumns ∧ CamelName py!"Table" := by
  refine ⟨by decide +kernel, plain_regular (by decide +kernel), clearB_spec (by decide +kernel), ?_, ⟨'T', py!"able", rfl, by decide, by decide⟩⟩
  have h1 : LetterFirst ⟨py!"DataFrame", 0⟩ := ⟨_, _, rfl, by decide, by decide⟩
  have h2 : LetterFirst ⟨py!"Series", 0⟩ := ⟨_, _, rfl, by decide, by decide⟩
  have h3 : LetterFirst .float := ⟨_, _, rfl, by decide, by decide⟩
  have h4 : LetterFirst .str := ⟨_, _, rfl, by decide, by decide⟩
  simp only [sampleColumns, sampleFrame, sampleSeries, ValAll, ValAllList, List.map_cons, List.map_nil, h1, h2, h3, h4, implies_true, and_self]

end Verif.Props
