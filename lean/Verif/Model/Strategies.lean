import Verif.Py.Str
namespace Verif

/-- Field values of `ParsingStrategies` before validation (lazy_type_hint/strategies.py:10-20). The enumerated
fields are arbitrary strings at run time. `checkMax = none` is Python's `None`. -/
structure RawStrategies where
  list : Str := py!"list"
  tuple : Str := py!"fixed"
  dict : Str := py!"TypedDict"
  pandas : Str := py!"Full type hint"
  minHeight : Int := 1
  keyDoc : Str := []
  merge : Int := 50
  readOnly : Bool := false
  checkMax : Option Int := some 500

inductive ListStrategy | list | sequence deriving DecidableEq
inductive TupleStrategy | fixed | anySize deriving DecidableEq
inductive DictStrategy | typedDict | mapping | dict deriving DecidableEq
inductive PandasStrategy | full | autocomplete | none deriving DecidableEq

/-- Validated strategies, as used by the rest of the model. `checkMax = 0` stands for "no limit": the code only
tests the truth value of the field (e.g. set_and_sequence_operations.py:49), so `None` and `0` are the same. -/
structure Strategies where
  list : ListStrategy := .list
  tuple : TupleStrategy := .fixed
  dict : DictStrategy := .typedDict
  pandas : PandasStrategy := .full
  minHeight : Nat := 1
  keyDoc : Str := []
  merge : Nat := 50
  readOnly : Bool := false
  checkMax : Nat := 500

inductive StrategyError
  /-- "Invalid value for {field}" -/
  | badValue
  | minHeightNegative
  | mergeTooLow
  | mergeTooHigh
  | checkMaxTooLow
  deriving DecidableEq

def parseList (s : Str) : Option ListStrategy :=
  if s = py!"Sequence" then some .sequence else if s = py!"list" then some .list else none
def parseTuple (s : Str) : Option TupleStrategy :=
  if s = py!"fixed" then some .fixed else if s = py!"any size" then some .anySize else none
def parseDict (s : Str) : Option DictStrategy :=
  if s = py!"TypedDict" then some .typedDict else if s = py!"Mapping" then some .mapping
  else if s = py!"dict" then some .dict else none
def parsePandas (s : Str) : Option PandasStrategy :=
  if s = py!"Full type hint" then some .full
  else if s = py!"Type hint only for autocomplete" then some .autocomplete
  else if s = py!"Do not type hint columns" then some .none else none

/-- `ParsingStrategies.__post_init__` (strategies.py:22-43). The loop over `fields` reads the allowed values from
the annotations; it is unfolded here for the four `Literal` fields. For `Optional[int]`, `get_args` gives
`(int, NoneType)`, which are not strings, so that field is not checked by the loop. -/
def postInit (r : RawStrategies) : Except StrategyError Strategies :=
  match parseList r.list, parseTuple r.tuple, parseDict r.dict, parsePandas r.pandas with
  | some l, some t, some d, some p =>
    if r.minHeight < 0 then .error .minHeightNegative
    else if r.merge ≤ 0 then .error .mergeTooLow
    else if r.merge > 100 then .error .mergeTooHigh
    else
      let lim := r.checkMax.getD 0
      if lim ≠ 0 ∧ lim ≤ 0 then .error .checkMaxTooLow
      else .ok { list := l, tuple := t, dict := d, pandas := p, minHeight := r.minHeight.toNat,
                 keyDoc := r.keyDoc, merge := r.merge.toNat, readOnly := r.readOnly, checkMax := lim.toNat }
  | _, _, _, _ => .error .badValue

end Verif
