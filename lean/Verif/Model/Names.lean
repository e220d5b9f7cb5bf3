import Verif.Py.Unicode
namespace Verif

/-- `is_string_python_keyword_compatible` (lazy_type_hint/utils/utils.py:10-20):
`string.replace("_", "").isalnum() and not string[0].isnumeric()`. `isalnum` of the empty string is false, so
`string[0]` is only evaluated on non-empty strings. -/
def nameOk (U : Uni) (s : Str) : Bool :=
  let t := s.filter (· != '_')
  (!t.isEmpty && t.all U.isAlnum) &&
    match s with
    | [] => false
    | c :: _ => !U.isNumeric c

/-- Loop of `_to_camel_case` (generic_type/mapping_data_type_tree.py:104-117): the list of slots `new_string`;
a slot is empty when its character was removed. -/
def camelSlots (U : Uni) : Bool → Str → List Str
  | _, [] => []
  | removed, c :: r =>
    if !U.isAlpha c && !U.isNumeric c then [] :: camelSlots U true r
    else if removed then U.upper c :: camelSlots U false r
    else [c] :: camelSlots U false r

/-- The part of `_to_camel_case` after the leading digits were cut (mapping_data_type_tree.py:104-123). -/
def camelBody (U : Uni) (s : Str) : Str :=
  match camelSlots U false s with
  | [] => s
  | x :: r => U.upperStr x ++ r.flatten

/-- `MappingDataTypeTree._to_camel_case` (mapping_data_type_tree.py:93-123). `re.match(r"^\d+", s)` is the
maximal prefix of decimal digits. -/
def toCamel (U : Uni) (s : Str) : Str :=
  let rest := s.dropWhile U.isDecimal
  if rest.length < s.length then          -- a digit prefix was matched
    (if rest.isEmpty then s else camelBody U rest)
  else camelBody U s

/-- `keyword.kwlist` of Python 3.8–3.13 (hard keywords). -/
def kwlist : List Str :=
  [py!"False", py!"None", py!"True", py!"and", py!"as", py!"assert", py!"async", py!"await", py!"break",
   py!"class", py!"continue", py!"def", py!"del", py!"elif", py!"else", py!"except", py!"finally", py!"for",
   py!"from", py!"global", py!"if", py!"import", py!"in", py!"is", py!"lambda", py!"nonlocal", py!"not",
   py!"or", py!"pass", py!"raise", py!"return", py!"try", py!"while", py!"with", py!"yield"]

end Verif
