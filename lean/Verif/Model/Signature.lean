import Verif.Model.Imports
namespace Verif

/-- A character matched by `[^\s,]`. -/
def hintChar (c : Char) : Bool := !isSpace c && c != ','

/-- `re.findall(r":\s*([^\s,]+)", s)` (lazy_type_hint/utils/import_manager.py:98). `skip` counts characters that belong
to the match just found. -/
def colonHints : Nat → Str → List Str
  | _, [] => []
  | skip + 1, _ :: r => colonHints skip r
  | 0, c :: r =>
    if c = ':' then
      let rest := lstrip r
      let hint := rest.takeWhile hintChar
      if hint.isEmpty then colonHints 0 r else hint :: colonHints ((r.length - rest.length) + hint.length) r
    else colonHints 0 r

/-- `re.search(r"->\s*([^\s,]+|$)", s)`, group 1 (import_manager.py:103-106). -/
def arrowHint : Str → Option Str
  | [] => none
  | c :: r =>
    if startsWith (c :: r) py!"->" then
      let rest := lstrip (r.drop 1)
      let hint := rest.takeWhile hintChar
      if hint.isEmpty && !rest.isEmpty then arrowHint r else some hint
    else arrowHint r

/-- Characters matched by `\w`. -/
def wordChar (U : Uni) (c : Char) : Bool := U.isAlnum c || c == '_'

/-- Worker of `re.findall(r"\b\w+\b", s)`: `cur` is the current run, reversed. -/
def symbolsAux (U : Uni) : Str → Str → List Str
  | cur, [] => if cur.isEmpty then [] else [cur.reverse]
  | cur, c :: r =>
    if wordChar U c then symbolsAux U (c :: cur) r
    else if cur.isEmpty then symbolsAux U [] r else cur.reverse :: symbolsAux U [] r

/-- `re.findall(r"\b\w+\b", s)` (import_manager.py:112): the maximal runs of word characters. -/
def symbols (U : Uni) (s : Str) : List Str := symbolsAux U [] s

/-- `_cast_symbol` (import_manager.py:118-122). -/
def castSymbol (s : Str) : Str :=
  if s = py!"List" then py!"list" else if s = py!"Tuple" then py!"tuple" else if s = py!"Set" then py!"set"
  else if s = py!"Dict" then py!"dict" else s

/-- `_import_symbols` (import_manager.py:110-116): the keywords added for one hint. -/
def importSymbols (U : Uni) (hint : Str) : List Str :=
  ((symbols U hint).map castSymbol).filter (fun s => (packageOf s).isSome)

/-- `import_all_unkown_symbols_from_signature` (import_manager.py:91-108): the keywords added for a signature. -/
def sigImports (U : Uni) (sig : Str) : List Str :=
  (colonHints 0 sig).flatMap (fun h => importSymbols U (replace py!"):" [] (rstrip (strip h)))) ++
  (match arrowHint sig with
   | some h => importSymbols U (rstripChar ':' h)
   | none => [])

end Verif
