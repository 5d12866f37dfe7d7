import Verif.Model.Names
import Verif.Go.Regex
/-
Format options (data_format_config.go), step files (stepfile/stepfile.go) and valid names
(validate/validate.go).
-/
set_option autoImplicit false
namespace Verif.Config
open Names

/-! ### Format options (data_format_config.go) -/

/-- a value of an options map: decoded data, or the rune that `CSVOptions.Map` stores -/
inductive OptVal where
  | val (v : Val)
  | rune (r : Int)
deriving DecidableEq

/-- a `map[string]interface{}`, possibly nil -/
abbrev Opts := Option (List (Bytes × OptVal))

/-- data_format_config.go:77-92 `CSVOptions` -/
structure CSVOptions where
  headerRow : Bool := false
  lazyQuotes : Bool := false
  separator : Int := 0
  variadicFields : Bool := false
deriving DecidableEq

/-- `opts[k]` is not nil -/
def optGet (m : List (Bytes × OptVal)) (k : Bytes) : Option OptVal :=
  match mapGet m k with
  | some (.val .null) => none
  | x => x

/-- data_format_config.go:37-43 and alike: a boolean option; none for an error -/
def boolOpt (m : List (Bytes × OptVal)) (k : Bytes) : Option Bool :=
  match optGet m k with
  | none => some false
  | some (.val (.bool b)) => some b
  | some _ => none

/-- data_format_config.go:53-62: the separator; none for an error -/
def sepOpt (m : List (Bytes × OptVal)) : Option Int :=
  match optGet m b!"separator" with
  | none => some 0
  | some (.val (.str [c])) => some c.toNat
  | some _ => none

/-- data_format_config.go:31-73 `NewCSVOptions`; none for an error -/
def newCSVOptions (opts : Opts) : Option CSVOptions :=
  match opts with
  | none => some {}
  | some m => do
    let h ← boolOpt m b!"headerRow"
    let l ← boolOpt m b!"lazyQuotes"
    let s ← sepOpt m
    let v ← boolOpt m b!"variadicFields"
    pure { headerRow := h, lazyQuotes := l, separator := s, variadicFields := v }

/-- data_format_config.go:100-118 `Map` of options that are not nil -/
def CSVOptions.map (o : CSVOptions) : List (Bytes × OptVal) :=
  let m := []
  let m := if o.headerRow then mapSet m b!"headerRow" (.val (.bool true)) else m
  let m := if o.lazyQuotes then mapSet m b!"lazyQuotes" (.val (.bool true)) else m
  let m := if o.variadicFields then mapSet m b!"variadicFields" (.val (.bool true)) else m
  if o.separator ≠ 0 then mapSet m b!"separator" (.rune o.separator) else m

/-- data_format_config.go:21-26 (`NewJSONOptions`): the options are the map -/
def newJSONOptions (opts : Opts) : List (Bytes × OptVal) := opts.getD []

/-- data_format_config.go:153-168 `NewXLSXOptions`; none for an error -/
def newXLSXOptions (opts : Opts) : Option Bytes :=
  match opts with
  | none => some []
  | some m =>
    match optGet m b!"sheetName" with
    | none => some []
    | some (.val (.str s)) => some s
    | some _ => none

/-- data_format_config.go:176-186 `Map` -/
def xlsxMap (sheet : Bytes) : List (Bytes × OptVal) := if sheet ≠ [] then [(b!"sheetName", .val (.str sheet))] else []

/-- the three implementations of `FormatConfig` -/
inductive FormatConfig where
  | csv (o : CSVOptions)
  | json (m : List (Bytes × OptVal))
  | xlsx (sheet : Bytes)
deriving DecidableEq

/-- data_format_config.go:17-28 `ParseFormatConfigMap` -/
def parseFormatConfigMap (f : DataFormat) (opts : Opts) : Option FormatConfig :=
  match f with
  | .csv => (newCSVOptions opts).map .csv
  | .json => some (.json (newJSONOptions opts))
  | .xlsx => (newXLSXOptions opts).map .xlsx
  | _ => none

def FormatConfig.format : FormatConfig → DataFormat
  | .csv _ => .csv
  | .json _ => .json
  | .xlsx _ => .xlsx

def FormatConfig.map : FormatConfig → List (Bytes × OptVal)
  | .csv o => o.map
  | .json m => m
  | .xlsx s => xlsxMap s

/-! ### Step files (stepfile/stepfile.go) -/

/-- what the script of a step can be: a reader with this content, a string, bytes, or something else -/
inductive Script where
  | reader (content : Bytes)
  | str (s : Bytes)
  | bytes (s : Bytes)
  | other
deriving DecidableEq

/-- stepfile.go:64-82 `writeStepScript`: the bytes written, none for an error -/
def Script.text : Script → Option Bytes
  | .reader s => some s
  | .str s => some s
  | .bytes s => some s
  | .other => none

def sep : Bytes := b!"\n---\n"

/-- stepfile.go:52-62 `Write`: what is written, and whether it ended without an error (writes do not fail) -/
def write : List Script → Bytes × Bool
  | [] => ([], true)
  | s :: l =>
    match s.text with
    | none => ([], false)
    | some t =>
      if l = [] then (t, true)
      else
        let r := write l
        (t ++ sep ++ r.1, r.2)

/-- `strings.Split(s, sep)` for a separator that is not empty: `cur` is the piece so far, reversed -/
def splitAux (sep : Bytes) : Nat → Bytes → Bytes → List Bytes
  | _, [], cur => [cur.reverse]
  | 0, s, cur => [cur.reverse ++ s]
  | f + 1, c :: s, cur =>
    if sep.isPrefixOf (c :: s) then cur.reverse :: splitAux sep f ((c :: s).drop sep.length) []
    else splitAux sep f s (c :: cur)

/-- `strings.Split` -/
def split (sep s : Bytes) : List Bytes := splitAux sep s.length s []

/-- stepfile.go:37-49 `Read`: every step has a string as its script -/
def read (data : Bytes) : List Script := (split sep data).map .str

/-! ### Valid names (validate/validate.go) -/

/-- validate.go:11 -/
def alphaNumericRegex : Re := .seq (.cls isLetter) (.upTo 143 (.cls isWord))

/-- validate.go:20-32 `ValidName`: whether there is no error.  `FindString` returns the empty string if nothing matches; the
expression is anchored on both sides and matches no empty text. -/
def validName (name : Bytes) : Bool := if name = [] then false else alphaNumericRegex.full name

end Verif.Config
