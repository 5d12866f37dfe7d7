import Verif.Go.Csv
import Verif.Go.JsonParse
import Verif.Model.Config
import Verif.Model.Vals
import Verif.Model.Tabular
import Verif.Model.ReplaceCr
import Verif.Model.Streams
import Verif.Model.Names
/-
Bodies of rows: dsio/csv.go and the cells of dsio/xlsx.go.  (De)compression and the spreadsheet library are
not modelled.
-/
set_option autoImplicit false
namespace Verif.CsvIO

/-- library functions on floats: `strconv.ParseFloat(s, 64)`, `strconv.FormatFloat(x, 'f', -1, 64)` and the
JSON coding of floats -/
structure Lib where
  parse64 : Bytes → Option UInt64
  fmtF : UInt64 → Bytes
  F : FloatCodec

/-- `json.Unmarshal` into a map; null gives the nil map, which is not told apart from the empty one -/
def unmarshalObject (F : FloatCodec) (s : Bytes) : Option Val :=
  match JsonStd.unmarshal F s with
  | some (.obj m) => some (.obj m)
  | some .null => some (.obj [])
  | _ => none

/-- `json.Unmarshal` into a slice; null gives the nil slice, which is not told apart from the empty one -/
def unmarshalArray (F : FloatCodec) (s : Bytes) : Option Val :=
  match JsonStd.unmarshal F s with
  | some (.arr l) => some (.arr l)
  | some .null => some (.arr [])
  | _ => none

/-- csv.go:130-158 (and xlsx.go:102-130): one cell -/
def decodeCell (L : Lib) (type str : Bytes) : Val :=
  if type = b!"number" then
    match L.parse64 str with
    | some x => .f64 x
    | none => .str str
  else if type = b!"integer" then
    match Vals.parseInteger str with
    | some i => .int i
    | none => .str str
  else if type = b!"boolean" then
    match Vals.parseBool str with
    | some b => .bool b
    | none => .str str
  else if type = b!"object" then
    match unmarshalObject L.F str with
    | some v => v
    | none => .str str
  else if type = b!"array" then
    match unmarshalArray L.F str with
    | some v => v
    | none => .str str
  else if type = b!"null" then .null
  else .str str

/-- csv.go:130-158: the loop over the cells; there are enough types -/
def decodeCells (L : Lib) : List Bytes → List Bytes → List Val
  | t :: types, s :: strs => decodeCell L t s :: decodeCells L types strs
  | _, _ => []

/-- csv.go:119-161 (and xlsx.go:91-133) `decode` -/
def decode (L : Lib) (types strs : List Bytes) : List Val :=
  decodeCells L (if types.length < strs.length then strs.map fun _ => b!"string" else types) strs

/-- `json.Marshal` where an error leaves the cell empty (csv.go:258-265) -/
def marshalOrEmpty (F : FloatCodec) (v : Val) : Bytes := if jsonOK v then enc F v else []

/-- csv.go:247-276: one cell; values of other types leave it empty -/
def encodeCell (L : Lib) : Val → Bytes
  | .str s => s
  | .gint i => fmtInt i
  | .int i => fmtInt i
  | .f64 x => L.fmtF x
  | .arr l => marshalOrEmpty L.F (.arr l)
  | .obj m => marshalOrEmpty L.F (.obj m)
  | .bool b => if b then b!"true" else b!"false"
  | .null => []
  | .bytes _ => []

/-- csv.go:242-280 `encode` -/
def encode (L : Lib) (vs : List Val) : List Bytes := vs.map (encodeCell L)

/-! ### Opening -/

inductive Opened (α : Type) where
  | ok (a : α)
  | err
  | panics

/-- csv.go:37-46 and 189-199: the first type of every column; indexing panics for a column without types -/
def firstTypes : List Tabular.Column → Opened (List Bytes)
  | [] => .ok []
  | c :: cols =>
    match c.type with
    | [] => .panics
    | t :: _ =>
      match firstTypes cols with
      | .ok ts => .ok (t :: ts)
      | x => x

/-- columns and types for a schema -/
def openColumns (order : Nat → List (Bytes × Val) → List (Bytes × Val)) (sch : List (Bytes × Val)) : Opened (List Tabular.Column × List Bytes) :=
  match Tabular.fromSchema order sch with
  | .error _ => .err
  | .ok (cols, _) =>
    match firstTypes cols with
    | .ok ts => .ok (cols, ts)
    | .err => .err
    | .panics => .panics

/-- csv.go:55-65, 165-173, 206-226: the options in force; a configuration that does not parse counts as none -/
def options (config : Config.Opts) : Config.CSVOptions := (Config.newCSVOptions config).getD {}

/-- settings of the CSV library; separator 0 stands for a comma -/
def cfg (o : Config.CSVOptions) : Csv.Cfg := { comma := if o.separator = 0 then 44 else o.separator.toNat, lazy := o.lazyQuotes }

/-! ### Reading -/

structure RState where
  readHeader : Bool := false
  csv : Csv.RState
deriving DecidableEq

/-- the reader at the beginning of a text, as it arrives from the carriage return repair -/
def start (o : Config.CSVOptions) (text : Bytes) : RState :=
  { csv := { rest := Csv.norm text, fpr := if o.variadicFields then -1 else 0 } }

/-- texts of errors are not modelled except for the end -/
def failure : Csv.Err → Streams.RErr
  | .eof => .eof
  | _ => .other b!"csv"

/-- csv.go:94-107: a row after the header -/
def readRow (L : Lib) (o : Config.CSVOptions) (types : List Bytes) (c : Csv.RState) : Streams.RRes × RState :=
  match Csv.read (cfg o) c with
  | (.error e, c) => (.fail (failure e), { readHeader := true, csv := c })
  | (.ok fs, c) => (.entry { value := .arr (decode L types fs) }, { readHeader := true, csv := c })

/-- csv.go:81-107 `ReadEntry` -/
def reader (L : Lib) (o : Config.CSVOptions) (types : List Bytes) : Streams.Reader RState := fun st =>
  if !st.readHeader && o.headerRow then
    match Csv.read (cfg o) st.csv with
    | (.error e, c) => (.fail (failure e), { readHeader := false, csv := c })
    | (.ok _, c) => readRow L o types c
  else readRow L o types st.csv

/-! ### Writing -/

/-- `Write` of the CSV library on everything written so far -/
def writeRecord (c : Csv.Cfg) (strs : List Bytes) (out : Bytes) : Option Bytes × Bytes :=
  if Csv.validDelim c.comma then (none, out ++ Csv.recordText (utf8Enc c.comma) strs) else (some b!"csv", out)

/-- csv.go:220-226: what a new writer has written already; the error is dropped -/
def header (o : Config.CSVOptions) (cols : List Tabular.Column) : Bytes :=
  if o.headerRow then (writeRecord (cfg o) (Tabular.titles cols) []).2 else []

/-- csv.go:229-240 `WriteEntry` -/
def writer (L : Lib) (o : Config.CSVOptions) : Streams.Writer Bytes := fun e out =>
  match e.value with
  | .arr vs => writeRecord (cfg o) (encode L vs) out
  | _ => (some b!"expected array value to write csv row", out)

/-! ### Cells of spreadsheets -/

/-- xlsx.go:226-264 `encodeStrings` -/
def encodeStrings (L : Lib) : List Val → Option (List Bytes)
  | [] => some []
  | v :: vs =>
    match v with
    | .bytes _ => none
    | .arr l => if jsonOK (.arr l) then (encodeStrings L vs).map (enc L.F (.arr l) :: ·) else none
    | .obj m => if jsonOK (.obj m) then (encodeStrings L vs).map (enc L.F (.obj m) :: ·) else none
    | .null => (encodeStrings L vs).map ([] :: ·)
    | .gint i => (encodeStrings L vs).map (fmtInt i :: ·)
    | .int i => (encodeStrings L vs).map (fmtInt i :: ·)
    | .f64 x => (encodeStrings L vs).map (L.fmtF x :: ·)
    | .bool b => (encodeStrings L vs).map ((if b then b!"true" else b!"false") :: ·)
    | .str s => (encodeStrings L vs).map (s :: ·)

/-- the writer of a spreadsheet: rows written, and the calls of `SetCellValue` so far as (address, text) -/
structure Sheet where
  rowsWritten : Nat := 0
  cells : List (Bytes × Bytes) := []

/-- xlsx.go:215-217 `axis` -/
def axis (rowsWritten col : Nat) : Bytes := Names.colIndexToLetters col ++ fmtInt ((rowsWritten : Int) + 1)

/-- xlsx.go:206-208: the loop setting the cells of a row from column `i` on -/
def setCells (rowsWritten : Nat) : Nat → List Bytes → List (Bytes × Bytes)
  | _, [] => []
  | i, s :: strs => (axis rowsWritten i, s) :: setCells rowsWritten (i + 1) strs

/-- xlsx.go:199-213 `WriteEntry` -/
def xlsxWriter (L : Lib) : Streams.Writer Sheet := fun e st =>
  match e.value with
  | .arr vs =>
    match encodeStrings L vs with
    | none => (some b!"error encoding entry", st)
    | some strs => (none, { rowsWritten := st.rowsWritten + 1, cells := st.cells ++ setCells st.rowsWritten 0 strs })
  | _ => (some b!"expected array value to write xlsx row", st)

/-- state of the reader of a spreadsheet: rows to come (as the library gives them) and the index -/
structure XRState where
  rows : List (List Bytes)
  idx : Int := 0

/-- xlsx.go:70-86 `ReadEntry` of a reader that opened without error -/
def xlsxReader (L : Lib) (types : List Bytes) : Streams.Reader XRState := fun st =>
  match st.rows with
  | [] => (.fail .eof, st)
  | r :: rows => (.entry { index := st.idx, value := .arr (decode L types r) }, { rows := rows, idx := st.idx + 1 })

end Verif.CsvIO
