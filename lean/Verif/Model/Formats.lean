import Verif.Model.Csv
import Verif.Model.Ndjson
import Verif.Model.Doc
/-
Readers and writers made for a structure: `NewEntryReader`, `NewEntryWriter`, compression and `ConvertFile`
(dsio/dsio.go), `EntryBuffer` (dsio/entry_buffer.go), and the constructors of all formats.

Compression is a library: `pack` is what a closed compressor has written for everything put into it, `unpack` what a
decompressor delivers, or none when it cannot be made.  (A decompressor that fails in the middle is not represented.)
The JSON reader is the one of `Model/Json`, for which the sizes of buffers and reads do not matter.
-/
set_option autoImplicit false
namespace Verif.Formats
open Verif.Streams Verif.Doc

/-- what the libraries do: floats, iteration over maps, compression, spreadsheets, and how a text arrives at the
carriage return repair (sizes of the reads) -/
structure Env where
  L : CsvIO.Lib
  order : Nat → List (Bytes × Val) → List (Bytes × Val)
  reads : Bytes → List Nat
  pack : Names.Compression → Bytes → Bytes
  unpack : Names.Compression → Bytes → Option Bytes
  /-- `excelize.OpenReader`, and then the rows of a sheet by name -/
  openBook : Bytes → Option (Bytes → Option (List (List Bytes)))
  /-- `WriteTo` of a new file with one more sheet of this name -/
  saveBook : Bytes → CsvIO.Sheet → Bytes

/-- dsio.go:103-113 `maybeWrapDecompressor`; none for an error -/
def decompress (E : Env) (st : Structure) (src : Bytes) : Option Bytes :=
  if st.compression = [] then some src
  else
    match Names.parseCompression st.compression with
    | none => none
    | some c => E.unpack c src

/-- dsio.go:115-125 `maybeWrapCompressor`: what becomes of the bytes written -/
def compressor (E : Env) (st : Structure) : Option (Bytes → Bytes) :=
  if st.compression = [] then some id
  else
    match Names.parseCompression st.compression with
    | none => none
    | some c => some (E.pack c)

/-- structure.go:122-125 `DataFormat`: the error is dropped -/
def dataFormat (st : Structure) : Names.DataFormat := (Names.parseDataFormat st.format).getD .unknown

/-- the format configuration as the options of the format -/
def config (st : Structure) : Config.Opts := st.formatConfig.map fun m => m.map fun kv => (kv.1, .val kv.2)

/-! ### Readers -/

/-- an `EntryReader` of one of the formats -/
inductive RState where
  | cbor (tl : TopLevel) (s : Cbor.Reader)
  | json (tl : TopLevel) (s : Json.RState)
  | csv (o : Config.CSVOptions) (types : List Bytes) (s : CsvIO.RState)
  | ndjson (s : Ndjson.RState)
  | xlsx (types : List Bytes) (s : CsvIO.XRState)

/-- `ReadEntry` -/
def reader (E : Env) : Reader RState := fun st =>
  match st with
  | .cbor tl s => ((cborReader tl s).1, .cbor tl (cborReader tl s).2)
  | .json tl s => ((jsonReader E.L.F tl s).1, .json tl (jsonReader E.L.F tl s).2)
  | .csv o types s => ((CsvIO.reader E.L o types s).1, .csv o types (CsvIO.reader E.L o types s).2)
  | .ndjson s => ((Ndjson.reader E.L.F s).1, .ndjson (Ndjson.reader E.L.F s).2)
  | .xlsx types s => ((CsvIO.xlsxReader E.L types s).1, .xlsx types (CsvIO.xlsxReader E.L types s).2)

open CsvIO (Opened)

/-- cbor.go:32-61 `NewCBORReader` -/
def newCBORReader (E : Env) (st : Structure) (src : Bytes) : Opened RState :=
  match st.schema with
  | none => .err
  | some _ =>
    match decompress E st src with
    | none => .err
    | some text =>
      match getTopLevelType st.schema with
      | none => .err
      | some tl => .ok (.cbor tl { inp := text })

/-- json.go:30-60 `NewJSONReader` -/
def newJSONReader (E : Env) (st : Structure) (src : Bytes) : Opened RState :=
  match st.schema with
  | none => .err
  | some _ =>
    match getTopLevelType st.schema with
    | none => .err
    | some tl =>
      match decompress E st src with
      | none => .err
      | some text => .ok (.json tl { rest := text })

/-- csv.go:31-73 `NewCSVReader`; a missing schema is an empty one -/
def newCSVReader (E : Env) (st : Structure) (src : Bytes) : Opened RState :=
  match CsvIO.openColumns E.order (st.schema.getD []) with
  | .err => .err
  | .panics => .panics
  | .ok (_, types) =>
    match decompress E st src with
    | none => .err
    | some text =>
      let o := CsvIO.options (config st)
      .ok (.csv o types (CsvIO.start o (ReplaceCr.reads true (E.reads text) text).1))

/-- ndjson.go:23-50 `NewNDJSONReader` -/
def newNDJSONReader (E : Env) (st : Structure) (src : Bytes) : Opened RState :=
  match st.schema with
  | none => .err
  | some _ =>
    match getTopLevelType st.schema with
    | some .array =>
      match decompress E st src with
      | none => .err
      | some text => .ok (.ndjson { rest := text })
    | _ => .err

/-- xlsx.go:51-58, 177-189: the name of the sheet, with a configuration that parsed to this -/
def sheetName (name : Bytes) : Bytes := if name = [] then b!"Sheet1" else name

/-- xlsx.go:27-66 `NewXLSXReader`; a configuration that does not parse counts as none -/
def newXLSXReader (E : Env) (st : Structure) (src : Bytes) : Opened RState :=
  if st.compression ≠ [] then .err
  else
    match CsvIO.openColumns E.order (st.schema.getD []) with
    | .err => .err
    | .panics => .panics
    | .ok (_, types) =>
      match E.openBook src with
      | none => .err
      | some sheets =>
        match sheets (sheetName ((Config.newXLSXOptions (config st)).getD [])) with
        | none => .err
        | some rows => .ok (.xlsx types { rows := rows })

/-- dsio.go:53-76 `NewEntryReader` -/
def newEntryReader (E : Env) (st : Structure) (src : Bytes) : Opened RState :=
  match dataFormat st with
  | .cbor => newCBORReader E st src
  | .json => newJSONReader E st src
  | .csv => newCSVReader E st src
  | .xlsx => newXLSXReader E st src
  | .ndjson => newNDJSONReader E st src
  | .unknown => .err
  | .xml => .err

/-! ### Writers -/

/-- an `EntryWriter` of one of the formats -/
inductive WState where
  | cbor (tl : TopLevel) (w : Cbor.Writer)
  | json (tl : TopLevel) (indent : Bytes) (w : Json.WState)
  | csv (o : Config.CSVOptions) (out : Bytes)
  | ndjson (out : Bytes)
  | xlsx (sheet : Bytes) (w : CsvIO.Sheet)

/-- `WriteEntry` -/
def writer (E : Env) : Writer WState := fun e st =>
  match st with
  | .cbor tl w => ((cborWriter tl e w).1, .cbor tl (cborWriter tl e w).2)
  | .json tl indent w => ((jsonWriter E.L.F tl indent e w).1, .json tl indent (jsonWriter E.L.F tl indent e w).2)
  | .csv o out => ((CsvIO.writer E.L o e out).1, .csv o (CsvIO.writer E.L o e out).2)
  | .ndjson out => ((Ndjson.writer E.L.F e out).1, .ndjson (Ndjson.writer E.L.F e out).2)
  | .xlsx sheet w => ((CsvIO.xlsxWriter E.L e w).1, .xlsx sheet (CsvIO.xlsxWriter E.L e w).2)

/-- everything written after `Close`, before compression -/
def close (E : Env) : WState → Bytes
  | .cbor tl w => Cbor.close tl w
  | .json tl indent w => Json.close tl indent w
  | .csv _ out => out
  | .ndjson out => out
  | .xlsx sheet w => E.saveBook sheet w

/-- a new writer, and what becomes of the bytes it writes -/
abbrev NewWriter := WState × (Bytes → Bytes)

/-- cbor.go:457-487 `NewCBORWriter` -/
def newCBORWriter (E : Env) (st : Structure) : Opened NewWriter :=
  match st.schema with
  | none => .err
  | some _ =>
    match getTopLevelType st.schema with
    | none => .err
    | some tl =>
      match compressor E st with
      | none => .err
      | some z => .ok (.cbor tl {}, z)

/-- json.go:504-543 `NewJSONWriter` and `NewJSONPrettyWriter` -/
def newJSONWriter (E : Env) (indent : Bytes) (st : Structure) : Opened NewWriter :=
  match st.schema with
  | none => .err
  | some _ =>
    match getTopLevelType st.schema with
    | none => .err
    | some tl =>
      match compressor E st with
      | none => .err
      | some z => .ok (.json tl indent {}, z)

/-- csv.go:189-227 `NewCSVWriter` -/
def newCSVWriter (E : Env) (st : Structure) : Opened NewWriter :=
  match CsvIO.openColumns E.order (st.schema.getD []) with
  | .err => .err
  | .panics => .panics
  | .ok (cols, _) =>
    match compressor E st with
    | none => .err
    | some z =>
      let o := CsvIO.options (config st)
      .ok (.csv o (CsvIO.header o cols), z)

/-- ndjson.go:98-119 `NewNDJSONWriter` -/
def newNDJSONWriter (E : Env) (st : Structure) : Opened NewWriter :=
  match st.schema with
  | none => .err
  | some _ =>
    match compressor E st with
    | none => .err
    | some z => .ok (.ndjson [], z)

/-- xlsx.go:157-200 `NewXLSXWriter`; a configuration that does not parse is an error here -/
def newXLSXWriter (E : Env) (st : Structure) : Opened NewWriter :=
  if st.compression ≠ [] then .err
  else
    match CsvIO.openColumns E.order (st.schema.getD []) with
    | .err => .err
    | .panics => .panics
    | .ok _ =>
      match Config.newXLSXOptions (config st) with
      | none => .err
      | some name => .ok (.xlsx (sheetName name) {}, id)

/-- dsio.go:79-101 `NewEntryWriter` -/
def newEntryWriter (E : Env) (st : Structure) : Opened NewWriter :=
  match dataFormat st with
  | .cbor => newCBORWriter E st
  | .json => newJSONWriter E [] st
  | .csv => newCSVWriter E st
  | .xlsx => newXLSXWriter E st
  | .ndjson => newNDJSONWriter E st
  | .unknown => .err
  | .xml => .err

/-! ### Converting -/

/-- dsio.go:200-205: the format configuration asks for indented JSON -/
def pretty (st : Structure) : Bool := mapGet (st.formatConfig.getD []) b!"pretty" = some (.bool true)

/-- dsio.go:194-208: the writer of `ConvertFile` -/
def convertWriter (E : Env) (out : Structure) : Opened NewWriter :=
  match newEntryWriter E out with
  | .ok w => if dataFormat out = .json && pretty out then newJSONWriter E b!" " out else .ok w
  | x => x

/-- outcome of `ConvertFile` -/
inductive Converted where
  | data (b : Bytes)
  | err
  | panics
deriving DecidableEq

/-- dsio.go:191-230 `ConvertFile`, with a bound on the number of entries; none while still running -/
def convertFile (E : Env) (file : Bytes) (inp out : Structure) (limit offset : Int) (all : Bool) (n : Nat) : Option Converted :=
  match convertWriter E out with
  | .err => some .err
  | .panics => some .panics
  | .ok (w, z) =>
    match newEntryReader E inp file with
    | .err => some .err
    | .panics => some .panics
    | .ok r => (convert (reader E) (writer E) (fun w => some (z (close E w))) limit offset all n r w).map fun d =>
        match d with
        | some b => .data b
        | none => .err

/-! ### Buffers -/

/-- entry_buffer.go:25-45 `NewEntryBuffer`: a reader of the empty buffer, and a writer -/
def newEntryBuffer (E : Env) (st : Structure) : Opened (RState × NewWriter) :=
  match newEntryReader E st [] with
  | .err => .err
  | .panics => .panics
  | .ok r =>
    match newEntryWriter E st with
    | .err => .err
    | .panics => .panics
    | .ok w => .ok (r, w)

end Verif.Formats
