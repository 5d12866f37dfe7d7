import Verif.Model.Doc
import Verif.Model.Names
import Verif.Model.Vals
import Verif.Model.MetaSet
import Verif.Model.Csv
import Verif.Model.Streams
/-
Detecting the structure of a body: the package detect.
-/
set_option autoImplicit false
namespace Verif.Detect
open Names Streams

abbrev Schema := List (Bytes × Val)

/-- structure.go:11-16 -/
def baseArray : Schema := [(b!"type", .str b!"array")]
def baseObject : Schema := [(b!"type", .str b!"object")]

/-- an `io.Reader`: what successive calls deliver without an error, then what the call delivers that fails for the first
time, and how it fails; later calls deliver nothing and fail in the same way -/
structure Src where
  chunks : List Bytes
  last : Bytes := []
  err : RErr := .eof
deriving DecidableEq

/-- everything it delivers -/
def Src.text (s : Src) : Bytes := s.chunks.flatten ++ s.last

inductive Err where
  | noFormat | unsupported | invalidJSON | readFailed | cborTop | csv
deriving DecidableEq

/-- what detection returns: schema or error, the number of bytes it says it has read, and what is left of the source -/
structure Out where
  res : Except Err Schema
  n : Nat
  rest : Src

/-! ### JSON (detect/json.go) -/

inductive Look where
  | array | object | invalid | more
deriving DecidableEq

/-- json.go:44-56: the loop over the buffer -/
def look : Bytes → Look
  | [] => .more
  | c :: s =>
    if c = 91 then .array
    else if c = 123 then .object
    else if c = 32 ∨ c = 9 ∨ c = 10 ∨ c = 13 then look s
    else .invalid

/-- a `Read` into the buffer -/
def overwrite (buf c : Bytes) : Bytes := c ++ buf.drop c.length

def Look.result : Look → Option (Except Err Schema)
  | .array => some (.ok baseArray)
  | .object => some (.ok baseObject)
  | .invalid => some (.error .invalidJSON)
  | .more => none

/-- json.go:22-57 for a source that is at its end or failing -/
def jsonEnd (buf : Bytes) (n : Nat) (last : Bytes) (err : RErr) : Out :=
  let rest : Src := { chunks := [], err := err }
  if err = .eof then
    if last = [] then { res := .error .invalidJSON, n := n, rest := rest }
    else { res := ((look (overwrite buf last)).result).getD (.error .invalidJSON), n := n + last.length, rest := rest }
  else { res := .error .readFailed, n := n + last.length, rest := rest }

/-- json.go:22-57: the loop over the reads -/
def jsonLoop (last : Bytes) (err : RErr) : Bytes → Nat → List Bytes → Out
  | buf, n, [] => jsonEnd buf n last err
  | buf, n, c :: cs =>
    match (look (overwrite buf c)).result with
    | some r => { res := r, n := n + c.length, rest := { chunks := cs, last := last, err := err } }
    | none => jsonLoop last err (overwrite buf c) (n + c.length) cs

/-- json.go:16-58 `JSONSchema`; the buffer begins as 100 zero bytes -/
def jsonSchema (s : Src) : Out := jsonLoop s.last s.err (List.replicate 100 0) 0 s.chunks

/-! ### CBOR (detect/cbor.go) -/

/-- `bufio.Reader.ReadByte` on a fresh reader: the byte or the error, and what is left of the source; the buffer takes
everything that a call delivers.  `k` more calls may deliver nothing. -/
def firstByte : Nat → Src → Except RErr UInt8 × Src
  | k, s =>
    match s.chunks with
    | [] =>
      (match s.last with
       | b :: _ => .ok b
       | [] => .error s.err,
       { s with last := [] })
    | (b :: _) :: cs => (.ok b, { s with chunks := cs })
    | [] :: cs =>
      match k with
      | 0 => (.error (.other b!"multiple Read calls return no data or error"), { s with chunks := cs })
      | k + 1 => firstByte k { s with chunks := cs }

/-- cbor.go:30-37 -/
def cborTop (bd : UInt8) : Except Err Schema :=
  if (0x80 ≤ bd ∧ bd < 0xa0) ∨ bd = 0x9f then .ok baseArray
  else if (0xa0 ≤ bd ∧ bd < 0xc0) ∨ bd = 0xbf then .ok baseObject
  else .error .cborTop

/-- cbor.go:19-41 `CBORSchema` -/
def cborSchema (s : Src) : Out :=
  match firstByte 99 s with
  | (.ok bd, rest) => { res := cborTop bd, n := 1, rest := rest }
  | (.error .eof, rest) => { res := cborTop 0, n := 1, rest := rest }
  | (.error (.other _), rest) => { res := .error .readFailed, n := 1, rest := rest }

/-! ### CSV (detect/determineFields.go) -/

open Vals (VType)

/-- counts per type; an absent key counts 0 -/
abbrev Tally := VType → Nat

def bump (t : Tally) (x : VType) : Tally := fun y => if y = x then t y + 1 else t y

/-- the loops at determineFields.go:93-95 and 116-118 -/
def bumpRow (L : Vals.Lib) : List Tally → List Bytes → List Tally
  | t :: ts, c :: cs => bump t (Vals.parseType L c) :: bumpRow L ts cs
  | ts, _ => ts

/-- determineFields.go:171-190 `possibleCsvHeaderRow` -/
def possibleHeader (L : Vals.Lib) (header : List Bytes) : Bool :=
  header.all fun raw =>
    let col := Doc.trimSpace raw
    (Vals.parseInteger col).isNone && (L.parse64 col).isNone && col ≠ [] && col ≠ b!"true" && col ≠ b!"false"

/-- the settings of the CSV reader -/
def csvCfg : Csv.Cfg := { comma := 44, lazy := true, trim := true }

/-- determineFields.go:98-123: the loop over the rows; the first argument is at least the number of rows left -/
def scan (L : Vals.Lib) : Nat → Nat → Csv.RState → Bool → List Tally → Except Err (Bool × List Tally)
  | 0, _, _, variadic, tallies => .ok (variadic, tallies)
  | f + 1, count, st, variadic, tallies =>
    let r := Csv.read csvCfg st
    if count > 2000 then .ok (variadic, tallies)
    else match r.1 with
      | .error .eof => .ok (variadic, tallies)
      | .error _ => .error .csv
      | .ok row =>
        if row.length = tallies.length then scan L f (count + 1) r.2 variadic (bumpRow L tallies row)
        else scan L f count r.2 true tallies

/-- type.go:15-35: the types in the order of their numbers -/
def allTypes : List VType := [.unknown, .null, .integer, .number, .boolean, .string, .object, .array, .bytes]

/-- determineFields.go:125-134 with `getKeys` (155-164) -/
def choose (t : Tally) : VType :=
  (allTypes.filter fun x => t x ≠ 0).foldl (fun cur x => if t x > t cur then x else cur) .unknown

/-- determineFields.go:47-50: a field through `json.Marshal` and `json.Unmarshal` -/
def fieldVal (title : Bytes) (type : VType) : Val :=
  .obj ((if title = [] then [] else [(b!"title", .str (toValidUtf8 0 title))]) ++ (if type = .unknown then [] else [(b!"type", .str type.name)]))

/-- determineFields.go:78-83, 86-91 -/
def csvTitles (varName : Bytes → Bytes) (isHeader : Bool) (header : List Bytes) : List Bytes :=
  if isHeader then header.map varName else header.zipIdx.map fun p => b!"field_" ++ fmtNat (p.2 + 1)

def tableSchema (cols : List Val) : Schema :=
  [(b!"items", .obj [(b!"items", .arr cols), (b!"type", .str b!"array")]), (b!"type", .str b!"array")]

/-- determineFields.go:53-153 `CSVSchema` on what the carriage return repair delivers: the schema or the error, and the format
configuration left in the structure -/
def csvSchema (L : Vals.Lib) (varName : Bytes → Bytes) (text : Bytes) : Except Err Schema × Schema :=
  let r := Csv.read csvCfg { rest := Csv.norm text, fpr := -1 }
  match r.1 with
  | .error _ => (.error .csv, [(b!"lazyQuotes", .bool true)])
  | .ok header =>
    let isHeader := possibleHeader L header
    let tallies : List Tally := header.map fun _ => fun _ => 0
    let tallies := if isHeader then tallies else bumpRow L tallies header
    match scan L (r.2.rest.length + 1) 0 r.2 false tallies with
    | .error e => (.error e, (if isHeader then [(b!"headerRow", .bool true)] else []) ++ [(b!"lazyQuotes", .bool true)])
    | .ok (variadic, tallies) =>
      (.ok (tableSchema (((csvTitles varName isHeader header).zip tallies).map fun p => fieldVal p.1 (choose p.2))),
       (if isHeader then [(b!"headerRow", .bool true)] else []) ++ (b!"lazyQuotes", .bool true) ::
         (if variadic then [(b!"variadicFields", .bool true)] else []))

/-! ### Any format -/

/-- what detection depends on besides the body: library functions, what the carriage return repair delivers of a source and
how many calls are made on it before the CSV detection is done (buffering), and what CSV detection does with a source that
fails -/
structure Env where
  L : Vals.Lib
  varName : Bytes → Bytes
  repaired : Src → Bytes
  taken : Src → Nat
  onFail : Src → Except Err Schema × Schema

/-- what is left of a source after `k` calls -/
def Src.skip (s : Src) (k : Nat) : Src :=
  if k ≤ s.chunks.length then { s with chunks := s.chunks.drop k } else { s with chunks := [], last := [] }

/-- `FromReader` (detect.go:130-138) with `Schema` (determineFields.go:24-45): the detected structure, or the error, and what
is left of the source -/
def fromReader (E : Env) (format : DataFormat) (comp : Compression) (s : Src) : Except Err Doc.Structure × Src :=
  let st : Doc.Structure := { format := format.string, compression := comp.string }
  let put (o : Out) := (o.res.map fun sch => { st with schema := some sch }, o.rest)
  match format with
  | .unknown => (.error .noFormat, s)
  | .cbor => put (cborSchema s)
  | .json => put (jsonSchema s)
  | .csv =>
    let r := if s.err = .eof then csvSchema E.L E.varName (E.repaired s) else E.onFail s
    (r.1.map fun sch => { st with schema := some sch, formatConfig := some r.2 }, s.skip (E.taken s))
  | .xlsx => put { res := .ok baseArray, n := 0, rest := s }
  | .ndjson => put { res := .ok baseArray, n := 0, rest := s }
  | .xml => (.error .unsupported, s)

/-- a body file; `size` is absent if the file does not know its size -/
structure Body where
  name : Bytes
  src : Src
  size : Option Int := none
deriving DecidableEq

/-- detect.go:95-109 `needsFormatConfig` -/
def needsFormatConfig (st : Doc.Structure) : Bool :=
  (st.format = DataFormat.xlsx.string || st.format = DataFormat.csv.string) && st.formatConfig.isNone

/-- detect.go:36-40: nothing needs to be inferred -/
def complete (st : Option Doc.Structure) : Bool :=
  match st with
  | none => false
  | some st => st.format ≠ [] && st.schema.isSome && !needsFormatConfig st

/-- detect.go:61-76 -/
def fill (st : Option Doc.Structure) (guess : Doc.Structure) : Doc.Structure :=
  let st := st.getD guess
  let st := if st.format = [] then { st with format := guess.format } else st
  let st := if st.compression = [] then { st with compression := guess.compression } else st
  let st := if st.formatConfig = none ∧ st.format = guess.format then { st with formatConfig := guess.formatConfig } else st
  if st.schema = none then { st with schema := guess.schema } else st

/-- `io.MultiReader(buf, body)`: the bytes read so far come first, however they are delivered -/
def glue (s rest : Src) : Src :=
  { chunks := [s.text.take (s.text.length - rest.text.length)] ++ rest.chunks, last := rest.last, err := rest.err }

inductive Failure where
  | empty | noBody | badName | detect (e : Err)
deriving DecidableEq

/-- detect.go:30-89 `Structure` on structure and body of a dataset -/
def structure_ (E : Env) (st : Option Doc.Structure) (body : Option Body) : Option Failure × Option Doc.Structure × Option Body :=
  if complete st then (none, st, body)
  else match body with
    | none => (some .noBody, st, body)
    | some b =>
      match formatFromFilename b.name with
      | none => (some .badName, st, body)
      | some (df, comp) =>
        match fromReader E df comp b.src with
        | (.error e, rest) => (some (.detect e), st, some { b with src := rest })
        | (.ok guess, rest) => (none, some (fill st guess), some { name := b.name, src := glue b.src rest, size := some (b.size.getD (-1)) })

/-! ### From values (detect.go) -/

/-- detect.go:222-235 `goDataType` -/
def goDataType : Val → Bytes
  | .int _ | .gint _ | .f64 _ => b!"number"
  | .bool _ => b!"boolean"
  | .null => b!"null"
  | _ => b!"string"

/-- detect.go:186-220 `TabularSchemaFromTabularData`; none for an error -/
def tabularFromData : Val → Option Schema
  | .arr [] => none
  | .arr (.arr row :: _) =>
    some (tableSchema (row.zipIdx.map fun p => .obj [(b!"title", .str (b!"col_" ++ fmtNat p.2)), (b!"type", .str (goDataType p.1))]))
  | .arr _ => none
  | .obj _ => none
  | _ => some []

end Verif.Detect
