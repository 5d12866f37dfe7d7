import Verif.Go.JsonParse
import Verif.Model.Streams
/-
Newline-delimited JSON bodies: dsio/ndjson.go.  (De)compression is not modelled.
-/
set_option autoImplicit false
namespace Verif.Ndjson

/-- ndjson.go:23-51 `NewNDJSONReader`: whether a reader can be made for this schema -/
def readerOpens (schema : Option (List (Bytes × Val))) : Bool :=
  match schema with
  | none => false
  | some m => Streams.getTopLevelType (some m) == some .array

/-- ndjson.go:100-121 `NewNDJSONWriter` asks only for some schema -/
def writerOpens (schema : Option (List (Bytes × Val))) : Bool := schema.isSome

/-- `bufio.Reader.ReadBytes('\n')`: the line with its newline and the rest; none at the end of the input,
where what is left is handed over together with the error -/
def readLine : Bytes → Option (Bytes × Bytes)
  | [] => none
  | c :: s => if c = 10 then some ([10], s) else (readLine s).map fun p => (c :: p.1, p.2)

/-- ndjson.go:13-19 -/
structure RState where
  entriesRead : Int := 0
  rest : Bytes

/-- ndjson.go:59-78 `ReadEntry`; the text of JSON errors is not modelled -/
def reader (F : FloatCodec) : Streams.Reader RState := fun st =>
  match readLine st.rest with
  | none => (.fail .eof, { st with rest := [] })
  | some (line, r) =>
    match JsonStd.unmarshal F line with
    | none => (.fail (.other b!"json"), { st with rest := r })
    | some v => (.entry { index := st.entriesRead, value := v }, { entriesRead := st.entriesRead + 1, rest := r })

/-- ndjson.go:129-131 `WriteEntry`, on everything written so far: `json.Encoder.Encode` marshals and
appends a newline -/
def writer (F : FloatCodec) : Streams.Writer Bytes := fun e out =>
  if jsonOK e.value then (none, out ++ enc F e.value ++ [10]) else (some b!"json", out)

/-- write entries, leaving out those refused -/
def writeAll (F : FloatCodec) (es : List Entry) : Bytes := es.foldl (fun out e => (writer F e out).2) []

end Verif.Ndjson
