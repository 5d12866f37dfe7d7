import Verif.Model.Streams
import Verif.Model.Names
import Verif.Model.Doc
import Verif.Go.JsonParse
import Verif.Go.Csv
/-
Model of validate/: batched validation of bodies (data.go), the csv row length check (csv.go) and the
checks of dataset components (dataset.go).

The jsonschema package is a parameter.  Bodies come from any reader (Verif/Model/Streams.lean).
-/
set_option autoImplicit false
namespace Verif.Validate
open Streams

/-! ### Bodies (data.go) -/

/-- the jsonschema package: compiling the schema of a structure (structure.go:103-118), and the errors of a
document -/
structure Lib (κ ε : Type) where
  compile : Option (List (Bytes × Val)) → Option κ
  check : κ → Val → List ε

/-- the buffer (its writing half) and the errors found so far -/
structure State (ε : Type) where
  w : Json.WState := {}
  errs : List ε := []

/-- data.go:13 -/
def batchSize : Nat := 5000

/-- data.go:15-32 `flushBatch`; none when the closed buffer does not parse.  Closing never fails: the buffer
takes every write. -/
def flush {κ ε : Type} (F : FloatCodec) (L : Lib κ ε) (k : κ) (tl : TopLevel) (st : State ε) : Option (State ε) :=
  if st.w.out = [] then some st
  else (JsonStd.unmarshal F (Json.close tl [] st.w)).map fun doc => { st with errs := st.errs ++ L.check k doc }

/-- text of a writer error; the error of `json.Marshal` is not modelled -/
def werrText : Json.WErr → Bytes
  | .emptyKey => b!"entry key cannot be empty"
  | .dupKey => b!"key already written"
  | .marshal => b!"json"

/-- data.go:61-74: at the first row of a batch the buffer is flushed and replaced; allocating the new one succeeds
as it did before the loop -/
def begin {κ ε : Type} (F : FloatCodec) (L : Lib κ ε) (k : κ) (tl : TopLevel) (b i : Nat) (st : State ε) : Option (State ε) :=
  if i % b = 0 then (flush F L k tl st).map fun st => { st with w := {} } else some st

/-- data.go:56-82: the callback, for batches of `b` rows -/
def row {κ ε : Type} (F : FloatCodec) (L : Lib κ ε) (k : κ) (tl : TopLevel) (b : Nat) : Callback (State ε) := fun i e st =>
  match begin F L k tl b i st with
  | none => (some b!"error parsing JSON bytes: json", st)
  | some st =>
    match Json.writeEntry F tl [] e st.w with
    | (.ok _, w) => (none, { st with w := w })
    | (.error x, w) => (some (b!"error writing row " ++ fmtNat i ++ b!": " ++ werrText x), { st with w := w })

/-- the errors of `EntryReader` -/
inductive Fail where
  | schema | buffer | reading (r : EachRes) | parsing
deriving DecidableEq

/-- data.go:37-93 `EntryReader`, for batches of `b` rows.  `NewEntryBuffer` (entry_buffer.go:26-45) with the format
"json" fails exactly without a top level type. -/
def entryReader {κ ε σ : Type} (F : FloatCodec) (L : Lib κ ε) (b : Nat) (schema : Option (List (Bytes × Val))) (rd : Reader σ) (n : Nat) (s : σ) :
    Option (Except Fail (List ε)) :=
  match L.compile schema with
  | none => some (.error .schema)
  | some k =>
    match getTopLevelType schema with
    | none => some (.error .buffer)
    | some tl =>
      (eachEntry rd (row F L k tl b) n 0 s {}).map fun r =>
        match r.1 with
        | .ok =>
          match flush F L k tl r.2.2 with
          | none => .error .parsing
          | some st => .ok st.errs
        | x => .error (.reading x)

/-! ### Row lengths of csv texts (csv.go) -/

inductive LenErr where
  | first (e : Csv.Err)
  | later (e : Csv.Err)
  | length (i len rowLen : Nat)
deriving DecidableEq

/-- csv.go:106-109 -/
def lenCfg : Csv.Cfg := { trim := true }

/-- csv.go:115-126: the rows after the first -/
def lenLoop (rowLen : Nat) : Nat → Nat → Csv.RState → Option LenErr
  | 0, _, _ => none
  | f + 1, i, st =>
    match Csv.read lenCfg st with
    | (.error .eof, _) => none
    | (.error e, _) => some (.later e)
    | (.ok r, st') => if r.length ≠ rowLen then some (.length i r.length rowLen) else lenLoop rowLen f (i + 1) st'

/-- csv.go:105-127 `CheckCsvRowLengths`; none means no error.  There are no more records than bytes. -/
def checkRowLengths (text : Bytes) : Option LenErr :=
  match Csv.read lenCfg { rest := Csv.norm text, fpr := -1 } with
  | (.error e, _) => some (.first e)
  | (.ok r, st) => lenLoop r.length (text.length + 1) 1 st

/-! ### Components (dataset.go) -/

inductive DocErr where
  | commitRequired | titleTooLong (len : Nat) | formatRequired | csvSchema | schemaRequired
deriving DecidableEq

/-- structure.go:122-125 `DataFormat`: the unknown format for every spelling that does not parse -/
def dataFormat (s : Doc.Structure) : Names.DataFormat := (Names.parseDataFormat s.format).getD .unknown

/-- dataset.go:37-50 `Commit` -/
def commit : Option Doc.Commit → Option DocErr
  | none => none
  | some c => if c.title = [] then none else if 100 < c.title.length then some (.titleTooLong c.title.length) else none

/-- dataset.go:111-125 `Schema` -/
def schema (m : Option (List (Bytes × Val))) : Option DocErr := if m.isNone then some .schemaRequired else none

/-- dataset.go:54-73 `Structure` -/
def structure_ : Option Doc.Structure → Option DocErr
  | none => none
  | some s =>
    if dataFormat s = .unknown then some .formatRequired
    else if dataFormat s = .csv ∧ s.schema.isNone then some .csvSchema
    else schema s.schema

/-- dataset.go:12-33 `Dataset` -/
def dataset : Option Doc.Dataset → Option DocErr
  | none => none
  | some ds =>
    match ds.commit with
    | none => some .commitRequired
    | some c =>
      match commit (some c) with
      | some e => some e
      | none => structure_ ds.structure_

end Verif.Validate
