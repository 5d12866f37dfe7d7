import Verif.Model.Ndjson
import Verif.Model.Csv
/-
`EntryBuffer` (dsio/entry_buffer.go): a reader and a writer of the same `bytes.Buffer`, used in any
order.  Uncompressed structures; `NewEntryBuffer` itself is `Formats.newEntryBuffer`.

The readers keep what they took from the buffer in a `bufio.Reader`.  For newline-delimited JSON that
reader is modelled; JSON and CBOR are read as they are when everything pending fits its buffer.
A `bufio.Reader` that met the end of its source asks the source again on the next call, so that
bytes written later are seen.
-/
set_option autoImplicit false
namespace Verif.EntryBuffer

/-- a call of a method of the buffer -/
inductive Op where
  | write (e : Entry)
  | read
  | close

/-- what a call answered -/
inductive Out where
  | wrote
  | refused
  | entry (e : Entry)
  | eof
  | failed
  | closed
deriving DecidableEq

/-- the answers to a sequence of calls, and the state they leave -/
def run {σ : Type} (step : σ → Op → Out × σ) : σ → List Op → List Out × σ
  | st, [] => ([], st)
  | st, o :: os => ((step st o).1 :: (run step (step st o).2 os).1, (run step (step st o).2 os).2)

/-! ### newline-delimited JSON -/

/-- `held` is what the `bufio.Reader` of the reader has taken from the buffer, `buf` what it has not -/
structure NBuf where
  entriesRead : Int := 0
  held : Bytes := []
  buf : Bytes := []
deriving DecidableEq

/-- entry_buffer.go:70-73 `Bytes` -/
def NBuf.bytes (b : NBuf) : Bytes := b.buf

/-- `bufio.Reader.ReadBytes('\n')` with a buffer of `size` bytes (4096 for `bufio.NewReader`, ndjson.go:46), reading from a
`bytes.Buffer`: `acc` are full buffers gathered so far.  At the end of the source everything gathered is handed
over together with the error, and dropped by the caller. -/
def readBytes (size : Nat) : Nat → Bytes → NBuf → Option Bytes × NBuf
  | 0, _, b => (none, b)
  | f + 1, acc, b =>
    match Ndjson.readLine b.held with
    | some (line, r) => (some (acc ++ line), { b with held := r })
    | none =>
      if size ≤ b.held.length then readBytes size f (acc ++ b.held) { b with held := [] }
      else if b.buf = [] then (none, { b with held := [] })
      else readBytes size f acc { b with held := b.held ++ b.buf.take (size - b.held.length), buf := b.buf.drop (size - b.held.length) }

/-- entry_buffer.go:50-68 over ndjson.go:59-78 (`ReadEntry`), 129-131 (`WriteEntry`: `json.Encoder.Encode` hands its text
over in one `Write`), 134-139 (`Close`, which has nothing to do) -/
def ndjsonStep (F : FloatCodec) (size : Nat) (b : NBuf) : Op → Out × NBuf
  | .write e => if jsonOK e.value then (.wrote, { b with buf := b.buf ++ (enc F e.value ++ [10]) }) else (.refused, b)
  | .read =>
    match readBytes size (2 * (b.held.length + b.buf.length) + 2) [] b with
    | (none, b') => (.eof, b')
    | (some line, b') =>
      match JsonStd.unmarshal F line with
      | none => (.failed, b')
      | some v => (.entry { index := b'.entriesRead, value := v }, { b' with entriesRead := b'.entriesRead + 1 })
  | .close => (.closed, b)

/-! ### JSON -/

structure JBuf where
  r : Json.RState := { rest := [] }
  w : Json.WState := {}
deriving DecidableEq

/-- entry_buffer.go:50-68 over json.go:70-126, 550-582 and 635-671: what the writer puts out is appended to what the
reader has before it -/
def jsonStep (F : FloatCodec) (tl : TopLevel) (b : JBuf) : Op → Out × JBuf
  | .write e =>
    match Json.writeEntry F tl [] e b.w with
    | (res, w) =>
      ((match res with | .ok _ => .wrote | .error _ => .refused), { r := { b.r with rest := b.r.rest ++ w.out.drop b.w.out.length }, w := w })
  | .read =>
    match Json.readEntry F tl b.r with
    | .entry e r => (.entry e, { b with r := r })
    | .eof r => (.eof, { b with r := r })
    | .err _ r => (.failed, { b with r := r })
  | .close =>
    (.closed, { b with r := { b.r with rest := b.r.rest ++ (Json.close tl [] b.w).drop b.w.out.length } })

/-! ### CBOR -/

structure CBuf where
  r : Cbor.Reader := { inp := [] }
  w : Cbor.Writer := {}

/-- cbor.go:69-104 `ReadEntry` with the state it leaves; after a failure within an entry the state is not exact, the bytes of
that entry are kept -/
def cborRead (tl : TopLevel) (r : Cbor.Reader) : Except Cbor.Err Entry × Cbor.Reader :=
  match Cbor.start tl r with
  | .error e => (.error e, r)
  | .ok r1 =>
    match Cbor.readBody tl r1 with
    | .error e => (.error e, r1)
    | .ok (e, r2) => (.ok e, r2)

/-- entry_buffer.go:50-68 over cbor.go:69-104, 493-513 and 515-535: the writer collects the entries and writes at `Close` -/
def cborStep (tl : TopLevel) (b : CBuf) : Op → Out × CBuf
  | .write e =>
    match Cbor.writeEntry tl b.w e with
    | (w, ok) => (if ok then .wrote else .refused, { b with w := w })
  | .read =>
    match cborRead tl b.r with
    | (.ok e, r) => (.entry e, { b with r := r })
    | (.error .eof, r) => (.eof, { b with r := r })
    | (.error _, r) => (.failed, { b with r := r })
  | .close => (.closed, { b with r := { b.r with inp := b.r.inp ++ Cbor.close tl b.w } })

/-! ### CSV -/

/-- `text` is everything written, its first `passed` bytes have left the buffer of the CSV library's writer -/
structure VBuf where
  r : CsvIO.RState
  text : Bytes
  passed : Nat := 0

/-- the text up to `n` leaves the writer's buffer and arrives at the reader through the carriage return repair, which is asked for
blocks of the sizes `ks` (replacecr/replacecr.go:26-66) -/
def VBuf.pass (ks : List Nat) (n : Nat) (b : VBuf) : VBuf :=
  { b with
    r := { b.r with csv := { b.r.csv with rest := b.r.csv.rest ++ Verif.Csv.norm (ReplaceCr.reads true ks ((b.text.take n).drop b.passed)).1 } }
    passed := max b.passed n }

/-- csv.go:30-73 and 206-227: a new buffer, the header row is written already.  `early t` says how much of the text `t` has left the writer's
buffer (`bufio.Writer`) without being asked for; that depends on the version of the library and on how the text was handed over. -/
def csvNew (o : Config.CSVOptions) (cols : List Tabular.Column) (early : Bytes → Nat) (ks : List Nat) : VBuf :=
  VBuf.pass ks (early (CsvIO.header o cols)) { r := CsvIO.start o [], text := CsvIO.header o cols }

/-- entry_buffer.go:50-68 over csv.go:81-107, 229-240 and 283-289 (`Close` flushes) -/
def csvStep (L : CsvIO.Lib) (o : Config.CSVOptions) (types : List Bytes) (early : Bytes → Nat) (ks : List Nat) (b : VBuf) : Op → Out × VBuf
  | .write e =>
    match CsvIO.writer L o e b.text with
    | (none, t) => (.wrote, VBuf.pass ks (early t) { b with text := t })
    | (some _, t) => (.refused, { b with text := t })
  | .read =>
    match CsvIO.reader L o types b.r with
    | (.entry e, r) => (.entry e, { b with r := r })
    | (.fail .eof, r) => (.eof, { b with r := r })
    | (.fail _, r) => (.failed, { b with r := r })
  | .close => (.closed, VBuf.pass ks b.text.length b)

end Verif.EntryBuffer
