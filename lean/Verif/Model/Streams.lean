import Verif.Model.Json
import Verif.Model.Cbor
/-
Readers and writers of entries as state machines, and the loops over them: dsio/entry.go,
dsio/streams.go, dsio/dsio.go (ReadAll*, ConvertFile), dsio/tracked_reader.go.

A reader is any function giving, for a state, the outcome of the next `ReadEntry` and the state
after it; a writer likewise.  Loops take a bound on the number of rounds and answer `none` while
still running.
-/
set_option autoImplicit false
namespace Verif.Streams

/-- an error value: `io.EOF` itself, or another error with its text -/
inductive RErr where
  | eof
  | other (text : Bytes)
deriving DecidableEq

/-- `err.Error()` -/
def RErr.text : RErr → Bytes
  | .eof => b!"EOF"
  | .other t => t

/-- outcome of `ReadEntry` -/
inductive RRes where
  | entry (e : Entry)
  | fail (x : RErr)
deriving DecidableEq

/-- behaviour of an `EntryReader` (dsio.go:29-36) -/
abbrev Reader (σ : Type) := σ → RRes × σ

/-- behaviour of `WriteEntry` of an `EntryWriter` (dsio.go:18-26); `none` means no error -/
abbrev Writer (τ : Type) := Entry → τ → Option Bytes × τ

/-! ### PagedReader (streams.go:11-38) -/

structure Paged (σ : Type) where
  offset : Int
  limit : Int
  inner : σ

/-- streams.go:26-32: the skipping loop, `n` entries still to be skipped; the error and how many are
left when it stops early -/
def skip {σ : Type} (rd : Reader σ) : Nat → σ → Option RErr × Nat × σ
  | 0, s => (none, 0, s)
  | n + 1, s =>
    match rd s with
    | (.fail x, s') => (some x, n + 1, s')
    | (.entry _, s') => skip rd n s'

/-- streams.go:25-38 `ReadEntry` -/
def paged {σ : Type} (rd : Reader σ) : Reader (Paged σ) := fun p =>
  if 0 < p.offset then
    match skip rd p.offset.toNat p.inner with
    | (some x, left, s) => (.fail x, { p with offset := left, inner := s })
    | (none, _, s) =>
      if p.limit = 0 then (.fail .eof, { p with offset := 0, inner := s })
      else ((rd s).1, { offset := 0, limit := p.limit - 1, inner := (rd s).2 })
  else if p.limit = 0 then (.fail .eof, p)
  else ((rd p.inner).1, { p with limit := p.limit - 1, inner := (rd p.inner).2 })

/-! ### Copy (streams.go:47-61) -/

inductive CopyRes where
  | ok
  | readErr (text : Bytes)
  | writeErr (text : Bytes)
deriving DecidableEq

/-- at most `n` rounds of the loop; only `io.EOF` itself ends it without error -/
def copy {σ τ : Type} (rd : Reader σ) (w : Writer τ) : Nat → σ → τ → Option (CopyRes × σ × τ)
  | 0, _, _ => none
  | n + 1, s, t =>
    match rd s with
    | (.fail .eof, s') => some (.ok, s', t)
    | (.fail (.other x), s') => some (.readErr x, s', t)
    | (.entry e, s') =>
      match w e t with
      | (some x, t') => some (.writeErr x, s', t')
      | (none, t') => copy rd w n s' t'

/-! ### EachEntry (entry.go:25-47) -/

/-- the callback gets the running number and the entry; `none` means no error -/
abbrev Callback (τ : Type) := Nat → Entry → τ → Option Bytes × τ

inductive EachRes where
  | ok
  | readErr (row : Nat) (text : Bytes)
  | fnErr (text : Bytes)
deriving DecidableEq

/-- errors are recognised as end-of-file by their text, also those of the callback -/
def eachEntry {σ τ : Type} (rd : Reader σ) (fn : Callback τ) : Nat → Nat → σ → τ → Option (EachRes × σ × τ)
  | 0, _, _, _ => none
  | n + 1, num, s, t =>
    match rd s with
    | (.fail x, s') => some (if x.text = b!"EOF" then .ok else .readErr num x.text, s', t)
    | (.entry e, s') =>
      match fn num e t with
      | (some x, t') => some (if x = b!"EOF" then .ok else .fnErr x, s', t')
      | (none, t') => eachEntry rd fn n (num + 1) s' t'

/-! ### ReadAll (dsio.go:143-187) -/

/-- dsio.go:174-187 `ReadAllArray` from row `i` on -/
def readAllArray {σ : Type} (rd : Reader σ) : Nat → Nat → σ → List Val → Option (Except (Nat × Bytes) (List Val) × σ)
  | 0, _, _, _ => none
  | n + 1, i, s, acc =>
    match rd s with
    | (.fail x, s') => some (if x.text = b!"EOF" then .ok acc else .error (i + 1, x.text), s')
    | (.entry e, s') => readAllArray rd n (i + 1) s' (acc ++ [e.value])

/-- dsio.go:157-170 `ReadAllObject` from row `i` on -/
def readAllObject {σ : Type} (rd : Reader σ) : Nat → Nat → σ → List (Bytes × Val) → Option (Except (Nat × Bytes) (List (Bytes × Val)) × σ)
  | 0, _, _, _ => none
  | n + 1, i, s, acc =>
    match rd s with
    | (.fail x, s') => some (if x.text = b!"EOF" then .ok acc else .error (i + 1, x.text), s')
    | (.entry e, s') => readAllObject rd n (i + 1) s' (mapSet acc e.key e.value)

/-- dsio.go:143-153 `ReadAll`, with the top level type of the reader's structure -/
def readAll {σ : Type} (rd : Reader σ) (tl : TopLevel) (n : Nat) (s : σ) : Option (Except (Nat × Bytes) Val × σ) :=
  match tl with
  | .object => (readAllObject rd n 0 s []).map fun r => (r.1.map Val.obj, r.2)
  | .array => (readAllArray rd n 0 s []).map fun r => (r.1.map Val.arr, r.2)

/-- dsio.go:127-140 `GetTopLevelType`; `none` for an error -/
def getTopLevelType (schema : Option (List (Bytes × Val))) : Option TopLevel :=
  match schema with
  | none => none
  | some m =>
    match mapGet m b!"type" with
    | some (.str t) => if t = b!"array" then some .array else if t = b!"object" then some .object else none
    | _ => none

/-! ### ConvertFile (dsio.go:191-230) -/

/-- dsio.go:216-229: `close` gives the buffer contents after `Close`, or none when it fails.  The error
of `Copy` (line 223) is overwritten by line 229. -/
def convert {σ τ : Type} (rd : Reader σ) (w : Writer τ) (close : τ → Option Bytes) (limit offset : Int) (all : Bool)
    (n : Nat) (s : σ) (t : τ) : Option (Option Bytes) :=
  if all then (copy rd w n s t).map fun r => close r.2.2
  else (copy (paged rd) w n { offset, limit, inner := s } t).map fun r => close r.2.2

/-! ### The JSON and CBOR readers and writers as state machines -/

/-- dsio/json.go `ReadEntry`; the error texts are not modelled, they are never "EOF" -/
def jsonReader (F : FloatCodec) (tl : TopLevel) : Reader Json.RState := fun st =>
  match Json.readEntry F tl st with
  | .entry e st' => (.entry e, st')
  | .eof st' => (.fail .eof, st')
  | .err _ st' => (.fail (.other b!"json"), st')

def jsonWriter (F : FloatCodec) (tl : TopLevel) (indent : Bytes) : Writer Json.WState := fun e w =>
  match Json.writeEntry F tl indent e w with
  | (.ok _, w') => (none, w')
  | (.error _, w') => (some b!"json", w')

/-- dsio/cbor.go `ReadEntry`.  After an error the Go reader may have consumed some input; callers stop
there. -/
def cborReader (tl : TopLevel) : Reader Cbor.Reader := fun r =>
  match Cbor.readEntry tl r with
  | .ok (e, r') => (.entry e, r')
  | .error .eof => (.fail .eof, r)
  | .error _ => (.fail (.other b!"cbor"), r)

def cborWriter (tl : TopLevel) : Writer Cbor.Writer := fun e w =>
  if (Cbor.writeEntry tl w e).2 then (none, (Cbor.writeEntry tl w e).1) else (some b!"cbor", (Cbor.writeEntry tl w e).1)

/-! ### TrackedReader (tracked_reader.go) -/

/-- an `io.Reader`: for a buffer size, how many bytes it hands over, which ones, and whether with an
error -/
abbrev ByteReader (σ : Type) := Nat → σ → (Bytes × Bool) × σ

structure Tracked (σ : Type) where
  read : Nat := 0
  inner : σ

/-- tracked_reader.go:17-21 `Read` -/
def tracked {σ : Type} (rd : ByteReader σ) : ByteReader (Tracked σ) := fun size t =>
  let r := rd size t.inner
  (r.1, { read := t.read + r.1.1.length, inner := r.2 })

end Verif.Streams
