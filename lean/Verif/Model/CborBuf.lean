import Verif.Model.Cbor
/-
Model of dsio/cbor.go, the CBOR body reader, on top of the memory of its buffer.

`Verif.Cbor` treats the unread input as a list and byte strings as values.  Here the reader is followed with its
`bufio.Reader`: a piece of memory of a fixed size, filled by a source that delivers its bytes in portions of any size.  A byte
string of definite length is returned as a slice of that memory (`readBytes`, cbor.go:431-442, returns what `Peek` returned),
so what it contains depends on when one looks.  Text, keys and byte strings of indefinite length are copies.

Read errors of the source other than end of file are not modelled, and the source reports end of file only when asked for more
than it has.
-/
set_option autoImplicit false
namespace Verif.CborBuf
open Cbor

/-- A Go value as the reader returns it: `slice off len` is `b.buf[off : off+len]`, `own` is a byte string of its own. -/
inductive RVal where
  | null
  | bool (b : Bool)
  | int (i : Int)
  | f64 (bits : UInt64)
  | str (s : Bytes)
  | own (s : Bytes)
  | slice (off len : Nat)
  | arr (l : List RVal)
  | obj (m : List (Bytes × RVal))

mutual
/-- what one sees on looking at a value while the buffer contains `mem` -/
def now (mem : Bytes) : RVal → Val
  | .null => .null
  | .bool b => .bool b
  | .int i => .int i
  | .f64 x => .f64 x
  | .str s => .str s
  | .own s => .bytes s
  | .slice off len => .bytes ((mem.drop off).take len)
  | .arr l => .arr (nowL mem l)
  | .obj m => .obj (nowF mem m)
def nowL (mem : Bytes) : List RVal → List Val
  | [] => []
  | v :: t => now mem v :: nowL mem t
def nowF (mem : Bytes) : List (Bytes × RVal) → List (Bytes × Val)
  | [] => []
  | (k, v) :: t => (k, now mem v) :: nowF mem t
end

/-- `bufio.Reader`: `mem` is `b.buf`, `eof` tells whether `b.err` is set, `src` is what the source has still to deliver.  The
next read delivers at most one byte more than the first of `reads`; without one, all that fits. -/
structure St where
  mem : Bytes
  r : Nat := 0
  w : Nat := 0
  eof : Bool := false
  src : Bytes
  reads : List Nat := []
deriving DecidableEq

/-- `bufio.NewReader`: a buffer of 4096 zero bytes -/
def new (reads : List Nat) (s : Bytes) : St := { mem := List.replicate 4096 0, src := s, reads := reads }

/-- `b.buf[b.r:b.w]` -/
def St.held (st : St) : Bytes := (st.mem.take st.w).drop st.r

/-- how many bytes the next read delivers, into the memory behind the bytes held -/
def St.portion (st : St) : Nat :=
  match st.reads with
  | [] => st.mem.length - st.held.length
  | k :: _ => min (k + 1) (st.mem.length - st.held.length)

/-- `bufio.Reader.fill`: move the bytes held to the front (the rest of the memory stays as it is), then read once -/
def fill (st : St) : St :=
  if st.src = [] then
    { st with mem := st.held ++ st.mem.drop st.held.length, r := 0, w := st.held.length, eof := true }
  else
    let p := st.src.take st.portion
    { st with mem := st.held ++ p ++ st.mem.drop (st.held.length + p.length), r := 0, w := st.held.length + p.length,
              src := st.src.drop st.portion, reads := st.reads.tail }

/-- results: in either case the state of the buffer afterwards -/
inductive Res (α : Type) where
  | ok (a : α) (st : St)
  | err (e : Err) (st : St)

/-- apply a constructor to the value read -/
def Res.map {α β : Type} (g : α → β) : Res α → Res β
  | .ok a st => .ok (g a) st
  | .err e st => .err e st

/-- `bufio.Reader.ReadByte`; one read suffices, as every read delivers something or sets the error -/
def readByte (st : St) : Res UInt8 :=
  let st := if st.r = st.w ∧ st.eof = false then fill st else st
  match st.held with
  | [] => .err .eof { st with eof := false }
  | b :: _ => .ok b { st with r := st.r + 1 }

/-- the loop of `bufio.Reader.Peek(n)`; every step but the last reads something -/
def fillLoop (n : Nat) : Nat → St → St
  | 0, st => st
  | f + 1, st =>
    if st.held.length < n ∧ st.held.length < st.mem.length ∧ st.eof = false then fillLoop n f (fill st) else st

/-- cbor.go:431-442 `readBytes`: `Peek(num)`, then `Discard(num)` of what is in the buffer.  The result is a place in the
buffer. -/
def readBytes (num : Int) (st : St) : Res (Nat × Nat) :=
  if num < 0 then .err .negativeCount st
  else
    let n := num.toNat
    let st := fillLoop n (st.src.length + 1) st
    if st.mem.length < n then .err .bufferFull st
    else if st.held.length < n then .err .eof { st with eof := false }
    else .ok (st.r, n) { st with r := st.r + n }

/-- `readBytes` where the contents are copied or decoded at once -/
def readCopy (num : Int) (st : St) : Res Bytes :=
  match readBytes num st with
  | .ok (off, n) st => .ok ((st.mem.drop off).take n) st
  | .err e st => .err e st

/-- cbor.go:407-417 `readIntBytes` -/
def readIntBytes (num : Int) (st : St) : Res Int := (readCopy num st).map fun d => toInt64 (beNat d)

/-- cbor.go:419-429 `readFloatBytes` -/
def readFloatBytes (num : Int) (st : St) : Res UInt64 := (readCopy num st).map fun d => UInt64.ofNat (beNat d)

/-- cbor.go:389-405 `getVarLenInt` -/
def getVarLenInt (b : UInt8) (st : St) : Res Int :=
  let b := b &&& 0x1f
  if b < 0x18 then .ok b.toNat st
  else if b = 0x18 then readIntBytes 1 st
  else if b = 0x19 then readIntBytes 2 st
  else if b = 0x1a then readIntBytes 4 st
  else if b = 0x1b then readIntBytes 8 st
  else .err (.badVarLen b) st

/-- cbor.go:316-327 `readIndefiniteSequenceBreak`: `Peek(1)`, and `Discard(1)` if that is the break byte -/
def readBreak (st : St) : Bool × St :=
  let st := fillLoop 1 (st.src.length + 1) st
  match st.held with
  | [] => (false, { st with eof := false })
  | b :: _ => if b = 0xff then (true, { st with r := st.r + 1 }) else (false, st)

/-- cbor.go:329-340 `readLengthPrefixedBytes` -/
def readLengthPrefixedBytes (b : UInt8) (st : St) : Res (Nat × Nat) :=
  match getVarLenInt b st with
  | .ok len st => readBytes len st
  | .err e st => .err e st

/-- the same where the contents are copied at once -/
def readLengthPrefixedCopy (b : UInt8) (st : St) : Res Bytes :=
  match getVarLenInt b st with
  | .ok len st => readCopy len st
  | .err e st => .err e st

/-- cbor.go:173-195 `readStringKey` -/
def readStringKey (st : St) : Res Bytes :=
  match readByte st with
  | .err e st => .err e st
  | .ok b st => if b &&& 0xe0 ≠ 0x60 then .err .keyNotString st else readLengthPrefixedCopy b st

/-- cbor.go:224-239 and 241-256: the chunk loop of indefinite byte and text strings. -/
def readChunks : Nat → St → Res Bytes
  | 0, st => .err .fuel st
  | f + 1, st =>
    match readBreak st with
    | (true, st) => .ok [] st
    | (false, st) =>
      match readByte st with
      | .err e st => .err e st
      | .ok b st =>
        match readLengthPrefixedCopy b st with
        | .err e st => .err e st
        | .ok d st => (readChunks f st).map fun d' => d ++ d'

mutual
/-- cbor.go:197-314 `readValue` -/
def readValue : Nat → St → Res RVal
  | 0, st => .err .fuel st
  | f + 1, st =>
    match readByte st with
    | .err e st => .err e st
    | .ok b st =>
      if b < 0x1c then (getVarLenInt b st).map RVal.int
      else if 0x20 ≤ b ∧ b < 0x38 then .ok (.int (-((b - 0x1f).toNat : Int))) st
      else if b = 0xf6 then .ok .null st
      else if b = 0xf4 then .ok (.bool false) st
      else if b = 0xf5 then .ok (.bool true) st
      else if b = 0xf9 then (readFloatBytes 2 st).map RVal.f64
      else if b = 0xfa then (readFloatBytes 4 st).map RVal.f64
      else if b = 0xfb then (readFloatBytes 8 st).map RVal.f64
      else if b = 0x5f then (readChunks f st).map RVal.own
      else if b = 0x7f then (readChunks f st).map RVal.str
      else if b = 0x9f then (readArray f (-1) st).map RVal.arr
      else if b = 0xbf then (readMap f (-1) [] st).map RVal.obj
      else if b &&& 0xe0 = 0x60 then (readLengthPrefixedCopy b st).map RVal.str
      else if b &&& 0xe0 = 0x40 then (readLengthPrefixedBytes b st).map fun p => RVal.slice p.1 p.2
      else if b &&& 0xe0 = 0x80 then
        match getVarLenInt b st with
        | .err e st => .err e st
        | .ok len st => if maxCap < len then .err .panic st else (readArray f len st).map RVal.arr
      else if b &&& 0xe0 = 0xa0 then
        match getVarLenInt b st with
        | .err e st => .err e st
        | .ok len st => (readMap f len [] st).map RVal.obj
      else if b &&& 0xe0 = 0xc0 then .ok .null st
      else if b &&& 0xe0 = 0xe0 then .ok .null st
      else .err (.unknownTag b) st
/-- cbor.go:342-364 `readArray` -/
def readArray : Nat → Int → St → Res (List RVal)
  | 0, _, st => .err .fuel st
  | f + 1, len, st =>
    if len = 0 then .ok [] st
    else
      match (if len = -1 then readBreak st else (false, st)) with
      | (true, st) => .ok [] st
      | (false, st) =>
        match readValue f st with
        | .err e st => .err e st
        | .ok v st => (readArray f (if 0 < len then len - 1 else len) st).map fun l => v :: l
/-- cbor.go:366-387 `readMap` -/
def readMap : Nat → Int → List (Bytes × RVal) → St → Res (List (Bytes × RVal))
  | 0, _, _, st => .err .fuel st
  | f + 1, len, acc, st =>
    if len = 0 then .ok acc st
    else
      match (if len = -1 then readBreak st else (false, st)) with
      | (true, st) => .ok acc st
      | (false, st) =>
        match readStringKey st with
        | .err e st => .err e st
        | .ok k st =>
          match readValue f st with
          | .err e st => .err e st
          | .ok v st => readMap f (if 0 < len then len - 1 else len) (mapSet acc k v) st
end

/-- an entry as the reader returns it -/
structure REntry where
  index : Int := 0
  key : Bytes := []
  value : RVal := .null

/-- what one sees on looking at an entry while the buffer contains `mem` -/
def REntry.now (mem : Bytes) (e : REntry) : Entry := { index := e.index, key := e.key, value := CborBuf.now mem e.value }

/-- Reader state (cbor.go:16-23) -/
structure Reader where
  rowsRead : Nat := 0
  length : Int := 0
  st : St

/-- cbor.go:148-171 `readTopLevel` -/
def readTopLevel (st : St) : Res (UInt8 × Int) :=
  match readByte st with
  | .err e st => .err e st
  | .ok b st =>
    let t := b &&& 0xe0
    if t ≠ 0x80 ∧ t ≠ 0xa0 then .err .invalidTop st
    else if b &&& 0x1f = 0x1f then .ok (t, -1) st
    else (getVarLenInt b st).map fun n => (t, n)

/-- cbor.go:71-82 -/
def start (tl : TopLevel) (r : Reader) : Except Err Unit × Reader :=
  if r.rowsRead = 0 then
    match readTopLevel r.st with
    | .err e st => (.error e, { r with st := st })
    | .ok (t, n) st =>
      if t ≠ topByte tl then (.error .topMismatch, { r with st := st }) else (.ok (), { r with length := n, st := st })
  else (.ok (), r)

/-- enough recursion depth for any value in the input -/
def fuel (st : St) : Nat := fuelFor (st.held ++ st.src)

/-- cbor.go:84-103 -/
def readBody (tl : TopLevel) (r : Reader) : Except Err REntry × Reader :=
  match (if r.length = -1 then readBreak r.st else (false, r.st)) with
  | (true, st) => (.error .eof, { r with st := st })
  | (false, st) =>
    match tl with
    | .object =>
      match readStringKey st with
      | .err e st => (.error e, { r with st := st })
      | .ok k st =>
        match readValue (fuel st) st with
        | .err e st => (.error e, { r with st := st })
        | .ok v st => (.ok { key := k, value := v }, { r with rowsRead := r.rowsRead + 1, st := st })
    | .array =>
      match readValue (fuel st) st with
      | .err e st => (.error e, { r with st := st })
      | .ok v st => (.ok { index := r.rowsRead, value := v }, { r with rowsRead := r.rowsRead + 1, st := st })

/-- cbor.go:69-104 `ReadEntry` -/
def readEntry (tl : TopLevel) (r : Reader) : Except Err REntry × Reader :=
  match start tl r with
  | (.error e, r) => (.error e, r)
  | (.ok (), r) => readBody tl r

/-- Reading entries until the first error, and the state of the reader then. -/
def readLoop (tl : TopLevel) : Nat → Reader → List REntry × Err × Reader
  | 0, r => ([], .fuel, r)
  | f + 1, r =>
    match readEntry tl r with
    | (.error e, r) => ([], e, r)
    | (.ok ent, r) =>
      let (es, e, r) := readLoop tl f r
      (ent :: es, e, r)

/-- everything a fresh reader delivers for a body that arrives in portions -/
def readAll (tl : TopLevel) (reads : List Nat) (body : Bytes) : List REntry × Err × Reader :=
  readLoop tl (body.length + 1) { st := new reads body }

/-- what a caller sees who reads all entries first (as the CBOR writer does in `Copy`: it keeps the values until `Close`) -/
def seenAfter (tl : TopLevel) (reads : List Nat) (body : Bytes) : List Entry × Err :=
  let (es, e, r) := readAll tl reads body
  (es.map (REntry.now r.st.mem), e)

/-- what a caller sees who looks at each entry before reading the next -/
def seenLoop (tl : TopLevel) : Nat → Reader → List Entry × Err
  | 0, _ => ([], .fuel)
  | f + 1, r =>
    match readEntry tl r with
    | (.error e, _) => ([], e)
    | (.ok ent, r) =>
      let (es, e) := seenLoop tl f r
      (ent.now r.st.mem :: es, e)

def seenAtOnce (tl : TopLevel) (reads : List Nat) (body : Bytes) : List Entry × Err :=
  seenLoop tl (body.length + 1) { st := new reads body }

end Verif.CborBuf
