import Verif.Go.Val
/-
Model of dsio/cbor.go: the CBOR body reader and writer.

The reader runs over a `bufio.Reader` with the default 4096 byte buffer; since
every access goes through ReadByte, Peek and Discard, its state is the list of
bytes not yet consumed.

Simplifications: decompression is not modelled; `[]byte` results are copied (the
Go code returns a slice aliasing the bufio buffer); a huge `make` that does not exceed the
address space is assumed to succeed.
-/
namespace Verif.Cbor

/-- Error values of the reader.  `panic` is a Go run-time panic; `fuel` marks
exhaustion of the recursion bound and is proved unreachable. -/
inductive Err where
  | eof
  | bufferFull
  | negativeCount
  | invalidTop
  | topMismatch
  | keyNotString
  | badVarLen (b : UInt8)
  | unknownTag (b : UInt8)
  | panic
  | fuel
deriving DecidableEq

/-- Result of a read: value and remaining input, or an error. -/
inductive Res (α : Type) where
  | ok (a : α) (rest : Bytes)
  | err (e : Err)
deriving DecidableEq

/-- apply a constructor to the value read -/
def Res.map {α β : Type} (g : α → β) : Res α → Res β
  | .ok a r => .ok (g a) r
  | .err e => .err e

/-- size of the buffer `bufio.NewReader` allocates -/
def bufSize : Int := 4096

/-- cbor.go:431-442 `readBytes`: `Peek(num)` then `Discard(num)`. -/
def readBytes (num : Int) (s : Bytes) : Res Bytes :=
  if num < 0 then .err .negativeCount
  else if bufSize < num then .err .bufferFull
  else if (s.length : Int) < num then .err .eof
  else .ok (s.take num.toNat) (s.drop num.toNat)

/-- cbor.go:407-417 `readIntBytes` (left padding with zero bytes does not change the
big-endian value) -/
def readIntBytes (num : Int) (s : Bytes) : Res Int :=
  match readBytes num s with
  | .ok d r => .ok (toInt64 (beNat d)) r
  | .err e => .err e

/-- cbor.go:419-429 `readFloatBytes`: short floats are padded to 8 bytes and
reinterpreted as float64 bits. -/
def readFloatBytes (num : Int) (s : Bytes) : Res UInt64 :=
  match readBytes num s with
  | .ok d r => .ok (UInt64.ofNat (beNat d)) r
  | .err e => .err e

/-- cbor.go:389-405 `getVarLenInt` -/
def getVarLenInt (b : UInt8) (s : Bytes) : Res Int :=
  let b := b &&& 0x1f
  if b < 0x18 then .ok b.toNat s
  else if b = 0x18 then readIntBytes 1 s
  else if b = 0x19 then readIntBytes 2 s
  else if b = 0x1a then readIntBytes 4 s
  else if b = 0x1b then readIntBytes 8 s
  else .err (.badVarLen b)

/-- cbor.go:316-327 `readIndefiniteSequenceBreak`: the input after the break byte, if the
next byte is one. -/
def readBreak : Bytes → Option Bytes
  | b :: s => if b = 0xff then some s else none
  | [] => none

/-- cbor.go:329-340 `readLengthPrefixedBytes` -/
def readLengthPrefixedBytes (b : UInt8) (s : Bytes) : Res Bytes :=
  match getVarLenInt b s with
  | .ok len r => readBytes len r
  | .err e => .err e

/-- cbor.go:173-195 `readStringKey` -/
def readStringKey : Bytes → Res Bytes
  | [] => .err .eof
  | b :: s =>
    if b &&& 0xe0 ≠ 0x60 then .err .keyNotString
    else match getVarLenInt b s with
      | .ok len r => readBytes len r
      | .err e => .err e

/-- cbor.go:224-239 and 241-256: the chunk loop of indefinite byte and text strings. -/
def readChunks : Nat → Bytes → Res Bytes
  | 0, _ => .err .fuel
  | _ + 1, [] => .err .eof
  | f + 1, b :: s' =>
    match readBreak (b :: s') with
    | some r => .ok [] r
    | none =>
      match readLengthPrefixedBytes b s' with
      | .err e => .err e
      | .ok d r =>
        match readChunks f r with
        | .err e => .err e
        | .ok d' r' => .ok (d ++ d') r'

/-- the largest capacity `make([]interface{}, 0, n)` accepts on a 64-bit machine
(2^48 bytes of address space, 16 bytes per interface value); above it `make` panics. -/
def maxCap : Int := 2^44

mutual
/-- cbor.go:197-314 `readValue` -/
def readValue : Nat → Bytes → Res Val
  | 0, _ => .err .fuel
  | _ + 1, [] => .err .eof
  | f + 1, b :: s =>
    if b < 0x1c then
      (getVarLenInt b s).map Val.int
    else if 0x20 ≤ b ∧ b < 0x38 then .ok (.int (-((b - 0x1f).toNat : Int))) s
    else if b = 0xf6 then .ok .null s
    else if b = 0xf4 then .ok (.bool false) s
    else if b = 0xf5 then .ok (.bool true) s
    else if b = 0xf9 then
      (readFloatBytes 2 s).map Val.f64
    else if b = 0xfa then
      (readFloatBytes 4 s).map Val.f64
    else if b = 0xfb then
      (readFloatBytes 8 s).map Val.f64
    else if b = 0x5f then
      (readChunks f s).map Val.bytes
    else if b = 0x7f then
      (readChunks f s).map Val.str
    else if b = 0x9f then
      (readArray f (-1) s).map Val.arr
    else if b = 0xbf then
      (readMap f (-1) [] s).map Val.obj
    else
      if b &&& 0xe0 = 0x60 then
        (readLengthPrefixedBytes b s).map Val.str
      else if b &&& 0xe0 = 0x40 then
        (readLengthPrefixedBytes b s).map Val.bytes
      else if b &&& 0xe0 = 0x80 then
        match getVarLenInt b s with
        | .err e => .err e
        | .ok len r =>
          if maxCap < len then .err .panic
          else (readArray f len r).map Val.arr
      else if b &&& 0xe0 = 0xa0 then
        match getVarLenInt b s with
        | .err e => .err e
        | .ok len r =>
          (readMap f len [] r).map Val.obj
      else if b &&& 0xe0 = 0xc0 then .ok .null s
      else if b &&& 0xe0 = 0xe0 then .ok .null s
      else .err (.unknownTag b)
/-- cbor.go:342-364 `readArray`, the loop (the `make` of line 346 is checked by the caller) -/
def readArray : Nat → Int → Bytes → Res (List Val)
  | 0, _, _ => .err .fuel
  | f + 1, len, s =>
    if len = 0 then .ok [] s
    else
      match (if len = -1 then readBreak s else none) with
      | some r => .ok [] r
      | none =>
        match readValue f s with
        | .err e => .err e
        | .ok v r =>
          match readArray f (if 0 < len then len - 1 else len) r with
          | .err e => .err e
          | .ok l r' => .ok (v :: l) r'
/-- cbor.go:366-387 `readMap`, the loop; `acc` is the map built so far -/
def readMap : Nat → Int → List (Bytes × Val) → Bytes → Res (List (Bytes × Val))
  | 0, _, _, _ => .err .fuel
  | f + 1, len, acc, s =>
    if len = 0 then .ok acc s
    else
      match (if len = -1 then readBreak s else none) with
      | some r => .ok acc r
      | none =>
        match readStringKey s with
        | .err e => .err e
        | .ok k r =>
          match readValue f r with
          | .err e => .err e
          | .ok v r' => readMap f (if 0 < len then len - 1 else len) (mapSet acc k v) r'
end

/-- enough recursion depth for any value in `s` (proved in `Lemmas/Cbor`) -/
def fuelFor (s : Bytes) : Nat := 2 * s.length + 2

/-- Reader state (cbor.go:16-23): rows read so far, declared length, unread input.  The
expected top-level type is a parameter. -/
structure Reader where
  rowsRead : Nat := 0
  length : Int := 0
  inp : Bytes

/-- cbor.go:148-171 `readTopLevel` (the top-level type byte and declared length) -/
def readTopLevel : Bytes → Res (UInt8 × Int)
  | [] => .err .eof
  | b :: s =>
    let t := b &&& 0xe0
    if t ≠ 0x80 ∧ t ≠ 0xa0 then .err .invalidTop
    else if b &&& 0x1f = 0x1f then .ok (t, -1) s
    else match getVarLenInt b s with
      | .ok n r => .ok (t, n) r
      | .err e => .err e

/-- cbor.go:50-54: the type byte expected for a body -/
def topByte : TopLevel → UInt8
  | .array => 0x80
  | .object => 0xa0

/-- cbor.go:71-82: on the first entry the header is read and checked. -/
def start (tl : TopLevel) (r : Reader) : Except Err Reader :=
  if r.rowsRead = 0 then
    match readTopLevel r.inp with
    | .err e => .error e
    | .ok (t, n) rest =>
      if t ≠ topByte tl then .error .topMismatch
      else .ok { r with length := n, inp := rest }
  else .ok r

/-- cbor.go:84-103: reading one entry after the header. -/
def readBody (tl : TopLevel) (r : Reader) : Except Err (Entry × Reader) :=
  match (if r.length = -1 then readBreak r.inp else none) with
  | some _ => .error .eof
  | none =>
    match tl with
    | .object =>
      match readStringKey r.inp with
      | .err e => .error e
      | .ok k rest =>
        match readValue (fuelFor rest) rest with
        | .err e => .error e
        | .ok v rest' => .ok ({ key := k, value := v }, { r with rowsRead := r.rowsRead + 1, inp := rest' })
    | .array =>
      match readValue (fuelFor r.inp) r.inp with
      | .err e => .error e
      | .ok v rest' =>
        .ok ({ index := r.rowsRead, value := v }, { r with rowsRead := r.rowsRead + 1, inp := rest' })

/-- cbor.go:69-104 `ReadEntry` -/
def readEntry (tl : TopLevel) (r : Reader) : Except Err (Entry × Reader) :=
  match start tl r with
  | .error e => .error e
  | .ok r' => readBody tl r'

/-- Reading entries until the first error (the loop every caller runs: EachEntry,
ReadAll, Copy).  Returns the entries and the error that ended the loop. -/
def readLoop (tl : TopLevel) : Nat → Reader → List Entry × Err
  | 0, _ => ([], .fuel)
  | f + 1, r =>
    match readEntry tl r with
    | .error e => ([], e)
    | .ok (ent, r') =>
      let (es, e) := readLoop tl f r'
      (ent :: es, e)

/-- everything a fresh reader delivers for a body -/
def readAll (tl : TopLevel) (body : Bytes) : List Entry × Err :=
  readLoop tl (body.length + 1) { inp := body }

/-! ### Writer -/

/-- ugorji codec v1.1.7 `cborEncDriver.encUint`: shortest head for a length or magnitude -/
def encUint (base : UInt8) (v : Nat) : Bytes :=
  if v ≤ 0x17 then [base + UInt8.ofNat v]
  else if v ≤ 0xff then (base + 0x18) :: toBE 1 v
  else if v ≤ 0xffff then (base + 0x19) :: toBE 2 v
  else if v ≤ 0xffffffff then (base + 0x1a) :: toBE 4 v
  else (base + 0x1b) :: toBE 8 v

mutual
/-- canonical CBOR encoding of a Go value as done by the ugorji encoder with
`Canonical = true` (cbor.go:518-526).  Maps are written in key order. -/
def enc : Val → Bytes
  | .null => [0xf6]
  | .bool false => [0xf4]
  | .bool true => [0xf5]
  | .int i => if i < 0 then encUint 0x20 (-1 - i).toNat else encUint 0x00 i.toNat
  | .gint i => if i < 0 then encUint 0x20 (-1 - i).toNat else encUint 0x00 i.toNat
  | .f64 x => 0xfb :: toBE 8 x.toNat
  | .str s => encUint 0x60 s.length ++ s
  | .bytes s => encUint 0x40 s.length ++ s
  | .arr l => encUint 0x80 l.length ++ encList l
  | .obj m => encUint 0xa0 m.length ++ encFields m
/-- elements of an array, in order -/
def encList : List Val → Bytes
  | [] => []
  | v :: t => enc v ++ encList t
/-- bindings of a map, in key order -/
def encFields : List (Bytes × Val) → Bytes
  | [] => []
  | (k, v) :: t => encUint 0x60 k.length ++ k ++ enc v ++ encFields t
end

/-- Writer state (cbor.go:446-454): the collected array or map. -/
structure Writer where
  arr : List Val := []
  obj : List (Bytes × Val) := []

/-- cbor.go:493-513 `WriteEntry`; the flag tells whether the entry was accepted -/
def writeEntry (tl : TopLevel) (w : Writer) (e : Entry) : Writer × Bool :=
  match tl with
  | .object =>
    if e.key = [] then (w, false)
    else if (mapGet w.obj e.key).isSome then (w, false)
    else ({ w with obj := mapSet w.obj e.key e.value }, true)
  | .array => ({ w with arr := w.arr ++ [e.value] }, true)

/-- cbor.go:515-535 `Close`: encode everything at once -/
def close (tl : TopLevel) (w : Writer) : Bytes :=
  match tl with
  | .object => enc (.obj w.obj)
  | .array => enc (.arr w.arr)

/-- write all entries (rejected entries are dropped), then close -/
def writeAll (tl : TopLevel) (es : List Entry) : Bytes :=
  close tl (es.foldl (fun w e => (writeEntry tl w e).1) {})

end Verif.Cbor
