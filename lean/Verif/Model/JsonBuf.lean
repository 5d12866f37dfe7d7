import Verif.Model.Json
/-
Model of dsio/json.go, the JSON body reader, on top of a buffer that is filled piece by piece.

`Verif.JsonBuf` follows the code with its `bufio.Reader`: the buffer has a fixed size, and the source delivers its bytes in
portions of any size.  Slices of the buffer share its memory, and reslicing one beyond its length is legal as long as the
capacity suffices, so the capacity is modelled too.  Read errors of the source other than end of file are not modelled, and
the source reports end of file only when asked for more than it has.
-/
set_option autoImplicit false
namespace Verif.JsonBuf
open Json

/-- not modelled: `spare b` is the capacity beyond its length which `append` gives a copy with contents `b` -/
structure Env where
  spare : Bytes → Nat

/-- json.go:16-25 with `bufio.Reader`: `buf` is `b.buf[b.r:b.w]`, `pos` is `b.r`, `eof` tells whether `b.err` is set, `src` is what
the source has still to deliver.  The next read delivers at most one byte more than the first of `reads`; without one, all that fits.
`prev` is `prevSize`. -/
structure St where
  size : Nat
  pos : Nat := 0
  buf : Bytes := []
  eof : Bool := false
  src : Bytes
  reads : List Nat := []
  prev : Nat := 0
deriving DecidableEq

/-- `bufio.NewReaderSize`: the size is at least 16 -/
def new (size : Nat) (reads : List Nat) (s : Bytes) : St := { size := max size 16, src := s, reads := reads }

/-- how many bytes the next read delivers -/
def St.portion (st : St) : Nat :=
  match st.reads with
  | [] => st.size - st.buf.length
  | k :: _ => min (k + 1) (st.size - st.buf.length)

/-- `bufio.Reader.fill`: move the contents to the front, then read once -/
def fill (st : St) : St :=
  if st.src = [] then { st with pos := 0, eof := true }
  else { st with pos := 0, buf := st.buf ++ st.src.take st.portion, src := st.src.drop st.portion, reads := st.reads.tail }

/-- json.go:67 -/
def blockSize : Nat := 4096

/-- the loop of `bufio.Reader.Peek(blockSize)`; every step but the last reads something -/
def fillLoop : Nat → St → St
  | 0, st => st
  | n + 1, st => if st.buf.length < blockSize ∧ st.buf.length < st.size ∧ st.eof = false then fillLoop n (fill st) else st

/-- `bufio.Reader.Peek(blockSize)`; the error is forgotten if the buffer is large enough but not filled -/
def peek (st : St) : St :=
  let st := fillLoop (st.src.length + 1) st
  if blockSize ≤ st.size ∧ st.buf.length < blockSize then { st with eof := false } else st

/-- `bufio.Reader.Discard`, never of more than there is in the buffer -/
def discard (n : Nat) (st : St) : St := { st with pos := st.pos + n, buf := st.buf.drop n }

/-- a slice: its contents and its capacity beyond them -/
structure Slice where
  data : Bytes
  spare : Nat

/-- json.go:235-251 `extendBuffer`; `none` if there is no more -/
def extend (E : Env) (orig : Bytes) (st : St) : Option Slice × St :=
  let st := { st with prev := st.prev + st.buf.length }
  let st := peek (discard st.buf.length st)
  if 0 < st.buf.length then (some ⟨orig ++ st.buf, E.spare (orig ++ st.buf)⟩, st) else (none, st)

/-- json.go:212-225 and 382-400: the loops of `currentBuffer` and `readNumber`, which go on from index `i` while the characters
are of a kind; `i` is never more than the length -/
def span (E : Env) (p : UInt8 → Bool) : Nat → Slice → Nat → St → Slice × Nat × St
  | 0, b, i, st => (b, i, st)
  | n + 1, b, i, st =>
    match (if b.data.length ≤ i then extend E b.data st else (some b, st)) with
    | (none, st) => (b, i, st)
    | (some b, st) =>
      match b.data[i]? with
      | none => (b, i, st)
      | some c => if p c then span E p n b (i + 1) st else (b, i, st)

/-- json.go:207-233 `currentBuffer` -/
def current (E : Env) (st : St) : Slice × St :=
  let st := { st with prev := 0 }
  let (b, skip, st) := span E isWhitespace (st.buf.length + st.src.length + 1) ⟨st.buf, st.size - st.pos - st.buf.length⟩ 0 st
  if 0 < skip then (⟨b.data.drop skip, b.spare⟩, { discard (skip - st.prev) st with prev := 0 }) else (b, st)

/-- results; a run-time panic is an index or a slice bound out of range -/
inductive Res (α : Type) where
  | ok (a : α) (st : St)
  | err (e : Err) (st : St)
  | panic
deriving DecidableEq

/-- json.go:140-148 `readTokenChar` -/
def token (E : Env) (ch : UInt8) (st : St) : Bool × St :=
  let (b, st) := current E st
  if b.data.head? = some ch then (true, discard 1 st) else (false, st)

/-- json.go:150-166 `readLiteralToken` -/
def readLit (E : Env) (tok : Bytes) (v : Val) (e : Err) (st : St) : Res Val :=
  let (b, st) := current E st
  match (if b.data.length < tok.length then extend E b.data st else (some b, st)) with
  | (none, st) => .err e st
  | (some b, st) =>
    if tok.length ≤ b.data.length ∧ b.data.take tok.length = tok then .ok v (discard (tok.length - st.prev) st) else .err e st

/-- json.go:269-343 `unquoteJSONString` on the text between the quotes, with `after` bytes of memory behind it.  If
fewer than the required digits precede the closing quote, the slice runs past it: that is a panic unless there is memory, and
otherwise not a number, because of the quote. -/
def unq (after : Nat) : Bytes → Option Bytes
  | [] => some []
  | c :: t =>
    if c = 92 then
      match t with
      | [] => some []
      | e :: t =>
        if e = 120 then
          match t with
          | a :: b :: t => (unq after t).map (xEscape a b ++ ·)
          | t => if t.length + after < 2 then none else some [63]
        else if e = 117 then
          match t with
          | a :: b :: c :: d :: t => (unq after t).map (uEscape a b c d ++ ·)
          | t => if t.length + after < 4 then none else some [63]
        else (unq after t).map (simpleEscape e :: ·)
    else (unq after t).map (c :: ·)

/-- json.go:354-374: the loop of `readString` at index `i` -/
def scan (E : Env) : Nat → Slice → Nat → St → Res Bytes
  | 0, _, _, st => .err .fuel st
  | n + 1, b, i, st =>
    match (if b.data.length ≤ i then extend E b.data st else (some b, st)) with
    | (none, st) => .err .stringClose st
    | (some b, st) =>
      match b.data[i]? with
      | none => .panic
      | some c =>
        if c = 92 then scan E n b (i + 2) st
        else if c = 34 then
          match unq (b.data.length - i + b.spare) ((b.data.take i).drop 1) with
          | none => .panic
          | some s => .ok s { discard (i + 1 - st.prev) st with prev := 0 }
        else scan E n b (i + 1) st

/-- json.go:345-376 `readString` -/
def readString (E : Env) (st : St) : Res Bytes :=
  let (b, st) := current E st
  if b.data.head? = some 34 then scan E (b.data.length + st.src.length + 1) b 1 st else .err .string st

/-- json.go:378-412 `readNumber`, where a digit or '-' comes next -/
def readNumber (F : FloatCodec) (E : Env) (st : St) : Res Val :=
  let (b, st) := current E st
  let (b, i, st) := span E isNumCh (b.data.length + st.src.length + 1) b 0 st
  let st := { discard (i - st.prev) st with prev := 0 }
  match convNumber F (b.data.take i) [] with
  | .ok v _ => .ok v st
  | .err e _ => .err e st

mutual
/-- json.go:176-205 `readValue` -/
def readValue (F : FloatCodec) (E : Env) : Nat → St → Res Val
  | 0, st => .err .fuel st
  | f + 1, st =>
    let (b, st) := current E st
    match b.data.head? with
    | none => .ok .null st
    | some c =>
      if c = 110 then readLit E b!"null" .null .null st
      else if c = 116 then readLit E b!"true" (.bool true) .true st
      else if c = 102 then readLit E b!"false" (.bool false) .false st
      else if c = 34 then
        match readString E st with
        | .ok s st => .ok (.str s) st
        | .err e st => .err e st
        | .panic => .panic
      else if c = 45 ∨ isDigit c then readNumber F E st
      else if c = 123 then readObject F E f (token E 123 st).2
      else if c = 91 then readArray F E f (token E 91 st).2
      else .ok .null st
/-- json.go:418-442 `readObject`, after '{' -/
def readObject (F : FloatCodec) (E : Env) : Nat → St → Res Val
  | 0, st => .err .fuel st
  | f + 1, st =>
    match token E 125 st with
    | (true, st) => .ok (.obj []) st
    | (false, st) =>
      match readPair F E f st with
      | .panic => .panic
      | .err e st => .err e st
      | .ok (k, v) st => readObjectRest F E f (mapSet [] k v) st
/-- json.go:429-441 -/
def readObjectRest (F : FloatCodec) (E : Env) : Nat → List (Bytes × Val) → St → Res Val
  | 0, _, st => .err .fuel st
  | f + 1, m, st =>
    match token E 125 st with
    | (true, st) => .ok (.obj m) st
    | (false, st) =>
      match token E 44 st with
      | (false, st) => .err .comma st
      | (true, st) =>
        match readPair F E f st with
        | .panic => .panic
        | .err e st => .err e st
        | .ok (k, v) st => readObjectRest F E f (mapSet m k v) st
/-- json.go:448-474 `readArray`, after '[' -/
def readArray (F : FloatCodec) (E : Env) : Nat → St → Res Val
  | 0, st => .err .fuel st
  | f + 1, st =>
    match token E 93 st with
    | (true, st) => .ok (.arr []) st
    | (false, st) =>
      match readValue F E f st with
      | .panic => .panic
      | .err _ st => .ok (.arr []) st
      | .ok v st => readArrayRest F E f [v] st
/-- json.go:459-472 -/
def readArrayRest (F : FloatCodec) (E : Env) : Nat → List Val → St → Res Val
  | 0, _, st => .err .fuel st
  | f + 1, l, st =>
    match token E 93 st with
    | (true, st) => .ok (.arr l) st
    | (false, st) =>
      match token E 44 st with
      | (false, st) => .err .comma (current E st).2
      | (true, st) =>
        match readValue F E f st with
        | .panic => .panic
        | .err e st => .err e st
        | .ok v st => readArrayRest F E f (l ++ [v]) st
/-- json.go:476-489 `readKeyValuePair` -/
def readPair (F : FloatCodec) (E : Env) : Nat → St → Res (Bytes × Val)
  | 0, st => .err .fuel st
  | f + 1, st =>
    match readString E st with
    | .panic => .panic
    | .err e st => .err e st
    | .ok k st =>
      match token E 58 st with
      | (false, st) => .err .colon st
      | (true, st) =>
        match readValue F E f st with
        | .panic => .panic
        | .err e st => .err e st
        | .ok v st => .ok (k, v) st
end

/-- everything not yet read -/
def St.rest (st : St) : Bytes := st.buf ++ st.src

/-- json.go:16-25 -/
structure Reader where
  initialized : Bool := false
  entriesRead : Int := 0
  st : St
deriving DecidableEq

/-- outcome of `ReadEntry` -/
inductive Step where
  | entry (e : Entry) (r : Reader)
  | eof (r : Reader)
  | err (e : Err) (r : Reader)
  | panic
deriving DecidableEq

/-- json.go:105-125; `f` bounds the nesting and exceeds what the unread text can hold -/
def readBody (F : FloatCodec) (E : Env) (tl : TopLevel) (f : Nat) (n : Int) (st : St) : Step :=
  match tl with
  | .object =>
    match readPair F E f st with
    | .ok (k, v) st => .entry { key := k, value := v } ⟨true, n + 1, st⟩
    | .err e st => .err e ⟨true, n, st⟩
    | .panic => .panic
  | .array =>
    match readValue F E f st with
    | .ok v st => .entry { index := n, value := v } ⟨true, n + 1, st⟩
    | .err e st => .err e ⟨true, n, st⟩
    | .panic => .panic

/-- json.go:70-126 `ReadEntry` -/
def readEntry (F : FloatCodec) (E : Env) (tl : TopLevel) (r : Reader) : Step :=
  let st := peek r.st
  if r.initialized then
    match token E (closeCh tl) st with
    | (true, st) => .eof { r with st := st }
    | (false, st) =>
      match token E 44 st with
      | (false, st) => .err .separator { r with st := st }
      | (true, st) => readBody F E tl (fuelFor st.rest) r.entriesRead st
  else
    match token E (openCh tl) st with
    | (false, st) => .err .openTop { r with st := st }
    | (true, st) =>
      let f := fuelFor st.rest
      match token E (closeCh tl) st with
      | (true, st) => .eof { r with st := st }
      | (false, st) => readBody F E tl f r.entriesRead st

/-- how a sequence of `ReadEntry` calls ends -/
inductive End where
  | eof
  | err (e : Err)
  | panic
  | outOfCalls
deriving DecidableEq

/-- call `ReadEntry` until it reports end-of-file or an error, at most `n` times -/
def readLoop (F : FloatCodec) (E : Env) (tl : TopLevel) : Nat → Reader → List Entry × End
  | 0, _ => ([], .outOfCalls)
  | n + 1, r =>
    match readEntry F E tl r with
    | .eof _ => ([], .eof)
    | .err e _ => ([], .err e)
    | .panic => ([], .panic)
    | .entry e r => (e :: (readLoop F E tl n r).1, (readLoop F E tl n r).2)

/-- read a whole body with a buffer of the given size and portions -/
def readAll (F : FloatCodec) (E : Env) (tl : TopLevel) (size : Nat) (reads : List Nat) (s : Bytes) : List Entry × End :=
  readLoop F E tl (s.length + 1) { st := new size reads s }

end Verif.JsonBuf
