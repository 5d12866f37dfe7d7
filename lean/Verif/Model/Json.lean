import Verif.Go.JsonText
/-
Model of dsio/json.go: the JSON body reader and writer.

`Verif.Json` is the reader as it behaves when the whole remaining input sits in its buffer;
the buffered layer is modelled in Verif/Model/JsonBuf.lean and compared with this one by the C18
theorems.  (De)compression is not modelled.
-/
namespace Verif.Json

/-- Error values of the reader; `fuel` marks exhaustion of the recursion bound. -/
inductive Err where
  | openTop | separator | null | true | false | string | stringClose | atoi | parseFloat
  | comma | colon
  | fuel
deriving DecidableEq

/-- Result of a read.  The remaining input matters after an error too, because
`readArray` swallows some errors. -/
inductive Res (α : Type) where
  | ok (a : α) (rest : Bytes)
  | err (e : Err) (rest : Bytes)
deriving DecidableEq

/-- json.go:136-138 -/
def isWhitespace (c : UInt8) : Bool := c = 32 || c = 10 || c = 13 || c = 9

/-- json.go:207-233 `currentBuffer`: drop leading whitespace -/
def skipWS : Bytes → Bytes := List.dropWhile isWhitespace

/-- json.go:140-148 `readTokenChar`: the input after the character, if it comes next -/
def token (ch : UInt8) (s : Bytes) : Option Bytes :=
  match skipWS s with
  | [] => none
  | c :: t => if c = ch then some t else none

/-- json.go:150-166 `readLiteralToken`, on input without leading whitespace.  With too little
input left, `extendBuffer` discards what there is. -/
def readLit (tok : Bytes) (v : Val) (e : Err) (s : Bytes) : Res Val :=
  if s.length < tok.length then .err e []
  else if s.take tok.length = tok then .ok v (s.drop tok.length)
  else .err e s

/-- code point written by four hexadecimal digits -/
def hex4 (a b c d : UInt8) : Option Nat :=
  match hexVal a, hexVal b, hexVal c, hexVal d with
  | some a, some b, some c, some d => some (a * 4096 + b * 256 + c * 16 + d)
  | _, _, _, _ => none

/-- json.go:315-329: a `\uXXXX` escape, decoded with `strconv.Unquote`, which rejects malformed
digits and surrogate halves (Go ≥ 1.17; older versions yield U+FFFD for surrogate halves) -/
def uEscape (a b c d : UInt8) : Bytes :=
  match hex4 a b c d with
  | some n => if ValidRune n then utf8Enc n else [63]
  | none => [63]

/-- json.go:301-314: a `\xXX` escape -/
def xEscape (a b : UInt8) : Bytes :=
  match hexVal a, hexVal b with
  | some a, some b => [UInt8.ofNat (a * 16 + b)]
  | _, _ => [63]

/-- json.go:291-333: single character escapes; unknown ones stand for themselves -/
def simpleEscape (c : UInt8) : UInt8 :=
  if c = 98 then 8 else if c = 102 then 12 else if c = 110 then 10 else if c = 114 then 13
  else if c = 116 then 9 else c

/-- json.go:269-343 `unquoteJSONString`, on the text between the quotes.  When fewer than
the required hexadecimal digits precede the closing quote the Go slice runs past the quote, which is
not a hexadecimal digit, so the result is '?' (a run-time panic when the slice also runs past the
capacity of the buffer is not modelled). -/
def unq : Bytes → Bytes
  | [] => []
  | c :: t =>
    if c = 92 then
      match t with
      | [] => []
      | e :: t =>
        if e = 120 then
          match t with
          | a :: b :: t => xEscape a b ++ unq t
          | _ => [63]
        else if e = 117 then
          match t with
          | a :: b :: c :: d :: t => uEscape a b c d ++ unq t
          | _ => [63]
        else simpleEscape e :: unq t
    else c :: unq t

/-- json.go:354-374: split at the first quote that is not escaped -/
def scanStr : Bytes → Option (Bytes × Bytes)
  | [] => none
  | c :: t =>
    if c = 92 then
      match t with
      | [] => none
      | d :: t => (scanStr t).map fun p => (c :: d :: p.1, p.2)
    else if c = 34 then some ([], t)
    else (scanStr t).map fun p => (c :: p.1, p.2)

/-- json.go:345-376 `readString`, after the opening quote -/
def readStringBody (t : Bytes) : Res Bytes :=
  match scanStr t with
  | some (inner, r) => .ok (unq inner) r
  | none => .err .stringClose []

/-- json.go:345-376 `readString` -/
def readString (s : Bytes) : Res Bytes :=
  match skipWS s with
  | [] => .err .string []
  | c :: t => if c = 34 then readStringBody t else .err .string (c :: t)

/-- json.go:390-400: characters of a number; `isFloatCh` marks those that make it a float -/
def isFloatCh (c : UInt8) : Bool := c = 46 || c = 101 || c = 69 || c = 43
def isNumCh (c : UInt8) : Bool := isDigit c || isFloatCh c || c = 45

/-- json.go:401-412: conversion of a number's text -/
def convNumber (F : FloatCodec) (t r : Bytes) : Res Val :=
  if t.any isFloatCh then
    match F.parse t with
    | some x => .ok (.f64 x) r
    | none => .err .parseFloat r
  else
    match atoi t with
    | some i => .ok (.int i) r
    | none => .err .atoi r

/-- json.go:378-412 `readNumber`, on input starting with '-' or a digit -/
def readNumber (F : FloatCodec) (s : Bytes) : Res Val :=
  convNumber F (s.takeWhile isNumCh) (s.dropWhile isNumCh)

mutual
/-- json.go:176-205 `readValue`.  Anything unknown (also end of input) reads as nil and
consumes nothing. -/
def readValue (F : FloatCodec) : Nat → Bytes → Res Val
  | 0, s => .err .fuel s
  | f + 1, s =>
    match skipWS s with
    | [] => .ok .null []
    | c :: t =>
      if c = 110 then readLit b!"null" .null .null (c :: t)
      else if c = 116 then readLit b!"true" (.bool true) .true (c :: t)
      else if c = 102 then readLit b!"false" (.bool false) .false (c :: t)
      else if c = 34 then
        match readStringBody t with
        | .ok s r => .ok (.str s) r
        | .err e r => .err e r
      else if c = 45 ∨ isDigit c then readNumber F (c :: t)
      else if c = 123 then readObject F f t
      else if c = 91 then readArray F f t
      else .ok .null (c :: t)
/-- json.go:414-442 `readObject`, after '{' -/
def readObject (F : FloatCodec) : Nat → Bytes → Res Val
  | 0, s => .err .fuel s
  | f + 1, s =>
    match token 125 s with
    | some r => .ok (.obj []) r
    | none =>
      match readPair F f s with
      | .err e r => .err e r
      | .ok (k, v) r => readObjectRest F f (mapSet [] k v) r
/-- json.go:429-441: further members -/
def readObjectRest (F : FloatCodec) : Nat → List (Bytes × Val) → Bytes → Res Val
  | 0, _, s => .err .fuel s
  | f + 1, m, s =>
    match token 125 s with
    | some r => .ok (.obj m) r
    | none =>
      match token 44 s with
      | none => .err .comma (skipWS s)
      | some s =>
        match readPair F f s with
        | .err e r => .err e r
        | .ok (k, v) r => readObjectRest F f (mapSet m k v) r
/-- json.go:444-474 `readArray`, after '['.  An error in the first element is
swallowed and an empty array returned (454-456). -/
def readArray (F : FloatCodec) : Nat → Bytes → Res Val
  | 0, s => .err .fuel s
  | f + 1, s =>
    match token 93 s with
    | some r => .ok (.arr []) r
    | none =>
      match readValue F f s with
      | .err _ r => .ok (.arr []) r
      | .ok v r => readArrayRest F f [v] r
/-- json.go:459-472: further elements -/
def readArrayRest (F : FloatCodec) : Nat → List Val → Bytes → Res Val
  | 0, _, s => .err .fuel s
  | f + 1, l, s =>
    match token 93 s with
    | some r => .ok (.arr l) r
    | none =>
      match token 44 s with
      | none => .err .comma (skipWS s)
      | some s =>
        match readValue F f s with
        | .err e r => .err e r
        | .ok v r => readArrayRest F f (l ++ [v]) r
/-- json.go:476-489 `readKeyValuePair` -/
def readPair (F : FloatCodec) : Nat → Bytes → Res (Bytes × Val)
  | 0, s => .err .fuel s
  | f + 1, s =>
    match readString s with
    | .err e r => .err e r
    | .ok k r =>
      match token 58 r with
      | none => .err .colon (skipWS r)
      | some r =>
        match readValue F f r with
        | .err e r => .err e r
        | .ok v r => .ok (k, v) r
end

/-- recursion bound sufficient for input of this length (theorem `readValue_fuel`) -/
def fuelFor (s : Bytes) : Nat := 3 * s.length + 4

/-- json.go:16-25: reader state; `rest` is the unread input -/
structure RState where
  initialized : Bool := false
  entriesRead : Int := 0
  rest : Bytes
deriving DecidableEq

/-- outcome of `ReadEntry` -/
inductive Step where
  | entry (e : Entry) (s : RState)
  | eof (s : RState)
  | err (e : Err) (s : RState)
deriving DecidableEq

def openCh : TopLevel → UInt8
  | .array => 91
  | .object => 123
def closeCh : TopLevel → UInt8
  | .array => 93
  | .object => 125

/-- json.go:108-125: read the entry proper -/
def readBody (F : FloatCodec) (tl : TopLevel) (n : Int) (s : Bytes) : Step :=
  match tl with
  | .object =>
    match readPair F (fuelFor s) s with
    | .ok (k, v) r => .entry { key := k, value := v } ⟨true, n + 1, r⟩
    | .err e r => .err e ⟨true, n, r⟩
  | .array =>
    match readValue F (fuelFor s) s with
    | .ok v r => .entry { index := n, value := v } ⟨true, n + 1, r⟩
    | .err e r => .err e ⟨true, n, r⟩

/-- json.go:70-126 `ReadEntry` -/
def readEntry (F : FloatCodec) (tl : TopLevel) (st : RState) : Step :=
  if st.initialized then
    match token (closeCh tl) st.rest with
    | some r => .eof { st with rest := r }
    | none =>
      match token 44 st.rest with
      | none => .err .separator { st with rest := skipWS st.rest }
      | some r => readBody F tl st.entriesRead r
  else
    match token (openCh tl) st.rest with
    | none => .err .openTop { st with rest := skipWS st.rest }
    | some r =>
      match token (closeCh tl) r with
      | some r => .eof { st with rest := r }
      | none => readBody F tl st.entriesRead r

/-- How a sequence of `ReadEntry` calls ends -/
inductive End where
  | eof
  | err (e : Err)
  | outOfCalls
deriving DecidableEq

/-- call `ReadEntry` until it reports end-of-file or an error, at most `n` times -/
def readLoop (F : FloatCodec) (tl : TopLevel) : Nat → RState → List Entry × End
  | 0, _ => ([], .outOfCalls)
  | n + 1, st =>
    match readEntry F tl st with
    | .eof _ => ([], .eof)
    | .err e _ => ([], .err e)
    | .entry e st => (e :: (readLoop F tl n st).1, (readLoop F tl n st).2)

/-- read a whole body; each call consumes input, so `length + 1` calls suffice -/
def readAll (F : FloatCodec) (tl : TopLevel) (s : Bytes) : List Entry × End :=
  readLoop F tl (s.length + 1) { rest := s }

/-! ### The writer -/

/-- errors of `WriteEntry` (the destination accepts every write) -/
inductive WErr where
  | emptyKey | dupKey | marshal
deriving DecidableEq

/-- json.go:493-501: writer state with everything written so far -/
structure WState where
  rowsWritten : Nat := 0
  keysWritten : List Bytes := []
  out : Bytes := []
deriving DecidableEq

/-- `json.Marshal` or, with an indent, `indent ++ json.MarshalIndent(v, indent, indent)`
(json.go:587-592, 605-624) -/
def marshal (F : FloatCodec) (indent : Bytes) (v : Val) : Bytes :=
  if indent = [] then enc F v else indent ++ encP F indent indent 0 v

/-- json.go:584-631 `valBytes`: the new keys and the bytes, or an error -/
def valBytes (F : FloatCodec) (tl : TopLevel) (indent : Bytes) (keys : List Bytes) (e : Entry) :
    Except WErr Bytes × List Bytes :=
  match tl with
  | .array => (if jsonOK e.value then .ok (marshal F indent e.value) else .error .marshal, keys)
  | .object =>
    if e.key = [] then (.error .emptyKey, keys)
    else if e.key ∈ keys then (.error .dupKey, keys)
    else
      (if jsonOK e.value then .ok (marshal F indent (.str e.key) ++ 58 :: marshal F indent e.value)
        else .error .marshal, e.key :: keys)

/-- json.go:554-563: the opening bracket, before the first row -/
def opening (tl : TopLevel) (rows : Nat) : Bytes := if rows = 0 then [openCh tl] else []

/-- json.go:571-578: comma and newline between rows -/
def separator (indent : Bytes) (rows : Nat) : Bytes :=
  (if rows = 0 then [] else [44]) ++ (if indent = [] then [] else [10])

/-- json.go:550-582 `WriteEntry`; the row counter grows also on errors -/
def writeEntry (F : FloatCodec) (tl : TopLevel) (indent : Bytes) (e : Entry) (w : WState) : Except WErr Unit × WState :=
  match valBytes F tl indent w.keysWritten e with
  | (.ok d, keys) =>
    (.ok (), ⟨w.rowsWritten + 1, keys, w.out ++ opening tl w.rowsWritten ++ separator indent w.rowsWritten ++ d⟩)
  | (.error x, keys) => (.error x, ⟨w.rowsWritten + 1, keys, w.out ++ opening tl w.rowsWritten⟩)

/-- json.go:635-671 `Close`: all bytes written -/
def close (tl : TopLevel) (indent : Bytes) (w : WState) : Bytes :=
  if w.rowsWritten = 0 then w.out ++ [openCh tl, closeCh tl]
  else w.out ++ (if indent = [] then [] else [10]) ++ [closeCh tl]

/-- write a list of entries, collecting the results -/
def writeLoop (F : FloatCodec) (tl : TopLevel) (indent : Bytes) : List Entry → WState → List (Except WErr Unit) × WState
  | [], w => ([], w)
  | e :: es, w =>
    ((writeEntry F tl indent e w).1 :: (writeLoop F tl indent es (writeEntry F tl indent e w).2).1,
      (writeLoop F tl indent es (writeEntry F tl indent e w).2).2)

/-- results and output of writing a body and closing the writer -/
def writeAll (F : FloatCodec) (tl : TopLevel) (indent : Bytes) (es : List Entry) : List (Except WErr Unit) × Bytes :=
  ((writeLoop F tl indent es {}).1, close tl indent (writeLoop F tl indent es {}).2)

end Verif.Json
