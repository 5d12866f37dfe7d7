import Verif.Go.JsonText
/-
Model of Go's `encoding/json` decoder (external library, documented behaviour):
`json.Unmarshal(data, &v)` for `v interface{}`.  Strict RFC 8259 syntax, all numbers become float64,
nesting is limited to 10000.
-/
set_option autoImplicit false
namespace Verif.JsonStd

def isWS (c : UInt8) : Bool := c = 32 || c = 10 || c = 13 || c = 9

def skipWS : Bytes → Bytes := List.dropWhile isWS

/-- text between quotes: up to the first quote that is not escaped; no control characters, only known
escapes -/
def strRaw : Bytes → Option (Bytes × Bytes)
  | [] => none
  | c :: t =>
    if c = 34 then some ([], t)
    else if c < 0x20 then none
    else if c = 92 then
      match t with
      | [] => none
      | e :: t =>
        if e = 117 then
          match t with
          | a :: b :: c' :: d :: t =>
            if (hexVal a).isSome && (hexVal b).isSome && (hexVal c').isSome && (hexVal d).isSome then
              (strRaw t).map fun p => (c :: e :: a :: b :: c' :: d :: p.1, p.2)
            else none
          | _ => none
        else if e ∈ [34, 92, 47, 98, 102, 110, 114, 116] then (strRaw t).map fun p => (c :: e :: p.1, p.2)
        else none
    else (strRaw t).map fun p => (c :: p.1, p.2)

/-- `getu4`: the code unit written by four hexadecimal digits -/
def hex4 (a b c d : UInt8) : Nat :=
  (hexVal a).getD 0 * 4096 + (hexVal b).getD 0 * 256 + (hexVal c).getD 0 * 16 + (hexVal d).getD 0

def escChar (e : UInt8) : UInt8 :=
  if e = 98 then 8 else if e = 102 then 12 else if e = 110 then 10 else if e = 114 then 13 else if e = 116 then 9 else e

/-- `unquote` of checked text that is valid UTF-8; halves of surrogate pairs that do not combine become
U+FFFD -/
def unescape : Bytes → Bytes
  | [] => []
  | c :: t =>
    if c = 92 then
      match t with
      | [] => []
      | e :: t =>
        if e = 117 then
          match t with
          | a :: b :: c' :: d :: t =>
            if 0xD800 ≤ hex4 a b c' d ∧ hex4 a b c' d < 0xE000 then
              match t with
              | 92 :: 117 :: a' :: b' :: c'' :: d' :: t' =>
                if hex4 a b c' d < 0xDC00 ∧ 0xDC00 ≤ hex4 a' b' c'' d' ∧ hex4 a' b' c'' d' < 0xE000 then
                  utf8Enc (0x10000 + (hex4 a b c' d - 0xD800) * 1024 + (hex4 a' b' c'' d' - 0xDC00)) ++ unescape t'
                else utf8Enc runeError ++ unescape (92 :: 117 :: a' :: b' :: c'' :: d' :: t')
              | t => utf8Enc runeError ++ unescape t
            else utf8Enc (hex4 a b c' d) ++ unescape t
          | _ => []
        else escChar e :: unescape t
    else c :: unescape t

/-- string literal after the opening quote -/
def strLit (s : Bytes) : Option (Bytes × Bytes) := (strRaw s).map fun p => (unescape (toValidUtf8 0 p.1), p.2)

/-- leading digits, at least one -/
def digits1 (s : Bytes) : Option (Bytes × Bytes) :=
  if s.takeWhile isDigit = [] then none else some (s.takeWhile isDigit, s.dropWhile isDigit)

def intLit : Bytes → Option (Bytes × Bytes)
  | [] => none
  | c :: t => if c = 48 then some ([48], t) else digits1 (c :: t)

def fracLit : Bytes → Option (Bytes × Bytes)
  | [] => some ([], [])
  | c :: t => if c = 46 then (digits1 t).map fun p => (46 :: p.1, p.2) else some ([], c :: t)

def signLit : Bytes → Bytes × Bytes
  | [] => ([], [])
  | c :: t => if c = 43 ∨ c = 45 then ([c], t) else ([], c :: t)

def expLit : Bytes → Option (Bytes × Bytes)
  | [] => some ([], [])
  | c :: t =>
    if c = 101 ∨ c = 69 then (digits1 (signLit t).2).map fun p => (c :: ((signLit t).1 ++ p.1), p.2)
    else some ([], c :: t)

def unsigned (s : Bytes) : Option (Bytes × Bytes) :=
  (intLit s).bind fun i => (fracLit i.2).bind fun f => (expLit f.2).map fun e => (i.1 ++ (f.1 ++ e.1), e.2)

/-- a number and what follows it -/
def numLit : Bytes → Option (Bytes × Bytes)
  | [] => none
  | c :: t => if c = 45 then (unsigned t).map fun p => (45 :: p.1, p.2) else unsigned (c :: t)

def lit (tok : Bytes) (v : Val) (s : Bytes) : Option (Val × Bytes) :=
  if tok.isPrefixOf s then some (v, s.drop tok.length) else none

def maxDepth : Nat := 10000

mutual
/-- a value, nested `d` deep, and what follows it -/
def value (F : FloatCodec) : Nat → Nat → Bytes → Option (Val × Bytes)
  | 0, _, _ => none
  | f + 1, d, s =>
    match skipWS s with
    | [] => none
    | c :: t =>
      if c = 110 then lit b!"null" .null (c :: t)
      else if c = 116 then lit b!"true" (.bool true) (c :: t)
      else if c = 102 then lit b!"false" (.bool false) (c :: t)
      else if c = 34 then (strLit t).map fun p => (.str p.1, p.2)
      else if c = 91 then
        if maxDepth ≤ d then none
        else match skipWS t with
          | [] => none
          | e :: r => if e = 93 then some (.arr [], r) else elems F f (d + 1) [] (e :: r)
      else if c = 123 then
        if maxDepth ≤ d then none
        else match skipWS t with
          | [] => none
          | e :: r => if e = 125 then some (.obj [], r) else members F f (d + 1) [] (e :: r)
      else (numLit (c :: t)).bind fun p => (F.parse p.1).map fun x => (.f64 x, p.2)
/-- elements up to the closing bracket -/
def elems (F : FloatCodec) : Nat → Nat → List Val → Bytes → Option (Val × Bytes)
  | 0, _, _, _ => none
  | f + 1, d, acc, s =>
    (value F f d s).bind fun p =>
      match skipWS p.2 with
      | [] => none
      | c :: t =>
        if c = 44 then elems F f d (acc ++ [p.1]) t
        else if c = 93 then some (.arr (acc ++ [p.1]), t)
        else none
/-- members up to the closing brace; later ones replace earlier ones with the same key -/
def members (F : FloatCodec) : Nat → Nat → List (Bytes × Val) → Bytes → Option (Val × Bytes)
  | 0, _, _, _ => none
  | f + 1, d, acc, s =>
    match skipWS s with
    | [] => none
    | q :: s =>
      if q = 34 then
        (strLit s).bind fun k =>
          match skipWS k.2 with
          | [] => none
          | col :: s =>
            if col = 58 then
              (value F f d s).bind fun p =>
                match skipWS p.2 with
                | [] => none
                | c :: t =>
                  if c = 44 then members F f d (mapSet acc k.1 p.1) t
                  else if c = 125 then some (.obj (mapSet acc k.1 p.1), t)
                  else none
            else none
      else none
end

/-- `json.Unmarshal(s, &v)`; none for an error -/
def unmarshal (F : FloatCodec) (s : Bytes) : Option Val :=
  (value F (2 * s.length + 2) 0 s).bind fun p => if skipWS p.2 = [] then some p.1 else none

end Verif.JsonStd
