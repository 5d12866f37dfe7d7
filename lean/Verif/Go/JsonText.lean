import Verif.Go.Strconv
import Verif.Go.Utf8
/-
Model of Go's `encoding/json` marshaller on decoded data (external library, documented
behaviour): `json.Marshal` and `json.MarshalIndent`.
-/
namespace Verif

/-- Conversions between float64 and text.  They are a parameter of the model: theorems
that involve floats state what they need of the conversion of each value that occurs.
* `fmt`  – the text `json.Marshal` prints for a finite float64,
* `parse` – `strconv.ParseFloat(s, 64)`, `none` on error. -/
structure FloatCodec where
  fmt : UInt64 → Bytes
  parse : Bytes → Option UInt64

/-- infinities and NaNs, which `json.Marshal` rejects -/
def floatFinite (x : UInt64) : Bool := x &&& 0x7FF0000000000000 != 0x7FF0000000000000

/-- `encoding/json` `htmlSafeSet`: ASCII bytes copied verbatim into strings -/
def htmlSafe (b : UInt8) : Bool :=
  0x20 ≤ b && b < 0x80 && b != 34 && b != 38 && b != 60 && b != 62 && b != 92

/-- how one ASCII byte is written inside a JSON string -/
def escAscii (b : UInt8) : Bytes :=
  if htmlSafe b then [b]
  else if b = 92 ∨ b = 34 then [92, b]
  else if b = 10 then b!"\\n"
  else if b = 13 then b!"\\r"
  else if b = 9 then b!"\\t"
  else [92, 117, 48, 48, hexDigit (b.toNat / 16), hexDigit (b.toNat % 16)]

/-- body of a JSON string (`encodeState.string` with HTML escaping).  The first argument
counts bytes of the current code point still to be skipped. -/
def escBody : Nat → Bytes → Bytes
  | _, [] => []
  | k + 1, _ :: t => escBody k t
  | 0, b :: t =>
    if b < 0x80 then escAscii b ++ escBody 0 t
    else
      if (utf8Dec (b :: t)).1 = runeError ∧ (utf8Dec (b :: t)).2 = 1 then b!"\\ufffd" ++ escBody 0 t
      else if (utf8Dec (b :: t)).1 = 0x2028 then b!"\\u2028" ++ escBody ((utf8Dec (b :: t)).2 - 1) t
      else if (utf8Dec (b :: t)).1 = 0x2029 then b!"\\u2029" ++ escBody ((utf8Dec (b :: t)).2 - 1) t
      else (b :: t).take (utf8Dec (b :: t)).2 ++ escBody ((utf8Dec (b :: t)).2 - 1) t

/-- a JSON string literal -/
def jsonStr (s : Bytes) : Bytes := 34 :: (escBody 0 s ++ [34])

/-- base64 alphabet -/
def b64Digit (n : Nat) : UInt8 :=
  if n < 26 then UInt8.ofNat (65 + n) else if n < 52 then UInt8.ofNat (71 + n)
  else if n < 62 then UInt8.ofNat (n - 4) else if n = 62 then 43 else 47

/-- standard base64 with padding, which is how `[]byte` values are marshalled -/
def base64 : Bytes → Bytes
  | [] => []
  | [a] => [b64Digit (a.toNat / 4), b64Digit (a.toNat % 4 * 16), 61, 61]
  | [a, b] => [b64Digit (a.toNat / 4), b64Digit (a.toNat % 4 * 16 + b.toNat / 16), b64Digit (b.toNat % 16 * 4), 61]
  | a :: b :: c :: t =>
    b64Digit (a.toNat / 4) :: b64Digit (a.toNat % 4 * 16 + b.toNat / 16) ::
      b64Digit (b.toNat % 16 * 4 + c.toNat / 64) :: b64Digit (c.toNat % 64) :: base64 t

mutual
/-- `json.Marshal` succeeds: no NaN or infinity anywhere -/
def jsonOK : Val → Bool
  | .f64 x => floatFinite x
  | .arr l => jsonOKL l
  | .obj m => jsonOKF m
  | _ => true
def jsonOKL : List Val → Bool
  | [] => true
  | v :: l => jsonOK v && jsonOKL l
def jsonOKF : List (Bytes × Val) → Bool
  | [] => true
  | (_, v) :: m => jsonOK v && jsonOKF m
end

mutual
/-- `json.Marshal` of a value for which `jsonOK` holds.  Map keys come out sorted, which is
how `Val.obj` keeps them. -/
def enc (F : FloatCodec) : Val → Bytes
  | .null => b!"null"
  | .bool true => b!"true"
  | .bool false => b!"false"
  | .int i => fmtInt i
  | .gint i => fmtInt i
  | .f64 x => F.fmt x
  | .str s => jsonStr s
  | .bytes s => 34 :: (base64 s ++ [34])
  | .arr l => 91 :: (encL F l ++ [93])
  | .obj m => 123 :: (encF F m ++ [125])
/-- elements separated by commas -/
def encL (F : FloatCodec) : List Val → Bytes
  | [] => []
  | [v] => enc F v
  | v :: w :: l => enc F v ++ 44 :: encL F (w :: l)
/-- members separated by commas -/
def encF (F : FloatCodec) : List (Bytes × Val) → Bytes
  | [] => []
  | [(k, v)] => jsonStr k ++ 58 :: enc F v
  | (k, v) :: w :: m => jsonStr k ++ 58 :: (enc F v ++ 44 :: encF F (w :: m))
end

/-- `json.Indent`'s line break at nesting depth `d` -/
def jsonNL (pre ind : Bytes) (d : Nat) : Bytes := 10 :: (pre ++ (List.replicate d ind).flatten)

mutual
/-- `json.MarshalIndent(v, pre, ind)` of a value nested `d` deep -/
def encP (F : FloatCodec) (pre ind : Bytes) : Nat → Val → Bytes
  | d, .arr l =>
    if l.isEmpty then [91, 93]
    else 91 :: (jsonNL pre ind (d + 1) ++ encPL F pre ind (d + 1) l ++ jsonNL pre ind d ++ [93])
  | d, .obj m =>
    if m.isEmpty then [123, 125]
    else 123 :: (jsonNL pre ind (d + 1) ++ encPF F pre ind (d + 1) m ++ jsonNL pre ind d ++ [125])
  | _, v => enc F v
/-- elements, one per line -/
def encPL (F : FloatCodec) (pre ind : Bytes) : Nat → List Val → Bytes
  | _, [] => []
  | d, [v] => encP F pre ind d v
  | d, v :: w :: l => encP F pre ind d v ++ 44 :: (jsonNL pre ind d ++ encPL F pre ind d (w :: l))
/-- members, one per line -/
def encPF (F : FloatCodec) (pre ind : Bytes) : Nat → List (Bytes × Val) → Bytes
  | _, [] => []
  | d, [(k, v)] => jsonStr k ++ 58 :: 32 :: encP F pre ind d v
  | d, (k, v) :: w :: m =>
    jsonStr k ++ 58 :: 32 :: (encP F pre ind d v ++ 44 :: (jsonNL pre ind d ++ encPF F pre ind d (w :: m)))
end

end Verif
