import Verif.Go.Ieee
import Verif.Go.JsonText
/-
Model of the floating point half of Go's `strconv` (external library, documented behaviour, Go 1.13 or later):
`ParseFloat(s, 64)`, whether `ParseFloat(s, 32)` succeeds, and `FormatFloat(x, 'e' | 'f' | 'g', -1, 64)`; and of the
float encoder of `encoding/json`.

The texts accepted are those of `readFloat` and `special` in atof.go, byte by byte.  The number meant by a text is kept as
an exact fraction and rounded once (the library documents that the result is the nearest float).  The shortest digits are
found by trying one digit, two digits and so on, which the library documents as "the smallest number of digits necessary such
that ParseFloat will return f exactly".
-/
set_option autoImplicit false
namespace Verif.FloatText
open Ieee

/-! ### Reading (strconv/atof.go) -/

/-- the loop over the mantissa: all digits as one number, how many came after the point, whether there was a point, a digit -/
structure Mant where
  m : Nat := 0
  frac : Nat := 0
  dot : Bool := false
  digs : Bool := false
deriving DecidableEq

def digitVal (hex : Bool) (c : UInt8) : Option Nat := if hex then hexVal c else if isDigit c then some (c.toNat - 48) else none

/-- `readFloat`: the loop over the mantissa -/
def scanMant (hex : Bool) : Mant → Bytes → Mant × Bytes
  | a, [] => (a, [])
  | a, c :: s =>
    if c = 95 then scanMant hex a s
    else if c = 46 then (if a.dot then (a, c :: s) else scanMant hex { a with dot := true } s)
    else match digitVal hex c with
      | some d => scanMant hex { a with m := a.m * (if hex then 16 else 10) + d, frac := if a.dot then a.frac + 1 else a.frac, digs := true } s
      | none => (a, c :: s)

/-- `readFloat`: the digits of the exponent, which stops growing at 10000 -/
def scanExp : Nat → Bytes → Nat × Bytes
  | e, [] => (e, [])
  | e, c :: s =>
    if c = 95 then scanExp e s
    else if isDigit c then scanExp (if e < 10000 then e * 10 + (c.toNat - 48) else e) s
    else (e, c :: s)

/-- `readFloat`: what comes after the letter of the exponent -/
def expo (s : Bytes) : Option (Int × Bytes) :=
  let neg := s.head? = some 45
  let u := if s.head? = some 45 ∨ s.head? = some 43 then s.tail else s
  match u with
  | [] => none
  | d :: _ => if isDigit d then (let r := scanExp 0 u; some (if neg then -(r.1 : Int) else r.1, r.2)) else none

/-- what came before an underscore or a digit: nothing, a digit, an underscore, something else -/
inductive Before where
  | start | digit | underscore | other
deriving DecidableEq

/-- `underscoreOK`: the loop -/
def underscoreLoop (hex : Bool) : Before → Bytes → Bool
  | i, [] => i ≠ .underscore
  | i, c :: s =>
    if (digitVal hex c).isSome || isDigit c then underscoreLoop hex .digit s
    else if c = 95 then (if i ≠ .digit then false else underscoreLoop hex .underscore s)
    else if i = .underscore then false
    else underscoreLoop hex .other s

/-- without the sign -/
def unsign (s : Bytes) : Bytes := if s.head? = some 45 ∨ s.head? = some 43 then s.tail else s

/-- `underscoreOK` -/
def underscoreOK (s : Bytes) : Bool :=
  match unsign s with
  | 48 :: x :: t => if x ||| 32 = 98 ∨ x ||| 32 = 111 ∨ x ||| 32 = 120 then underscoreLoop (x ||| 32 = 120) .digit t else underscoreLoop false .start (48 :: x :: t)
  | t => underscoreLoop false .start t

/-- a number as read: sign, whether hexadecimal, digits, exponent of ten (or two) -/
structure Num where
  neg : Bool
  hex : Bool
  m : Nat
  e : Int
deriving DecidableEq

/-- `readFloat` has come to the end of the text -/
def finish (s : Bytes) (hex : Bool) (a : Mant) (e : Int) : Option Num :=
  if (95 : UInt8) ∈ s ∧ underscoreOK s = false then none
  else some { neg := s.head? = some 45, hex := hex, m := a.m, e := if hex then e - 4 * a.frac else e - a.frac }

/-- a prefix `0x` with something after it -/
def hexPrefix (t : Bytes) : Bool :=
  match t with
  | c :: x :: _ :: _ => c = 48 && x ||| 32 = 120
  | _ => false

/-- `readFloat` on a text that it uses up; none where `ParseFloat` reports a syntax error -/
def readFloat (s : Bytes) : Option Num :=
  let t := unsign s
  let hex := hexPrefix t
  let r := scanMant hex {} (if hex then t.drop 2 else t)
  if r.1.digs = false then none
  else match r.2 with
    | [] => if hex then none else finish s hex r.1 0
    | c :: v =>
      if c ||| 32 = (if hex then 112 else 101) then
        match expo v with
        | some (e, []) => finish s hex r.1 e
        | _ => none
      else none

def lowerAscii (s : Bytes) : Bytes := s.map fun c => if 65 ≤ c ∧ c ≤ 90 then c + 32 else c

/-- `special`: infinities with an optional sign, NaN without -/
def special (s : Bytes) : Option UInt64 :=
  let t := lowerAscii (unsign s)
  if t = b!"inf" ∨ t = b!"infinity" then some (mk (s.head? = some 45) infKey)
  else if lowerAscii s = b!"nan" then some nan
  else none

/-- `m * b^e` as a fraction -/
def scaled (b m : Nat) (e : Int) : Nat × Nat := if 0 ≤ e then (m * b ^ e.toNat, 1) else (m, b ^ (-e).toNat)

/-- the number of the magnitude nearest to `m * b^e` -/
def key (b m : Nat) (e : Int) : Nat := rnd ((scaled b m e).1 * unit) (scaled b m e).2

/-- `strconv.ParseFloat(s, 64)`: none for a syntax error or a number that rounds to infinity -/
def parse64 (s : Bytes) : Option UInt64 :=
  match special s with
  | some x => some x
  | none =>
    match readFloat s with
    | none => none
    | some n =>
      let k := key (if n.hex then 2 else 10) n.m n.e
      if k = infKey then none else some (mk n.neg k)

/-- whether `strconv.ParseFloat(s, 32)` succeeds: the number is below the midpoint between the greatest float32 and 2^128 -/
def parse32 (s : Bytes) : Bool :=
  (special s).isSome ||
    match readFloat s with
    | none => false
    | some n => let p := scaled (if n.hex then 2 else 10) n.m n.e; decide (p.1 < (2 ^ 128 - 2 ^ 103) * p.2)

/-! ### Writing (strconv/ftoa.go) -/

/-- number of digits of the number of 10^-400ths -/
def places (k : Nat) : Nat := (fmtNat (magVal k * 10 ^ 400 / unit)).length

/-- the magnitude in units of the last of `n` digits, as a fraction -/
def inUnits (k n : Nat) : Nat × Nat :=
  if places k ≤ 400 + n then (magVal k * 10 ^ (400 + n - places k), unit) else (magVal k, unit * 10 ^ (places k - (400 + n)))

/-- exponent of ten of the last of `n` digits -/
def lastExp (k n : Nat) : Int := (places k : Int) - (400 + n : Nat)

/-- `n` digits that are read as the magnitude: the number cut after `n` digits or the next one, the nearer of the two where both
will do, the even one where both are as near -/
def pick (k n : Nat) : Option (Nat × Int) :=
  let v := inUnits k n
  let q := v.1 / v.2
  let e := lastExp k n
  if key 10 q e = k then
    (if key 10 (q + 1) e = k then
      (if 2 * v.1 < (2 * q + 1) * v.2 then some (q, e) else if (2 * q + 1) * v.2 < 2 * v.1 then some (q + 1, e)
        else if q % 2 = 0 then some (q, e) else some (q + 1, e))
    else some (q, e))
  else if key 10 (q + 1) e = k then some (q + 1, e)
  else none

/-- `n` digits, or one more, and so on -/
def search (p : Nat → Option (Nat × Int)) : Nat → Nat → Nat × Int
  | 0, _ => (0, 0)
  | f + 1, n => match p n with | some r => r | none => search p f (n + 1)

/-- without zeros at the end -/
def strip : Nat → Nat × Int → Nat × Int
  | 0, r => r
  | f + 1, r => if r.1 % 10 = 0 then strip f (r.1 / 10, r.2 + 1) else r

/-- the shortest digits for a magnitude that is not zero, and the exponent of ten of the last of them -/
def shortest (k : Nat) : Nat × Int := strip 17 (search (pick k) 17 1)

/-- the digits; none for zero (`decimalSlice`) -/
def digits (k : Nat) : Bytes := if k = 0 then [] else fmtNat (shortest k).1
/-- where the point is, counted from before the first digit -/
def point (k : Nat) : Int := if k = 0 then 0 else (digits k).length + (shortest k).2

def zeros (n : Nat) : Bytes := List.replicate n 48

/-- `fmtF` with as many digits after the point as there are -/
def plainText (ds : Bytes) (dp : Int) : Bytes :=
  if dp ≤ 0 then (if ds = [] then [48] else [48, 46] ++ zeros (-dp).toNat ++ ds)
  else if dp < ds.length then ds.take dp.toNat ++ 46 :: ds.drop dp.toNat
  else ds ++ zeros (dp - ds.length).toNat

/-- digits of the exponent, two at least if `pad` -/
def expDigits (pad : Bool) (n : Nat) : Bytes := if pad ∧ n < 10 then 48 :: fmtNat n else fmtNat n

/-- `fmtE` with as many digits as there are -/
def expText (pad : Bool) (ds : Bytes) (dp : Int) : Bytes :=
  let e := if ds = [] then 0 else dp - 1
  (match ds with
    | [] => [48]
    | [d] => [d]
    | d :: t => d :: 46 :: t) ++ 101 :: (if e < 0 then 45 else 43) :: expDigits pad e.natAbs

/-- sign and the texts for what is no number -/
def signed (x : UInt64) (f : Nat → Bytes) : Bytes :=
  if f64NaN x then b!"NaN"
  else if isInf x then (if isNeg x then b!"-Inf" else b!"+Inf")
  else (if isNeg x then [45] else []) ++ f (f64Mag x)

/-- `FormatFloat(x, 'f', -1, 64)` -/
def fmtF (x : UInt64) : Bytes := signed x fun k => plainText (digits k) (point k)
/-- `FormatFloat(x, 'e', -1, 64)` -/
def fmtE (x : UInt64) : Bytes := signed x fun k => expText true (digits k) (point k)
/-- `FormatFloat(x, 'g', -1, 64)`: the exponent is written below -4 and from 6 on, 21 being the limit only of package fmt -/
def fmtG (x : UInt64) : Bytes :=
  signed x fun k => if point k - 1 < -4 ∨ 6 ≤ point k - 1 then expText true (digits k) (point k) else plainText (digits k) (point k)

/-- encoding/json `floatEncoder.encode`: exponents below 1e-6 and from 1e21 on, `e-09` being shortened to `e-9` -/
def fmtJSON (x : UInt64) : Bytes :=
  signed x fun k =>
    if k ≠ 0 ∧ (k < key 10 1 (-6) ∨ key 10 1 21 ≤ k) then expText false (digits k) (point k) else plainText (digits k) (point k)

/-- floats in JSON -/
def goF : FloatCodec := { fmt := fmtJSON, parse := parse64 }

end Verif.FloatText
