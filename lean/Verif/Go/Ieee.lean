import Verif.Go.Float
/-
Arithmetic on float64 values given by their IEEE-754 bits (binary64, rounding to nearest, ties to even).

Finite values are whole multiples of 2^-1074, so sums are exact integers and products and quotients are fractions in that
unit.  The bits without the sign number the magnitudes in increasing order, with even numbers for even mantissas, and the
number of infinity follows that of the greatest finite value; rounding is done on these numbers.  The payload of a NaN is not
modelled: every NaN result is the same one.
-/
set_option autoImplicit false
namespace Verif.Ieee

/-- the number of infinity -/
def infKey : Nat := 0x7FF0000000000000

/-- one in units of 2^-1074 -/
def unit : Nat := 2 ^ 1074

/-- the magnitude with the given number, in units of 2^-1074 -/
def magVal (k : Nat) : Nat := if k < 2 ^ 53 then k else (2 ^ 52 + k % 2 ^ 52) * 2 ^ (k / 2 ^ 52 - 1)

/-- the number of the greatest magnitude that is not above a whole multiple of the unit -/
def floorKey (q : Nat) : Nat := if q < 2 ^ 53 then q else (Nat.log2 q - 52) * 2 ^ 52 + q / 2 ^ (Nat.log2 q - 52)

/-- the number of the magnitude nearest to `num / den`, the even one of two -/
def rnd (num den : Nat) : Nat :=
  let k := floorKey (num / den)
  let mid := (magVal k + magVal (k + 1)) * den
  min infKey (if 2 * num < mid then k else if mid < 2 * num then k + 1 else if k % 2 = 0 then k else k + 1)

def mk (neg : Bool) (k : Nat) : UInt64 := UInt64.ofNat (k + if neg then 2 ^ 63 else 0)

def nan : UInt64 := 0x7FF8000000000001

def isNeg (x : UInt64) : Bool := 2 ^ 63 ≤ x.toNat
def isInf (x : UInt64) : Bool := f64Mag x = infKey
def isZero (x : UInt64) : Bool := f64Mag x = 0

/-- the value of a finite float, in units of 2^-1074 -/
def val (x : UInt64) : Int := if isNeg x then -(magVal (f64Mag x) : Int) else magVal (f64Mag x)

def neg (x : UInt64) : UInt64 := mk (!isNeg x) (f64Mag x)
/-- `math.Abs` -/
def abs (x : UInt64) : UInt64 := mk false (f64Mag x)
/-- `math.Copysign(1, x)` -/
def copysign1 (x : UInt64) : UInt64 := mk (isNeg x) 0x3FF0000000000000

def add (x y : UInt64) : UInt64 :=
  if f64NaN x || f64NaN y then nan
  else if isInf x then (if isInf y && isNeg x != isNeg y then nan else x)
  else if isInf y then y
  else
    let s := val x + val y
    if s = 0 then mk (isNeg x && isNeg y) 0 else mk (s < 0) (rnd s.natAbs 1)

def sub (x y : UInt64) : UInt64 := add x (neg y)

def mul (x y : UInt64) : UInt64 :=
  let s := isNeg x != isNeg y
  if f64NaN x || f64NaN y then nan
  else if isInf x || isInf y then (if isZero x || isZero y then nan else mk s infKey)
  else mk s (rnd (magVal (f64Mag x) * magVal (f64Mag y)) unit)

def div (x y : UInt64) : UInt64 :=
  let s := isNeg x != isNeg y
  if f64NaN x || f64NaN y then nan
  else if isInf x then (if isInf y then nan else mk s infKey)
  else if isInf y then mk s 0
  else if isZero y then (if isZero x then nan else mk s infKey)
  else mk s (rnd (magVal (f64Mag x) * unit) (magVal (f64Mag y)))

/-- `math.Sqrt` -/
def sqrt (x : UInt64) : UInt64 :=
  if isZero x then x
  else if f64NaN x || isNeg x then nan
  else if isInf x then x
  else
    let n := magVal (f64Mag x) * unit
    let k := floorKey (Nat.sqrt n)
    let mid := magVal k + magVal (k + 1)
    mk false (if 4 * n < mid * mid then k else if mid * mid < 4 * n then k + 1 else if k % 2 = 0 then k else k + 1)

/-- `float64(i)` -/
def ofInt (i : Int) : UInt64 := mk (i < 0) (rnd (i.natAbs * unit) 1)

/-- `int64(x)` where it is in range -/
def toInt (x : UInt64) : Int := (val x).tdiv unit

/-- Go's `<`, `<=` -/
def lt (x y : UInt64) : Bool := f64Gt y x
def le (x y : UInt64) : Bool := f64Gt y x || f64Eq x y

/-- `math.MaxFloat64` -/
def maxFinite : UInt64 := 0x7FEFFFFFFFFFFFFF

end Verif.Ieee
