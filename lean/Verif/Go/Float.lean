import Verif.Go.Bytes
/-
The order of float64 values given by their IEEE-754 bits.  Nothing is rounded here, so this is exact.
-/
set_option autoImplicit false
namespace Verif

/-- the bits without the sign -/
def f64Mag (x : UInt64) : Nat := x.toNat % 2 ^ 63

/-- a NaN: all exponent bits set and a mantissa that is not zero -/
def f64NaN (x : UInt64) : Bool := 0x7FF0000000000000 < f64Mag x

/-- for values other than NaN: the position in the order of floats; both zeros are at 0 -/
def f64Key (x : UInt64) : Int := if x.toNat < 2 ^ 63 then (f64Mag x : Int) else -(f64Mag x : Int)

/-- Go's `a > b` on float64 -/
def f64Gt (a b : UInt64) : Bool := !f64NaN a && !f64NaN b && decide (f64Key b < f64Key a)

/-- Go's `a == b` on float64 -/
def f64Eq (a b : UInt64) : Bool := !f64NaN a && !f64NaN b && decide (f64Key a = f64Key b)

end Verif
