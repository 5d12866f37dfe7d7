import Verif.Go.Ieee
import Mathlib.Tactic.FieldSimp
/-
Specification: the numbers that floats and decimal texts stand for, as fractions.
-/
set_option autoImplicit false
namespace Verif.FloatText

/-- the value of a finite float -/
def value (x : UInt64) : ℚ := Ieee.val x / 2 ^ 1074

/-- `± m * 10^e` -/
def dec (neg : Bool) (m : ℕ) (e : ℤ) : ℚ := (if neg then -1 else 1) * m * 10 ^ e

end Verif.FloatText
