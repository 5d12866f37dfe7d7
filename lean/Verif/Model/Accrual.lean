import Verif.Go.Bytes
/-
Model of `AccuralDuration` (meta.go).
-/
set_option autoImplicit false
namespace Verif.Accrual

/-- nanoseconds -/
def hour : Nat := 3600 * 10 ^ 9
def day : Nat := hour * 24

/-- meta.go:514-577 `AccuralDuration`, in nanoseconds; the divisions are Go's, of integers -/
def duration (p : Bytes) : Nat :=
  if p = b!"R/P10Y" then day * 365 * 10
  else if p = b!"R/P4Y" then day * 365 * 4
  else if p = b!"R/P1Y" then day * 365
  else if p = b!"R/P2M" then day * 30 * 10
  else if p = b!"R/P3.5D" then day * 4
  else if p = b!"R/P1D" then day
  else if p = b!"R/P2W" then day * 14
  else if p = b!"R/P6M" then day * 30 * 6
  else if p = b!"R/P2Y" then day * 365 * 2
  else if p = b!"R/P3Y" then day * 365 * 3
  else if p = b!"R/P0.33W" then (day * 7) / 3
  else if p = b!"R/P0.33M" then (day * 30) / 3
  else if p = b!"R/PT1S" then 10 ^ 9
  else if p = b!"R/P1M" then day * 30
  else if p = b!"R/P3M" then (day * 365) / 7
  else if p = b!"R/P0.5M" then day * 15
  else if p = b!"R/P4M" then (day * 365) / 4
  else if p = b!"R/P1W" then day * 7
  else if p = b!"R/PT1H" then hour
  else 0

end Verif.Accrual
