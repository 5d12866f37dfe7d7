import Verif.Go.FloatText
/-
Model of Go's `strconv.ParseInt(s, 0, 64)` (external library, documented behaviour): the base is told by a prefix, and
underscores may separate digits.
-/
set_option autoImplicit false
namespace Verif

/-- the value of a digit in some base up to 36 -/
def digitValue (c : UInt8) : Option Nat :=
  if isDigit c then some (c.toNat - 48)
  else if 97 ≤ c ||| 32 ∧ c ||| 32 ≤ 122 then some ((c ||| 32).toNat - 97 + 10)
  else none

/-- the loop of `ParseUint`; underscores are skipped -/
def digitsLoop (base : Nat) : Nat → Bytes → Option Nat
  | n, [] => some n
  | n, c :: s =>
    if c = 95 then digitsLoop base n s
    else
      match digitValue c with
      | none => none
      | some d => if d < base then digitsLoop base (n * base + d) s else none

/-- the base and the digits of a text without sign -/
def baseOf (s : Bytes) : Nat × Bytes :=
  match s with
  | 48 :: t =>
    match t with
    | x :: y :: u =>
      if x ||| 32 = 98 then (2, y :: u)
      else if x ||| 32 = 111 then (8, y :: u)
      else if x ||| 32 = 120 then (16, y :: u)
      else (8, t)
    | t => (8, t)
  | s => (10, s)

/-- `ParseUint(s, 0, 64)`, but for the range -/
def parseUint0 (s : Bytes) : Option Nat :=
  if s = [] then none
  else
    match digitsLoop (baseOf s).1 0 (baseOf s).2 with
    | none => none
    | some n => if (95 : UInt8) ∈ (baseOf s).2 ∧ FloatText.underscoreOK s = false then none else some n

/-- `ParseInt(s, 0, 64)` -/
def parseInt0 (s : Bytes) : Option Int :=
  match parseUint0 (FloatText.unsign s) with
  | none => none
  | some n =>
    let i : Int := if s.head? = some 45 then -(n : Int) else n
    if IsInt64 i then some i else none

end Verif
