import Verif.Go.ParseInt
import Verif.Go.Utf8
/-
Model of the parts of Go's `fmt` that save and load numbers (external library, documented behaviour, Go 1.13 or later; fmt/scan.go):
`Fprintln` of ints and floats, `Fscanln` into ints and floats.

`Fscanln` reads a line up to its newline or the end of the text.  No token can contain a newline, and a newline met while looking for a
token is an error, as the end of the text is; so the line is split off first.
-/
set_option autoImplicit false
namespace Verif.Scan

/-- the line up to the first newline, and what comes after it -/
def cutLine (s : Bytes) : Bytes × Bytes := (s.takeWhile (· ≠ 10), (s.dropWhile (· ≠ 10)).drop 1)

/-- scan.go `space` -/
def isSpace (r : Nat) : Bool :=
  (9 ≤ r && r ≤ 13) || r = 0x20 || r = 0x85 || r = 0xa0 || r = 0x1680 || (0x2000 ≤ r && r ≤ 0x200a) || r = 0x2028 || r = 0x2029 || r = 0x202f || r = 0x205f || r = 0x3000

/-- `SkipSpace` within a line, rune by rune -/
def skipN : Nat → Bytes → Bytes
  | 0, s => s
  | f + 1, s => if s ≠ [] ∧ isSpace (utf8Dec s).1 = true then skipN f (s.drop (utf8Dec s).2) else s

/-- `SkipSpace` within a line -/
def skip (s : Bytes) : Bytes := skipN s.length s

/-- the token read so far and what is left of the line -/
structure St where
  buf : Bytes := []
  rest : Bytes
deriving DecidableEq

/-- `accept`: take one byte out of `ok` -/
def accept (ok : UInt8 → Bool) (s : St) : Bool × St :=
  match s.rest with
  | c :: t => if ok c then (true, { buf := s.buf ++ [c], rest := t }) else (false, s)
  | [] => (false, s)

/-- `for s.accept(ok) {}` -/
def acceptAll (ok : UInt8 → Bool) (s : St) : St := { buf := s.buf ++ s.rest.takeWhile ok, rest := s.rest.dropWhile ok }

/-- `s.accept(a) && s.accept(b) && s.accept(c)` -/
def accept3 (a b c : UInt8 → Bool) (s : St) : Bool × St :=
  match accept a s with
  | (false, s) => (false, s)
  | (true, s) =>
    match accept b s with
    | (false, s) => (false, s)
    | (true, s) => accept c s

/-- either case of a letter -/
def letter (l : UInt8) (c : UInt8) : Bool := c ||| 32 = l
def sign (c : UInt8) : Bool := c = 43 || c = 45
def decDigit (c : UInt8) : Bool := isDigit c || c = 95
def hexDigit (c : UInt8) : Bool := (hexVal c).isSome || c = 95

/-- `floatToken`: point and digits -/
def fraction (digit : UInt8 → Bool) (s : St) : St :=
  match accept (· = 46) s with
  | (true, s) => acceptAll digit s
  | (false, s) => s

/-- `floatToken`: letter, sign and digits of the exponent -/
def exponent (expo : UInt8 → Bool) (s : St) : St :=
  match accept expo s with
  | (true, s) => acceptAll decDigit (accept sign s).2
  | (false, s) => s

/-- `floatToken`, after a possible prefix -/
def floatRest (digit expo : UInt8 → Bool) (s : St) : St := exponent expo (fraction digit (acceptAll digit s))

/-- `floatToken` -/
def floatToken (s : Bytes) : St :=
  match accept3 (letter 110) (letter 97) (letter 110) { rest := s } with
  | (true, s) => s
  | (false, s) =>
    match accept3 (letter 105) (letter 110) (letter 102) (accept sign s).2 with
    | (true, s) => s
    | (false, s) =>
      match accept (· = 48) s with
      | (false, s) => floatRest decDigit (fun c => letter 101 c || letter 112 c) s
      | (true, s) =>
        match accept (letter 120) s with
        | (true, s) => floatRest hexDigit (letter 112) s
        | (false, s) => floatRest decDigit (fun c => letter 101 c || letter 112 c) s

/-- `math.Ldexp` -/
def ldexp (x : UInt64) (e : Int) : UInt64 :=
  if f64Mag x = 0 ∨ 0x7FF0000000000000 ≤ f64Mag x then x
  else
    let p := FloatText.scaled 2 (Ieee.magVal (f64Mag x)) e
    Ieee.mk (Ieee.isNeg x) (Ieee.rnd p.1 p.2)

/-- `convertFloat`: besides the texts of `ParseFloat`, decimal digits with a binary exponent -/
def convertFloat (s : Bytes) : Option UInt64 :=
  if (112 : UInt8) ∈ s ∧ ¬ ∃ c ∈ s, c = 120 ∨ c = 88 then
    match FloatText.parse64 (s.takeWhile (· ≠ 112)), atoi ((s.dropWhile (· ≠ 112)).drop 1) with
    | some x, some e => some (ldexp x e)
    | _, _ => none
  else FloatText.parse64 s

/-- scanning into a `*float64`: what is left of the line -/
def scanFloat (line : Bytes) : Option (UInt64 × Bytes) :=
  let s := skip line
  if s = [] then none
  else
    match convertFloat (floatToken s).buf with
    | some x => some (x, (floatToken s).rest)
    | none => none

/-- `scanBasePrefix`: the digits of the base, and whether there is a digit already -/
def basePrefix (s : St) : (UInt8 → Bool) × Bool × St :=
  match accept (· = 48) s with
  | (false, s) => (decDigit, false, s)
  | (true, s) =>
    match accept (letter 98) s with
    | (true, s) => (fun c => c = 48 || c = 49 || c = 95, true, s)
    | (false, s) =>
      match accept (letter 111) s with
      | (true, s) => (fun c => (48 ≤ c && c ≤ 55) || c = 95, true, s)
      | (false, s) =>
        match accept (letter 120) s with
        | (true, s) => (hexDigit, true, s)
        | (false, s) => (fun c => (48 ≤ c && c ≤ 55) || c = 95, true, s)

/-- `scanInt`: what is left of the line -/
def scanInt (line : Bytes) : Option (Int × Bytes) :=
  let s := skip line
  if s = [] then none
  else
    match basePrefix (accept sign { rest := s }).2 with
    | (ok, have', s) =>
      if have' = false ∧ (accept ok s).1 = false then none
      else
        match parseInt0 (acceptAll ok s).buf with
        | some i => some (i, (acceptAll ok s).rest)
        | none => none

/-- `Fscanln`, after the last value: nothing but spaces up to the end of the line -/
def lineEnds (line : Bytes) : Bool := skip line = []

end Verif.Scan
