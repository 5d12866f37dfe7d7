import Verif.Go.Scan
import Verif.Model.Sketch
/-
dsstats/histosketch/histosketch.go: saving and loading on bytes.  `Model/Sketch` has the same on lines of values.
-/
set_option autoImplicit false
namespace Verif.Sketch
open Scan

/-- histosketch.go:242, 245: `fmt.Fprintln` of two floats -/
def floatsLine (x y : UInt64) : Bytes := FloatText.fmtG x ++ 32 :: (FloatText.fmtG y ++ [10])

/-- histosketch.go:234-247 `MarshalBinary` -/
def marshal (h : Sketch UInt64) : Bytes :=
  b!"1\n" ++ (fmtNat h.cs.length ++ [10]) ++ (h.cs.map fun c => floatsLine c.p c.m).flatten ++ floatsLine h.min h.max

/-- outcome of loading -/
inductive Loaded where
  | ok | err | panic
deriving DecidableEq

/-- `fmt.Fscanln(b, &i)`: the number, what is left -/
def intLine (s : Bytes) : Option (Int × Bytes) :=
  match scanInt (cutLine s).1 with
  | some (i, r) => if lineEnds r then some (i, (cutLine s).2) else none
  | none => none

/-- `fmt.Fscanln(b, &x, &y)`: what has been assigned to the two, and, unless there is an error, what is left -/
def pairLine (s : Bytes) : Option UInt64 × Option UInt64 × Option Bytes :=
  match scanFloat (cutLine s).1 with
  | none => (none, none, none)
  | some (x, r) =>
    match scanFloat r with
    | none => (some x, none, none)
    | some (y, r) => (some x, some y, if lineEnds r then some (cutLine s).2 else none)

/-- histosketch.go:268-276: the loop over the centroids, on the sketch that is loaded into; what is left, unless there is an error -/
def readCentroids : Nat → Bytes → Sketch UInt64 → Sketch UInt64 × Option Bytes
  | 0, s, h => (h, some s)
  | n + 1, s, h =>
    match pairLine s with
    | (some p, some m, some r) => readCentroids n r { h with cs := h.cs ++ [{ p := p, m := m }], count := Ieee.add h.count m }
    | _ => (h, none)

/-- the greatest number of centroids there is room for: 16 bytes each in an address space of 2^48 -/
def maxCentroids : Int := 2 ^ 44

/-- histosketch.go:250-283 `UnmarshalBinary` into a sketch: what becomes of it, also if there is an error.  `make` panics for negative and
too large capacities; running out of memory is not modelled. -/
def unmarshal (h : Sketch UInt64) (data : Bytes) : Sketch UInt64 × Loaded :=
  match intLine data with
  | none => (h, .err)
  | some (version, s) =>
    if version ≠ 1 then (h, .err)
    else
      match intLine s with
      | none => (h, .err)
      | some (num, s) =>
        if num + 1 < 0 ∨ maxCentroids < num + 1 then (h, .panic)
        else
          match readCentroids num.toNat s { h with cs := [], cap := (num + 1).toNat, count := 0 } with
          | (h, none) => (h, .err)
          | (h, some s) =>
            match pairLine s with
            | (x, y, r) =>
              ({ h with min := x.getD h.min, max := y.getD h.max }, if r = none then .err else .ok)

end Verif.Sketch
