import Verif.Model.Sketch
import Verif.Model.Streams
import Verif.Go.Strconv
/-
dsstats/stats.go: statistics of the entries of a body.

Panics are `none`.  Counters of Go type `int` are natural numbers.  `int32` and `float32` values, which no reader of this
repository makes, are not among the values.  What is reported is a map of values; Go's typed maps and slices in it
(`map[string]int`, `[]float64`, `map[string][]float64`) are written as maps and arrays of values.
-/
set_option autoImplicit false
namespace Verif.Stats
open Streams Sketch

/-- what is not modelled: the number of bins asked for (stats.go:25), a variable; the estimate of hyperloglog and the counts of
go-topk, which may be any functions of the strings inserted, in order -/
structure Lib where
  bins : Nat
  estimate : List Bytes → Nat
  top : List Bytes → List (Bytes × Int)

/-- stats.go:294 `maxFloat`, also `float64(maxInt)`: 2^63 -/
def maxFloat : UInt64 := 0x43E0000000000000
/-- `float64(minInt)`: -2^63 -/
def minFloat : UInt64 := 0xC3E0000000000000

/-- stats.go:299-309; `typ` is never read -/
structure NumAcc where
  count : Nat
  min : UInt64
  max : UInt64
  mean : UInt64
  median : UInt64
  dividers : List UInt64
  histogram : List UInt64
  sketch : Sketch UInt64

/-- stats.go:399-407; the two sketches are the strings inserted into them -/
structure StrAcc where
  count : Nat
  minLength : Int
  maxLength : Int
  unique : Nat
  frequencies : List (Bytes × Int)
  seen : List Bytes

/-- stats.go:161-165 and the types that implement it -/
inductive Acc where
  | obj (children : List (Bytes × Acc))
  | arr (children : List Acc)
  | num (a : NumAcc)
  | str (a : StrAcc)
  | bool (count trueCount falseCount : Nat)
  | null (count : Nat)

/-- stats.go:313-324 -/
def newNumericAcc (L : Lib) : Option NumAcc :=
  (Sketch.new ieee L.bins).map fun sk =>
    { count := 0, min := maxFloat, max := minFloat, mean := 0, median := maxFloat, dividers := [], histogram := [], sketch := sk }

/-- stats.go:411-419 -/
def newStringAcc : StrAcc :=
  { count := 0, minLength := 2 ^ 63 - 1, maxLength := -2 ^ 63, unique := 0, frequencies := [], seen := [] }

/-- stats.go:167-184 -/
def newAcc (L : Lib) : Val → Option Acc
  | .f64 _ => (newNumericAcc L).map .num
  | .int _ => (newNumericAcc L).map .num
  | .gint _ => (newNumericAcc L).map .num
  | .str _ => some (.str newStringAcc)
  | .bool _ => some (.bool 0 0 0)
  | .obj _ => some (.obj [])
  | .arr _ => some (.arr [])
  | .null => some (.null 0)
  | .bytes _ => some (.null 0)

/-- stats.go:331-345: the number a value stands for -/
def number : Val → Option UInt64
  | .gint i => some (Ieee.ofInt i)
  | .int i => some (Ieee.ofInt i)
  | .f64 x => some x
  | _ => none

/-- stats.go:330-357 -/
def NumAcc.write (a : NumAcc) (v : Val) : Option NumAcc :=
  match number v with
  | none => some a
  | some x => (Sketch.add ieee a.sketch x).map fun sk =>
    { a with sketch := sk, mean := Ieee.add a.mean x, count := a.count + 1,
             max := if Ieee.lt a.max x then x else a.max, min := if Ieee.lt x a.min then x else a.min }

/-- stats.go:425-439 -/
def StrAcc.write (a : StrAcc) (s : Bytes) : StrAcc :=
  { a with count := a.count + 1, seen := a.seen ++ [s],
           minLength := if (s.length : Int) < a.minLength then s.length else a.minLength,
           maxLength := if (s.length : Int) > a.maxLength then s.length else a.maxLength }

mutual
/-- `Write` of the accumulators: stats.go:215-224, 264-273, 330-357, 425-439, 491-500, 524-528 -/
def write (L : Lib) : Acc → Val → Option Acc
  | .obj cs, .obj m => (writeObj L cs m).map .obj
  | .arr cs, .arr l => (writeArr L cs l).map .arr
  | .num a, v => (a.write v).map .num
  | .str a, .str s => some (.str (a.write s))
  | .bool c t f, .bool b => some (if b then .bool (c + 1) (t + 1) f else .bool (c + 1) t (f + 1))
  | .null c, .null => some (.null (c + 1))
  | a, _ => some a
/-- stats.go:266-271, from an index on: `cs` are the children from there on -/
def writeArr (L : Lib) : List Acc → List Val → Option (List Acc)
  | cs, [] => some cs
  | [], v :: vs => (newAcc L v).bind fun a => (write L a v).bind fun a' => (writeArr L [] vs).map (a' :: ·)
  | c :: cs, v :: vs => (write L c v).bind fun a' => (writeArr L cs vs).map (a' :: ·)
/-- stats.go:217-222; Go goes through the map in any order -/
def writeObj (L : Lib) : List (Bytes × Acc) → List (Bytes × Val) → Option (List (Bytes × Acc))
  | cs, [] => some cs
  | cs, (k, v) :: m =>
    (match mapGet cs k with | some c => some c | none => newAcc L v).bind fun c =>
      (write L c v).bind fun c' => writeObj L (mapSet cs k c') m
end

/-- stats.go:397 -/
def maxKeyLen : Nat := 40

/-- stats.go:470-473: the name under which the `i`-th most frequent string is reported -/
def freqKey (i : Nat) (k : Bytes) : Bytes :=
  if k.length > maxKeyLen then k.take maxKeyLen ++ b!"... " ++ fmtNat k.length ++ b!" chars (" ++ fmtNat i ++ b!")" else k

/-- stats.go:469-475, from the `i`-th on -/
def freqMap : Nat → List (Bytes × Int) → List (Bytes × Int) → List (Bytes × Int)
  | _, m, [] => m
  | i, m, (k, n) :: top => freqMap (i + 1) (mapSet m (freqKey i k) n) top

/-- stats.go:388-393 -/
def NumAcc.close (a : NumAcc) : Option NumAcc :=
  (Sketch.median a.sketch).map fun q =>
    { a with mean := Ieee.div a.mean (Ieee.ofInt a.count), dividers := (Sketch.read ieee a.sketch).1, histogram := (Sketch.read ieee a.sketch).2, median := q }

/-- stats.go:466-477 -/
def StrAcc.close (L : Lib) (a : StrAcc) : StrAcc :=
  { a with frequencies := freqMap 0 [] (L.top a.seen), unique := L.estimate a.seen }

mutual
/-- `Close` of the accumulators: stats.go:236-240, 286-290, 388-393, 466-477, 512, 536 -/
def close (L : Lib) : Acc → Option Acc
  | .obj cs => (closeObj L cs).map .obj
  | .arr cs => (closeArr L cs).map .arr
  | .num a => a.close.map .num
  | .str a => some (.str (a.close L))
  | .bool c t f => some (.bool c t f)
  | .null c => some (.null c)
def closeArr (L : Lib) : List Acc → Option (List Acc)
  | [] => some []
  | c :: cs => (close L c).bind fun c' => (closeArr L cs).map (c' :: ·)
def closeObj (L : Lib) : List (Bytes × Acc) → Option (List (Bytes × Acc))
  | [] => some []
  | (k, c) :: cs => (close L c).bind fun c' => (closeObj L cs).map ((k, c') :: ·)
end

/-- the `Type` methods -/
def Acc.type : Acc → Bytes
  | .obj _ => b!"object"
  | .arr _ => b!"array"
  | .num _ => b!"numeric"
  | .str _ => b!"string"
  | .bool .. => b!"boolean"
  | .null _ => b!"null"

/-- stats.go:360-385; `histogram` is never nil -/
def NumAcc.map (a : NumAcc) : List (Bytes × Val) :=
  if a.count = 0 then [(b!"count", .gint 0)]
  else
    let m := mapOf [(b!"mean", .f64 a.mean), (b!"count", .gint a.count), (b!"min", .f64 a.min), (b!"max", .f64 a.max)]
    let m := if f64Eq a.median maxFloat then m else mapSet m b!"median" (.f64 a.median)
    mapSet m b!"histogram" (.obj (mapOf [(b!"bins", .arr (a.dividers.map .f64)), (b!"frequencies", .arr (a.histogram.map .f64))]))

/-- stats.go:442-463; `frequencies` is never nil -/
def StrAcc.map (a : StrAcc) : List (Bytes × Val) :=
  if a.count = 0 then [(b!"count", .gint 0)]
  else
    let m := mapOf [(b!"count", .gint a.count), (b!"minLength", .gint a.minLength), (b!"maxLength", .gint a.maxLength)]
    let m := if a.unique ≠ 0 then mapSet m b!"unique" (.gint a.unique) else m
    mapSet m b!"frequencies" (.obj (a.frequencies.map fun p => (p.1, .gint p.2)))

mutual
/-- the `Map` methods: stats.go:227-233, 276-283, 360-385, 442-463, 503-509, 531-533 -/
def Acc.map : Acc → List (Bytes × Val)
  | .obj cs => mapObj cs
  | .arr cs => [(b!"values", .arr (mapArr cs))]
  | .num a => a.map
  | .str a => a.map
  | .bool c t f => mapOf [(b!"count", .gint c), (b!"trueCount", .gint t), (b!"falseCount", .gint f)]
  | .null c => [(b!"count", .gint c)]
def mapArr : List Acc → List Val
  | [] => []
  | c :: cs => .obj c.map :: mapArr cs
def mapObj : List (Bytes × Acc) → List (Bytes × Val)
  | [] => []
  | (k, c) :: cs => (k, .obj c.map) :: mapObj cs
end

/-- stats.go:90-93 on a statistic without a key -/
def report (c : Acc) : List (Bytes × Val) := mapSet c.map b!"type" (.str c.type)

/-- stats.go:90-93 and 545-549 on a statistic with a key -/
def reportKeyed (k : Bytes) (c : Acc) : List (Bytes × Val) := mapSet (mapSet c.map b!"key" (.str k)) b!"type" (.str c.type)

/-- stats.go:83-95 `ToMap` of an `Accumulator` with `Stats` (stats.go:126-134, 196-209, 252-258); children by key are kept sorted -/
def toMap : Option Acc → Option (List (List (Bytes × Val)))
  | none => none
  | some (.obj cs) => some (cs.map fun p => reportKeyed p.1 p.2)
  | some (.arr cs) => some (cs.map report)
  | some a => some [report a]

/-- stats.go:142-148 `WriteEntry` -/
def writeEntry (L : Lib) (a : Option Acc) (e : Entry) : Option (Option Acc) :=
  ((match a with | some a => some a | none => newAcc L e.value).bind fun a => write L a e.value).map some

/-- stats.go:151-156 `Close` -/
def closeAcc (L : Lib) : Option Acc → Option (Option Acc)
  | none => some none
  | some a => (close L a).map some

inductive Res where
  | panic
  | err (e : EachRes)
  | ok (stats : Option (List (List (Bytes × Val))))
deriving DecidableEq

/-- stats.go:52-75 `CalculateFromEntryReader`; none if `n` reads are not enough.  `Close` runs again after the result is made. -/
def calculate {σ : Type} (L : Lib) (rd : Reader σ) (n : Nat) (s : σ) : Option Res :=
  (eachEntry rd (fun _ e (t : Option (Option Acc)) => (none, t.bind fun a => writeEntry L a e)) n 0 s (some none)).map fun (r, _, t) =>
    match t with
    | none => .panic
    | some a =>
      match r with
      | .ok => ((closeAcc L a).bind fun a' => (closeAcc L a').map fun _ => Res.ok (toMap a')).getD .panic
      | r => ((closeAcc L a).map fun _ => Res.err r).getD .panic

end Verif.Stats
