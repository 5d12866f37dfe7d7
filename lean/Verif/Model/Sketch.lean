import Verif.Go.Ieee
/-
dsstats/histosketch/histosketch.go over any arithmetic; `ieee` is that of Go's float64.
-/
set_option autoImplicit false
namespace Verif.Sketch

/-- the operations used on floats -/
structure Num (α : Type) where
  add : α → α → α
  sub : α → α → α
  mul : α → α → α
  div : α → α → α
  neg : α → α
  abs : α → α
  sqrt : α → α
  /-- `math.Copysign(1, x)` -/
  sign : α → α
  lt : α → α → Bool
  le : α → α → Bool
  eq : α → α → Bool
  ofInt : Int → α
  /-- `int64(x)` -/
  toInt : α → Int
  /-- `math.MaxFloat64` -/
  maxFinite : α

def ieee : Num UInt64 where
  add := Ieee.add
  sub := Ieee.sub
  mul := Ieee.mul
  div := Ieee.div
  neg := Ieee.neg
  abs := Ieee.abs
  sqrt := Ieee.sqrt
  sign := Ieee.copysign1
  lt := Ieee.lt
  le := Ieee.le
  eq := f64Eq
  ofInt := Ieee.ofInt
  toInt := Ieee.toInt
  maxFinite := Ieee.maxFinite

/-- histosketch.go:42-45; merged centroids have a negative `m` -/
structure Centroid (α : Type) where
  p : α
  m : α
deriving DecidableEq

/-- histosketch.go:47-51 -/
def Centroid.merge {α : Type} (N : Num α) (c d : Centroid α) : Centroid α :=
  let s := N.add (N.abs c.m) (N.abs d.m)
  { p := N.div (N.add (N.mul c.p (N.abs c.m)) (N.mul d.p (N.abs d.m))) s, m := N.neg s }

/-- histosketch.go:54-59; `cap` is the capacity of `cs`, which is never exceeded, so that `append` never reallocates -/
structure Sketch (α : Type) where
  cs : List (Centroid α)
  cap : Nat
  count : α
  min : α
  max : α
deriving DecidableEq

/-- histosketch.go:62-67; none for a panic -/
def new {α : Type} (N : Num α) (n : Nat) : Option (Sketch α) :=
  if n = 0 then none
  else some { cs := [], cap := n + 1, count := N.ofInt 0, min := N.maxFinite, max := N.neg N.maxFinite }

/-- `sort.Search`: the loop, with `n` at least `j - i` -/
def searchLoop (f : Nat → Bool) : Nat → Nat → Nat → Nat
  | 0, i, _ => i
  | n + 1, i, j =>
    if i < j then
      let h := (i + j) / 2
      if f h then searchLoop f n i h else searchLoop f n (h + 1) j
    else i

def search (n : Nat) (f : Nat → Bool) : Nat := searchLoop f n 0 n

/-- a condition on the centroid at an index -/
def at_ {α : Type} (cs : List (Centroid α)) (q : Centroid α → Bool) (i : Nat) : Bool :=
  match cs[i]? with
  | some c => q c
  | none => false

/-- histosketch.go:121-128: the loop over the distances; `i` is the index of the first centroid of the list -/
def closest {α : Type} (N : Num α) : Nat → List (Centroid α) → Nat → α → Nat
  | i, c :: d :: cs, mi, md =>
    let dist := N.sub d.p c.p
    if N.lt dist md then closest N (i + 1) (d :: cs) i dist else closest N (i + 1) (d :: cs) mi md
  | _, _, mi, _ => mi

/-- histosketch.go:132-136: the centroid at an index is merged with the next; none for an index out of range -/
def mergeAt {α : Type} (N : Num α) : Nat → List (Centroid α) → Option (List (Centroid α))
  | 0, c :: d :: cs => some (c.merge N d :: cs)
  | i + 1, c :: cs => (mergeAt N i cs).map (c :: ·)
  | _, _ => none

/-- histosketch.go:90-137 `AddMany`; none for a panic -/
def addMany {α : Type} (N : Num α) (h : Sketch α) (value : α) (count : Int) : Option (Sketch α) :=
  let min := if N.lt value h.min then value else h.min
  let max := if N.lt h.max value then value else h.max
  let k := search h.cs.length (at_ h.cs fun c => N.le value c.p)
  if at_ h.cs (fun c => N.eq c.p value) k then
    some { h with cs := h.cs.modify k (fun c => { c with m := N.add c.m (N.mul (N.sign c.m) (N.ofInt count)) }),
                  count := N.add h.count (N.ofInt count), min := min, max := max }
  else
    let cs := h.cs.insertIdx k { p := value, m := N.ofInt count }
    let h' := { h with cs := cs, count := N.add h.count (N.ofInt count), min := min, max := max }
    if cs.length < h.cap then some h'
    else (mergeAt N (closest N 0 cs 0 N.maxFinite) cs).map fun cs' => { h' with cs := cs' }

/-- histosketch.go:85-87 -/
def add {α : Type} (N : Num α) (h : Sketch α) (value : α) : Option (Sketch α) := addMany N h value 1

/-- histosketch.go:140-144 `Merge` -/
def merge {α : Type} (N : Num α) (h x : Sketch α) : Option (Sketch α) :=
  x.cs.foldlM (fun h c => addMany N h c.p (N.toInt (N.abs c.m))) h

/-- histosketch.go:149-158; none for an index out of range -/
def getCentroids {α : Type} (N : Num α) (h : Sketch α) (i : Nat) : Option (Centroid α × Centroid α) :=
  if i = 0 then h.cs[0]?.map fun y => ({ p := h.min, m := N.ofInt 0 }, y)
  else if i = h.cs.length then h.cs.getLast?.map fun x => (x, { p := h.max, m := N.ofInt 0 })
  else match h.cs[i - 1]?, h.cs[i]? with
    | some x, some y => some (x, y)
    | _, _ => none

/-- histosketch.go:161-179 `Sum` -/
def sum {α : Type} (N : Num α) (h : Sketch α) (p : α) : Option α :=
  if N.le h.max p then some h.count
  else if N.lt p h.min then some (N.ofInt 0)
  else
    let k := search h.cs.length (at_ h.cs fun c => N.lt p c.p)
    let s := (h.cs.take (k - 1)).foldl (fun s c => N.add s (N.abs c.m)) (N.ofInt 0)
    (getCentroids N h k).map fun (ci, cj) =>
      if N.lt (N.ofInt 0) ci.m && (N.lt (N.ofInt 0) cj.m || N.eq ci.p p) then N.add s ci.m
      else
        let mi := N.abs ci.m
        let mj := N.abs cj.m
        let mb := N.add mi (N.div (N.mul (N.sub mj mi) (N.sub p ci.p)) (N.sub cj.p ci.p))
        N.add (N.add s (N.div mi (N.ofInt 2)))
          (N.div (N.div (N.mul (N.add mi mb) (N.sub p ci.p)) (N.ofInt 2)) (N.sub cj.p ci.p))

/-- histosketch.go:197-207: the loop of `Quantile`; the index where it stops and the sum -/
def walk {α : Type} (N : Num α) (t : α) : Nat → α → α → List (Centroid α) → Nat × α
  | i, s, _, [] => (i, s)
  | i, s, pv, c :: cs =>
    let v := N.div (N.abs c.m) (N.ofInt 2)
    if N.lt t (N.add (N.add s v) pv) then (i, s)
    else walk N t (i + 1) (N.add s (N.add v pv)) v cs

/-- histosketch.go:220-230: the point between two centroids where the weight reaches `t` -/
def interpolate {α : Type} (N : Num α) (t s : α) (ci cj : Centroid α) : α :=
  let d := N.sub t s
  let cim := N.abs ci.m
  let cjm := N.abs cj.m
  let a := N.sub cjm cim
  if N.eq a (N.ofInt 0) then N.add ci.p (N.mul (N.sub cj.p ci.p) (N.div d cim))
  else
    let b := N.mul (N.ofInt 2) cim
    let c := N.mul (N.ofInt (-2)) d
    let z := N.div (N.add (N.neg b) (N.sqrt (N.sub (N.mul b b) (N.mul (N.mul (N.ofInt 4) a) c)))) (N.mul (N.ofInt 2) a)
    N.add ci.p (N.mul (N.sub cj.p ci.p) z)

/-- histosketch.go:184-231 `Quantile`; none for a panic -/
def quantile {α : Type} (N : Num α) (h : Sketch α) (p : α) : Option α :=
  if N.lt p (N.ofInt 0) || N.lt (N.ofInt 1) p then none
  else if N.lt h.count (N.ofInt 1) then none
  else
    let t := N.mul p h.count
    let w := walk N t 0 (N.ofInt 0) (N.ofInt 0) h.cs
    (getCentroids N h w.1).map fun (ci, cj) =>
      if N.lt (N.ofInt 0) ci.m && N.lt (N.ofInt 0) cj.m then cj.p else interpolate N t w.2 ci cj

/-- 0.4999999 -/
def nearHalf : UInt64 := 0x3FDFFFFF94A03595

/-- histosketch.go:397-399 `Median` -/
def median (h : Sketch UInt64) : Option UInt64 := quantile ieee h nearHalf

/-- histosketch.go:401-410 `Read` -/
def read {α : Type} (N : Num α) (h : Sketch α) : List α × List α :=
  (h.cs.map (·.p) ++ [N.add h.max (N.ofInt 1)], h.cs.map (·.m))

/-! ### Saving and loading -/

/-- what is saved: version, number of centroids, centroids, extrema -/
inductive Field (α : Type) where
  | int (i : Int)
  | num (x : α)
deriving DecidableEq

/-- histosketch.go:234-247 `MarshalBinary`, as lines of values; the printing of values is not modelled -/
def save {α : Type} (h : Sketch α) : List (List (Field α)) :=
  [[.int 1], [.int h.cs.length]] ++ h.cs.map (fun c => [.num c.p, .num c.m]) ++ [[.num h.min, .num h.max]]

/-- histosketch.go:268-276: the loop over the centroids -/
def loadCentroids {α : Type} (N : Num α) : Nat → List (List (Field α)) → List (Centroid α) → α → Option (List (Centroid α) × α × List (List (Field α)))
  | 0, ls, cs, count => some (cs, count, ls)
  | n + 1, [.num p, .num m] :: ls, cs, count => loadCentroids N n ls (cs ++ [{ p := p, m := m }]) (N.add count m)
  | _, _, _, _ => none

/-- histosketch.go:250-283 `UnmarshalBinary` on lines of values; none for an error or a panic (a negative capacity; too large ones are in
`Model/SketchText`) -/
def load {α : Type} (N : Num α) : List (List (Field α)) → Option (Sketch α)
  | [.int version] :: [.int num] :: ls =>
    if version ≠ 1 ∨ num + 1 < 0 then none
    else match loadCentroids N num.toNat ls [] (N.ofInt 0) with
      | some (cs, count, [.num min, .num max] :: _) => some { cs := cs, cap := (num + 1).toNat, count := count, min := min, max := max }
      | _ => none
  | _ => none

end Verif.Sketch
