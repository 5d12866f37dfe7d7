import Verif.Model.Sketch
/-
dsstats/histosketch/histosketch.go:285-394 `NewFromSample`: a sketch of a whole sample, by dynamic programming.
-/
set_option autoImplicit false
namespace Verif.Sketch

variable {α : Type}

/-- `sort.Float64s`: NaNs come first -/
def less (N : Num α) (x y : α) : Bool := N.lt x y || (!N.eq x x && N.eq y y)

/-- a value put into a sorted list -/
def place (N : Num α) (x : α) : List α → List α
  | [] => [x]
  | y :: ys => if less N y x then y :: place N x ys else x :: y :: ys

/-- the order of equal values is left open by the library; they differ by the sign of zero at most -/
def sortSample (N : Num α) (xs : List α) : List α := xs.foldr (place N) []

/-- histosketch.go:301-312: more centroids than values: one for every run of equal values (`m++`); the loop of lines 313-317 changes
copies only -/
def runsOf (N : Num α) : List α → List (Centroid α)
  | [] => []
  | x :: xs => go [] { p := x, m := N.ofInt 1 } x xs
where
  /-- `c` is the last centroid, `prev` the value before -/
  go (done : List (Centroid α)) (c : Centroid α) (prev : α) : List α → List (Centroid α)
  | [] => done ++ [c]
  | x :: xs =>
    if N.eq x prev then go done { c with m := N.add c.m (N.ofInt 1) } x xs
    else go (done ++ [c]) { p := x, m := N.ofInt 1 } x xs

/-- histosketch.go:337-338: one step of Welford's method, from `i` values to one more -/
def welford0 (N : Num α) (i : Nat) (s : α × α) (x : α) : α × α :=
  (N.add s.1 (N.div (N.mul (N.mul (N.ofInt i) (N.sub x s.2)) (N.sub x s.2)) (N.ofInt (i + 1))),
   N.div (N.add x (N.mul (N.ofInt i) s.2)) (N.ofInt (i + 1)))

/-- histosketch.go:350-353: the same with another order of operations -/
def welford1 (N : Num α) (i : Nat) (s : α × α) (x : α) : α × α :=
  (N.add s.1 (N.div (N.mul (N.ofInt i) (N.mul (N.sub x s.2) (N.sub x s.2))) (N.ofInt (i + 1))),
   N.div (N.add x (N.mul (N.ofInt i) s.2)) (N.ofInt (i + 1)))

/-- the sums of squared distances (`id`) of the first value, the first two values, … -/
def sumsFrom (step : Nat → α × α → α → α × α) : Nat → α × α → List α → List α
  | _, _, [] => []
  | i, s, x :: xs => (step i s x).1 :: sumsFrom step (i + 1) (step i s x) xs

def sums (N : Num α) (step : Nat → α × α → α → α × α) (xs : List α) : List α := sumsFrom step 0 (N.ofInt 0, N.ofInt 0) xs

/-- histosketch.go:357-363: the least of the candidates for `j` from `m` on, and its `j` -/
def least (N : Num α) (cand : Nat → α) : Nat → Nat → α × Nat → α × Nat
  | 0, _, best => best
  | k + 1, j, best => least N cand k (j + 1) (if N.lt (cand j) best.1 then (cand j, j) else best)

/-- histosketch.go:344-366: the entries `d[i][m]` and `b[i][m]` for all `i`, from the `d[i][m-1]`; zero for `i < m` -/
def column (N : Num α) (xs : List α) (m : Nat) (prev : List α) : List (α × Nat) :=
  (List.range xs.length).map fun i =>
    if i < m then (N.ofInt 0, 0)
    else
      let dist := sums N (welford1 N) (xs.take (i + 1)).reverse
      least N (fun j => N.add (prev.getD (j - 1) (N.ofInt 0)) (dist.getD (i - j) (N.ofInt 0))) (i - m + 1) m (N.maxFinite, i)

/-- the columns of `d` and `b`, up to the given one, the last one first -/
def columns (N : Num α) (xs : List α) : Nat → List (List (α × Nat))
  | 0 => [(sums N (welford0 N) xs).map fun x => (x, 0)]
  | m + 1 =>
    match columns N xs m with
    | [] => []
    | c :: cs => column N xs (m + 1) (c.map (·.1)) :: c :: cs

/-- histosketch.go:374-389: a centroid for the values from the first to the last, of which the last one is added first -/
def centroidOf (N : Num α) (seg : List α) : Centroid α :=
  let count := N.ofInt seg.length
  { p := N.div (seg.reverse.foldl N.add (N.ofInt 0)) count, m := if N.eq count (N.ofInt 1) then N.ofInt 1 else N.neg count }

/-- histosketch.go:370-391: backtracking, with the columns from the last one on and the number of values left; none for an index
out of range -/
def backtrack (N : Num α) (xs : List α) : List (List (α × Nat)) → Nat → List (Centroid α) → Option (List (Centroid α))
  | [], _, acc => some acc
  | _ :: _, 0, _ => none
  | col :: cols, i + 1, acc =>
    match col[i]? with
    | none => none
    | some (_, start) => backtrack N xs cols start (centroidOf N ((xs.take (i + 1)).drop start) :: acc)

/-- histosketch.go:298-394 on the sorted sample; none for a panic -/
def fromSorted (N : Num α) (xs : List α) (n : Int) : Option (Sketch α) :=
  if n < 1 then none
  else
    match xs.head?, xs.getLast? with
    | some lo, some hi =>
      if (xs.length : Int) < n then some { cs := runsOf N xs, cap := n.toNat + 1, count := N.ofInt xs.length, min := lo, max := hi }
      else
        (backtrack N xs (columns N xs (n.toNat - 1)) xs.length []).map fun cs =>
          { cs := cs, cap := n.toNat + 1, count := N.ofInt xs.length, min := lo, max := hi }
    | _, _ => none

/-- histosketch.go:297-394 `NewFromSample`; it also leaves the sample sorted -/
def newFromSample (N : Num α) (sample : List α) (n : Int) : Option (Sketch α) := fromSorted N (sortSample N sample) n

end Verif.Sketch
