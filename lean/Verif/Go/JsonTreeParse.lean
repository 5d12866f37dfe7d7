import Verif.Go.JsonParse
import Verif.Spec.JsonTree
/-
Model of Go's `encoding/json` decoder (external library, documented behaviour), first half: the tree that a text spells, numbers and
strings as written, members in the order written.  `json.Unmarshal` checks the whole text before it stores anything, so every decoder
can be written as a function of this tree.
-/
set_option autoImplicit false
namespace Verif.JsonStd
open JsonG (Tree)

/-- what the text between quotes denotes -/
def unquote (t : Bytes) : Bytes := unescape (toValidUtf8 0 t)

/-- a literal name -/
def litTree (tok : Bytes) (v : Tree) (s : Bytes) : Option (Tree × Bytes) :=
  if tok.isPrefixOf s then some (v, s.drop tok.length) else none

mutual
/-- a value, nested `d` deep, and what follows it -/
def treeVal : Nat → Nat → Bytes → Option (Tree × Bytes)
  | 0, _, _ => none
  | f + 1, d, s =>
    match skipWS s with
    | [] => none
    | c :: t =>
      if c = 110 then litTree b!"null" .null (c :: t)
      else if c = 116 then litTree b!"true" (.bool true) (c :: t)
      else if c = 102 then litTree b!"false" (.bool false) (c :: t)
      else if c = 34 then (strRaw t).map fun p => (.str p.1, p.2)
      else if c = 91 then
        if maxDepth ≤ d then none
        else match skipWS t with
          | [] => none
          | e :: r => if e = 93 then some (.arr [], r) else (treeElems f (d + 1) (e :: r)).map fun p => (.arr p.1, p.2)
      else if c = 123 then
        if maxDepth ≤ d then none
        else match skipWS t with
          | [] => none
          | e :: r => if e = 125 then some (.obj [], r) else (treeMembers f (d + 1) (e :: r)).map fun p => (.obj p.1, p.2)
      else (numLit (c :: t)).map fun p => (.num p.1, p.2)
/-- elements up to the closing bracket -/
def treeElems : Nat → Nat → Bytes → Option (List Tree × Bytes)
  | 0, _, _ => none
  | f + 1, d, s =>
    (treeVal f d s).bind fun p =>
      match skipWS p.2 with
      | [] => none
      | c :: t =>
        if c = 44 then (treeElems f d t).map fun q => (p.1 :: q.1, q.2)
        else if c = 93 then some ([p.1], t)
        else none
/-- members up to the closing brace -/
def treeMembers : Nat → Nat → Bytes → Option (List (Bytes × Tree) × Bytes)
  | 0, _, _ => none
  | f + 1, d, s =>
    match skipWS s with
    | [] => none
    | q :: s =>
      if q = 34 then
        (strRaw s).bind fun k =>
          match skipWS k.2 with
          | [] => none
          | col :: s =>
            if col = 58 then
              (treeVal f d s).bind fun p =>
                match skipWS p.2 with
                | [] => none
                | c :: t =>
                  if c = 44 then (treeMembers f d t).map fun q => ((k.1, p.1) :: q.1, q.2)
                  else if c = 125 then some ([(k.1, p.1)], t)
                  else none
            else none
      else none
end

/-- the tree of a text; none for a text that is not JSON or nested too deep (`checkValid`) -/
def tree (s : Bytes) : Option Tree :=
  (treeVal (2 * s.length + 2) 0 s).bind fun p => if skipWS p.2 = [] then some p.1 else none

mutual
/-- decoding into an `interface{}`: numbers are float64, of members with the same key the last one stays; none when a number is out of
range -/
def plain (F : FloatCodec) : Tree → Option Val
  | .null => some .null
  | .bool b => some (.bool b)
  | .num t => (F.parse t).map .f64
  | .str t => some (.str (unquote t))
  | .arr l => (plainL F l).map .arr
  | .obj m => (plainF F m).map fun m => .obj (mapOf m)
def plainL (F : FloatCodec) : List Tree → Option (List Val)
  | [] => some []
  | T :: l => (plain F T).bind fun v => (plainL F l).map fun l => v :: l
def plainF (F : FloatCodec) : List (Bytes × Tree) → Option (List (Bytes × Val))
  | [] => some []
  | (k, T) :: m => (plain F T).bind fun v => (plainF F m).map fun m => (unquote k, v) :: m
end

end Verif.JsonStd
