import Verif.Go.Val
import Verif.Go.Strconv
import Verif.Go.Regex
/-
The package tabular: columns of a table taken from a JSON schema (tabular/tabular.go).
-/
set_option autoImplicit false
namespace Verif.Tabular

/-- tabular.go:67-73; an absent validation map is `none` -/
structure Column where
  title : Bytes
  type : List Bytes
  description : Bytes := []
  validation : Option (List (Bytes × Val)) := none
deriving DecidableEq

/-- the strings among the elements (tabular.go:181-185) -/
def strings : List Val → List Bytes
  | [] => []
  | .str s :: l => s :: strings l
  | _ :: l => strings l

/-- problems reported beside the columns -/
inductive Problem where
  | notObject (i : Nat)
  | noTitle (i : Nat)
  | noType (i : Nat)
deriving DecidableEq

/-- a column under construction with the two flags (tabular.go:166-200) -/
structure Build where
  col : Column
  setTitle : Bool := false
  setType : Bool := false

/-- tabular.go:167-200: one round of the loop over the members of the column's schema -/
def member (b : Build) (kv : Bytes × Val) : Build :=
  if kv.1 = b!"title" then
    match kv.2 with
    | .str t => { b with col := { b.col with title := t }, setTitle := true }
    | _ => b
  else if kv.1 = b!"type" then
    match kv.2 with
    | .str x => { b with col := { b.col with type := [x] }, setType := true }
    | .arr l => { b with col := { b.col with type := strings l }, setType := true }
    | _ => { b with setType := true }
  else if kv.1 = b!"description" then
    match kv.2 with
    | .str d => { b with col := { b.col with description := d } }
    | _ => b
  else { b with col := { b.col with validation := some (mapSet (b.col.validation.getD []) kv.1 kv.2) } }

/-- tabular.go:157-158: what a column is before its schema is looked at -/
def blank (i : Nat) : Column := { title := b!"col_" ++ fmtNat i, type := [b!"string"] }

/-- tabular.go:156-207: column number `i`; `order i` is the order in which Go goes through the members of the
object for this column -/
def column (order : Nat → List (Bytes × Val) → List (Bytes × Val)) (i : Nat) (f : Val) : Column × List Problem :=
  match f with
  | .obj m =>
    let b := (order i m).foldl member { col := blank i }
    (b.col, (if b.setTitle then [] else [.noTitle i]) ++ (if b.setType then [] else [.noType i]))
  | _ => (blank i, [.notObject i])

/-- the loop over the columns from number `i` on -/
def columns (order : Nat → List (Bytes × Val) → List (Bytes × Val)) : Nat → List Val → List Column × List Problem
  | _, [] => ([], [])
  | i, f :: l => ((column order i f).1 :: (columns order (i + 1) l).1, (column order i f).2 ++ (columns order (i + 1) l).2)

inductive Err where
  | noType | badType | items | itemsItems | unfinished
deriving DecidableEq

/-- tabular.go:142-210 `arrayWrapperColumns` -/
def arrayWrapperColumns (order : Nat → List (Bytes × Val) → List (Bytes × Val)) (sch : List (Bytes × Val)) : Except Err (List Column × List Problem) :=
  match mapGet sch b!"items" with
  | some (.obj m) =>
    match mapGet m b!"items" with
    | some (.arr l) => .ok (columns order 0 l)
    | _ => .error .itemsItems
  | _ => .error .items

/-- tabular.go:125-140 `ColumnsFromJSONSchema` -/
def fromSchema (order : Nat → List (Bytes × Val) → List (Bytes × Val)) (sch : List (Bytes × Val)) : Except Err (List Column × List Problem) :=
  match mapGet sch b!"type" with
  | some (.str t) =>
    if t = b!"array" then arrayWrapperColumns order sch
    else if t = b!"object" then .error .unfinished
    else .error .badType
  | _ => .error .noType

/-- tabular.go:32-38 `Titles` -/
def titles (cols : List Column) : List Bytes := cols.map (·.title)

/-- tabular.go:40: `^[a-zA-Z_$][a-zA-Z_$0-9]*$` -/
def isIdentStart (c : UInt8) : Bool := isLetter c || c = 95 || c = 36
def validMachineTitle : Re := .seq (.cls isIdentStart) (.star (.cls fun c => isIdentStart c || isDigit c))

inductive TitleProblem where
  | invalid (i : Nat)
  | dup (i : Nat)
deriving DecidableEq

/-- tabular.go:47-58: the loop from column `i` on, with the titles seen so far -/
def titleProblems : Nat → List Bytes → List Column → List TitleProblem
  | _, _, [] => []
  | i, seen, c :: l =>
    (if validMachineTitle.full c.title then [] else [.invalid i]) ++
    ((if c.title ∈ seen then [.dup i] else []) ++ titleProblems (i + 1) (c.title :: seen) l)

/-- tabular.go:45-65 `ValidMachineTitles`: true for no error -/
def validMachineTitles (cols : List Column) : Bool := titleProblems 0 [] cols = []

/-- tabular.go:80-87 `HasType` -/
def hasType (ct : List Bytes) (t : Bytes) : Bool := ct.any fun x => x = t

/-- tabular.go:91-100 `MarshalJSON`: the JSON tree; no types give no text at all, which the JSON encoder
refuses -/
def marshalType : List Bytes → Option Val
  | [] => none
  | [t] => some (.str t)
  | l => some (.arr (l.map .str))

/-- `json.Unmarshal` of array elements into a `[]string`: null leaves the element empty -/
def unmarshalStrings : List Val → Option (List Bytes)
  | [] => some []
  | .str s :: l => (unmarshalStrings l).map (s :: ·)
  | .null :: l => (unmarshalStrings l).map ([] :: ·)
  | _ :: _ => none

/-- tabular.go:103-116 `UnmarshalJSON` of a JSON tree.  Null into a string is no error and leaves it
empty. -/
def unmarshalType : Val → Option (List Bytes)
  | .str s => some [s]
  | .null => some [[]]
  | .arr l => unmarshalStrings l
  | _ => none

end Verif.Tabular
