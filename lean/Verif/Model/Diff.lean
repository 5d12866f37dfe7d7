import Verif.Model.DocJson
import Verif.Go.JsonParse
import Verif.Go.Strconv
/-
Model of dsdiff/dsdiff.go, with the part of gojsondiff (v1.0.0) that it uses: `Compare`, whose source is not in the
repository, is modelled as comparing two objects member by member; members differ if they are not deeply equal.
-/
set_option autoImplicit false
namespace Verif.Diff
open Doc

/-! ### gojsondiff -/

inductive Delta where
  | deleted (name : Bytes) (v : Val)
  | modified (name : Bytes) (v w : Val)
  | added (name : Bytes) (w : Val)
deriving DecidableEq

mutual
/-- zero without its sign, which `reflect.DeepEqual` does not see; parsed JSON has no NaN, so this is all it does not see -/
def unsign : Val → Val
  | .f64 x => .f64 (if x = 0x8000000000000000 then 0 else x)
  | .arr l => .arr (unsignL l)
  | .obj m => .obj (unsignF m)
  | .null => .null
  | .bool b => .bool b
  | .int i => .int i
  | .gint i => .gint i
  | .str s => .str s
  | .bytes s => .bytes s
def unsignL : List Val → List Val
  | [] => []
  | v :: l => unsign v :: unsignL l
def unsignF : List (Bytes × Val) → List (Bytes × Val)
  | [] => []
  | (k, v) :: m => (k, unsign v) :: unsignF m
end

def same (v w : Val) : Bool := unsign v = unsign w

/-- members of the left object in order of their names, then those only in the right one -/
def compareMaps (l r : List (Bytes × Val)) : List Delta :=
  (l.filterMap fun kv =>
    match mapGet r kv.1 with
    | none => some (.deleted kv.1 kv.2)
    | some w => if same kv.2 w then none else some (.modified kv.1 kv.2 w)) ++
  (r.filterMap fun kv => if (mapGet l kv.1).isNone then some (.added kv.1 kv.2) else none)

/-- unmarshalling into a map: null leaves it nil -/
def toMap : Val → Option (List (Bytes × Val))
  | .obj m => some m
  | .null => some []
  | _ => none

/-- `Differ.Compare` -/
def compare (F : FloatCodec) (a b : Bytes) : Option (List Delta) :=
  (JsonStd.unmarshal F a).bind fun a => (toMap a).bind fun l =>
    (JsonStd.unmarshal F b).bind fun b => (toMap b).map fun r => compareMaps l r

/-! ### Components -/

inductive Kind where
  | structure_ | data | transform | meta_ | viz
deriving DecidableEq

def Kind.name : Kind → Bytes
  | .structure_ => b!"structure" | .data => b!"data" | .transform => b!"transform" | .meta_ => b!"meta" | .viz => b!"viz"

/-- dsdiff.go:14-18; `diff` is none for the nil interface -/
structure SubDiff where
  diff : Option (List Delta) := none
  kind : Kind
  a : Bytes := []
  b : Bytes := []
deriving DecidableEq

inductive Err where
  | marshal (k : Kind)
  | comparing (k : Kind)
deriving DecidableEq

/-- dsdiff.go:213-222 `DiffJSON` -/
def diffJSON (F : FloatCodec) (a b : Bytes) (k : Kind) : Except Err SubDiff :=
  match compare F a b with
  | none => .error (.comparing k)
  | some d => .ok { diff := some d, kind := k, a := a, b := b }

/-- `json.Marshal` of both sides, then `DiffJSON` -/
def diffVals (F : FloatCodec) (a b : Val) (k : Kind) : Except Err SubDiff :=
  if jsonOK a ∧ jsonOK b then diffJSON F (enc F a) (enc F b) k else .error (.marshal k)

/-- dsdiff.go:87-106 `DiffStructure` -/
def diffStructure (F : FloatCodec) (a b : Option Doc.Structure) : Except Err SubDiff :=
  diffVals F (a.getD {}).encObj (b.getD {}).encObj .structure_

/-- dsdiff.go:109-119 `DiffData` -/
def diffData (a b : Doc.Dataset) : Except Err SubDiff :=
  if 1 < a.bodyPath.length ∧ 1 < b.bodyPath.length ∧ a.bodyPath = b.bodyPath then .ok { kind := .data } else .ok { kind := .data }

/-- equal references -/
def samePath (a b : Bytes) : Bool := decide (1 < a.length) && decide (1 < b.length) && decide (a = b)

/-- dsdiff.go:122-153 `DiffTransform` -/
def diffTransform (F : FloatCodec) (a b : Option Doc.Transform) : Except Err SubDiff :=
  let left := a.getD {}
  let right := b.getD {}
  let right := if left.scriptPath ≠ [] ∧ right.scriptPath ≠ [] then { right with scriptPath := left.scriptPath } else right
  if samePath left.path right.path then .ok { kind := .transform }
  else diffVals F left.encObj right.encObj .transform

/-- dsdiff.go:156-182 `DiffMeta` -/
def diffMeta (F : FloatCodec) (a b : Option Doc.Meta) : Except Err SubDiff :=
  let a := a.getD {}
  let b := b.getD {}
  if samePath a.path b.path then .ok { kind := .meta_ }
  else if ¬ (1 < a.path.length ∧ 1 < b.path.length) ∧ a.isEmpty ∧ b.isEmpty then .ok { kind := .meta_ }
  else diffVals F a.encObj b.encObj .meta_

/-- dsdiff.go:185-210 `DiffViz` -/
def diffViz (F : FloatCodec) (a b : Option Doc.Viz) : Except Err SubDiff :=
  let a := a.getD {}
  let b := b.getD {}
  if samePath a.path b.path then .ok { kind := .viz }
  else diffVals F a.encObj b.encObj .viz

/-! ### Datasets -/

/-- result maps: at most one diff of each kind, so a list -/
abbrev Result := List SubDiff

/-- a component that is nil on both sides is not compared; a nil diff is not stored -/
def part (present : Bool) (d : Except Err SubDiff) (m : Result) : Except Err Result :=
  if present then
    match d with
    | .error e => .error e
    | .ok d => .ok (if d.diff.isSome then m ++ [d] else m)
  else .ok m

/-- dsdiff.go:237-296 `DiffDatasets`; the partial result beside a structure error is not modelled.  `data` is the pair of
dereferenced bodies. -/
def diffDatasets (F : FloatCodec) (a b : Doc.Dataset) (data : Option (Bytes × Bytes)) : Except Err Result := do
  let m ← part (a.structure_.isSome || b.structure_.isSome) (diffStructure F a.structure_ b.structure_) []
  let m ← part true (match data with | some (x, y) => diffJSON F x y .data | none => diffData a b) m
  let m ← part (a.meta_.isSome || b.meta_.isSome) (diffMeta F a.meta_ b.meta_) m
  let m ← part (a.transform.isSome || b.transform.isSome) (diffTransform F a.transform b.transform) m
  part (a.viz.isSome || b.viz.isSome) (diffViz F a.viz b.viz) m

/-! ### Summaries -/

/-- printing by gojsondiff and fmt: none for an error -/
structure Lib where
  showDelta : Delta → Bytes
  ascii : (color : Bool) → List (Bytes × Val) → List Delta → Option Bytes
  delta : List Delta → Option Bytes

/-- `Modified`; calling it on a nil diff panics, which `DiffDatasets` never stores -/
def SubDiff.deltas (d : SubDiff) : List Delta := d.diff.getD []

/-- `strings.Title` of the kinds -/
def Kind.title : Kind → Bytes
  | .structure_ => b!"Structure" | .data => b!"Data" | .transform => b!"Transform" | .meta_ => b!"Meta" | .viz => b!"Viz"

/-- dsdiff.go:31-84 `SummarizeToString`; none for an error -/
def summarize (F : FloatCodec) (L : Lib) (how : Bytes) (d : SubDiff) : Option Bytes :=
  let plural := if 1 < d.deltas.length then b!"s" else []
  if d.deltas = [] then some []
  else if how = b!"simple" then some (d.kind.title ++ b!" Changed. (" ++ fmtNat d.deltas.length ++ b!" change" ++ plural ++ b!")")
  else if how = b!"listKeys" then
    some (d.kind.title ++ b!": " ++ fmtNat d.deltas.length ++ b!" change" ++ plural ++ d.deltas.flatMap fun x => b!"\n\t- modified " ++ L.showDelta x)
  else if how = b!"plusMinusColor" ∨ how = b!"plusMinus" then
    ((JsonStd.unmarshal F d.a).bind toMap).bind fun m => L.ascii (decide (how = b!"plusMinusColor")) m d.deltas
  else if how = b!"delta" then L.delta d.deltas
  else some []

/-- dsdiff.go:306-337 `MapDiffsToString`, over the kinds in the fixed order -/
def mapDiffs (F : FloatCodec) (L : Lib) (how : Bytes) (m : Result) : List Kind → Option Bytes
  | [] => some []
  | k :: ks =>
    match m.find? (fun d => d.kind = k) with
    | none => mapDiffs F L how m ks
    | some d =>
      match summarize F L how d with
      | none => none
      | some s => if s ≠ [] then some s else mapDiffs F L how m ks

def order : List Kind := [.structure_, .data, .transform, .meta_, .viz]

def mapDiffsToString (F : FloatCodec) (L : Lib) (m : Result) (how : Bytes) : Option Bytes := mapDiffs F L how m order

end Verif.Diff
