import Verif.Go.Float
import Verif.Model.DocHeap
/-
Comparing components: `ShallowCompare` of readmes, vizs and transforms (readme.go:55-72, viz.go:77-95,
transform.go:172-194) and package dstest (dstest/compare.go).

Simplifications:
* `reflect.DeepEqual` takes two references to the same map or slice as equal without looking inside, `deepEq` looks
  inside; the two differ only for references to the same map or slice with a NaN inside;
* `cmp.Diff` of package go-cmp is modelled by whether its result is the empty string; it compares as `deepEq`
  does (times by `Time.Equal`), and skips the unexported fields named by `IgnoreUnexported`;
* nil and empty slices or maps inside `interface{}` values are not distinguished (they are in fields).
-/
namespace Verif.Doc

mutual
/-- equality of `interface{}` values by `reflect.DeepEqual` and `cmp.Equal`: of the same types, with floats compared by `==` -/
def deepEq : Val → Val → Bool
  | .null, .null => true
  | .bool a, .bool b => a = b
  | .int a, .int b => a = b
  | .gint a, .gint b => a = b
  | .f64 a, .f64 b => f64Eq a b
  | .str a, .str b => a = b
  | .bytes a, .bytes b => a = b
  | .arr a, .arr b => deepEqL a b
  | .obj a, .obj b => deepEqF a b
  | _, _ => false
def deepEqL : List Val → List Val → Bool
  | [], [] => true
  | v :: a, w :: b => deepEq v w && deepEqL a b
  | _, _ => false
/-- maps as key-sorted lists -/
def deepEqF : List (Bytes × Val) → List (Bytes × Val) → Bool
  | [], [] => true
  | (k, v) :: a, (k', w) :: b => decide (k = k') && deepEq v w && deepEqF a b
  | _, _ => false
end

/-- nil, or not nil and equal -/
def optEq {α : Type} (eq : α → α → Bool) : Option α → Option α → Bool
  | none, none => true
  | some x, some y => eq x y
  | _, _ => false

/-- slices: element by element -/
def listEq {α : Type} (eq : α → α → Bool) : List α → List α → Bool
  | [], [] => true
  | x :: a, y :: b => eq x y && listEq eq a b
  | _, _ => false

/-- transform.go:328-334: all fields -/
def TransformStep.deepEq (a b : TransformStep) : Bool :=
  a.name = b.name && a.path = b.path && a.syntaxName = b.syntaxName && a.category = b.category && Doc.deepEq a.script b.script

/-! ### ShallowCompare -/

/-- readme.go:60-72 -/
def Readme.shallowCompare : Option Readme → Option Readme → Bool
  | none, none => true
  | some r, some b =>
    r.format = b.format && r.qri = b.qri && r.scriptPath = b.scriptPath && r.renderedPath = b.renderedPath && r.text = b.text
  | _, _ => false

/-- viz.go:82-94 -/
def Viz.shallowCompare : Option Viz → Option Viz → Bool
  | none, none => true
  | some v, some b =>
    v.format = b.format && v.qri = b.qri && v.scriptPath = b.scriptPath && v.renderedPath = b.renderedPath && v.text = b.text
  | _, _ => false

/-- transform.go:177-194 -/
def Transform.shallowCompare : Option Transform → Option Transform → Bool
  | none, none => true
  | some q, some b =>
    q.syntaxName = b.syntaxName && q.syntaxVersion = b.syntaxVersion && q.qri = b.qri && q.scriptPath = b.scriptPath &&
    q.text = b.text && optEq deepEqF q.config b.config && q.secrets = b.secrets &&
    optEq (listEq (optEq TransformStep.deepEq)) q.steps b.steps && q.resources = b.resources && q.syntaxes = b.syntaxes
  | _, _ => false

/-! ### dstest -/

/-- `cmp.Diff` of commits is empty: all fields are exported, and comparable by `==` or `Time.Equal` -/
def Commit.cmpEq (a b : Commit) : Bool := a = b

/-- `cmp.Diff` of metas is empty: the unexported map of arbitrary values is skipped (`IgnoreUnexported`) -/
def Meta.cmpEq (a b : Meta) : Bool := ({ a with arbitrary := none } : Meta) = { b with arbitrary := none }

/-- `cmp.Diff` of structures is empty -/
def Structure.cmpEq (a b : Structure) : Bool :=
  a.checksum = b.checksum && a.compression = b.compression && a.depth = b.depth && a.encoding = b.encoding &&
  a.errCount = b.errCount && a.entries = b.entries && a.format = b.format && optEq deepEqF a.formatConfig b.formatConfig &&
  a.length = b.length && a.path = b.path && a.qri = b.qri && optEq deepEqF a.schema b.schema && a.strict = b.strict

/-- `cmp.Diff` of stats is empty -/
def Stats.cmpEq (a b : Stats) : Bool := a.path = b.path && a.qri = b.qri && deepEq a.stats b.stats

/-- `cmp.Diff` of transforms is empty: the script file is skipped -/
def Transform.cmpEq (a b : Transform) : Bool :=
  optEq deepEqF a.config b.config && a.path = b.path && a.qri = b.qri && a.resources = b.resources &&
  a.scriptPath = b.scriptPath && a.text = b.text && a.secrets = b.secrets &&
  optEq (listEq (optEq TransformStep.deepEq)) a.steps b.steps &&
  a.syntaxName = b.syntaxName && a.syntaxVersion = b.syntaxVersion && a.syntaxes = b.syntaxes

/-- `cmp.Diff` of readmes is empty: the files are skipped -/
def Readme.cmpEq (a b : Readme) : Bool :=
  a.format = b.format && a.path = b.path && a.qri = b.qri && a.scriptPath = b.scriptPath && a.text = b.text && a.renderedPath = b.renderedPath

/-- `cmp.Diff` of vizs is empty: the files are skipped -/
def Viz.cmpEq (a b : Viz) : Bool :=
  a.format = b.format && a.path = b.path && a.qri = b.qri && a.scriptPath = b.scriptPath && a.text = b.text && a.renderedPath = b.renderedPath

/-- `cmp.Diff` of datasets is empty: the body file is skipped -/
def Dataset.cmpEq (a b : Dataset) : Bool :=
  deepEq a.body b.body && a.bodyBytes = b.bodyBytes && a.bodyPath = b.bodyPath && optEq Commit.cmpEq a.commit b.commit &&
  a.id = b.id && optEq Meta.cmpEq a.meta_ b.meta_ && a.name = b.name && a.path = b.path && a.peername = b.peername &&
  a.previousPath = b.previousPath && a.profileID = b.profileID && optEq Readme.cmpEq a.readme b.readme &&
  a.numVersions = b.numVersions && a.qri = b.qri && optEq Structure.cmpEq a.structure_ b.structure_ &&
  optEq Stats.cmpEq a.stats b.stats && optEq Transform.cmpEq a.transform b.transform && optEq Viz.cmpEq a.viz b.viz

/-- dstest/compare.go:64-84 `CompareCommits`: whether the result is empty; lines 76-79 drop the transient values of
the first copy twice -/
def compareCommits (drop : Bool) (expect got : Option Commit) : Bool :=
  let a := Commit.assign {} [expect]
  let b := Commit.assign {} [got]
  let a := if drop then a.dropTransient.dropTransient else a
  a.cmpEq b

/-- dstest/compare.go:87-107 `CompareMetas` -/
def compareMetas (drop : Bool) (expect got : Option Meta) : Bool :=
  let a := Meta.assign {} [expect]
  let b := Meta.assign {} [got]
  let a := if drop then a.dropTransient.dropTransient else a
  a.cmpEq b

/-- dstest/compare.go:110-130 `CompareStructures` -/
def compareStructures (drop : Bool) (expect got : Option Structure) : Bool :=
  let a := Structure.assign {} [expect]
  let b := Structure.assign {} [got]
  let a := if drop then a.dropTransient.dropTransient else a
  a.cmpEq b

/-- dstest/compare.go:16-42 `CompareDatasets` on values -/
def compareDatasets (drop : Bool) (expect got : Option Dataset) : Bool :=
  let a := Dataset.assign {} [expect]
  let b := Dataset.assign {} [got]
  let a := if drop then a.dropTransient.dropTransient else a
  a.cmpEq b

/-- `&dataset.Dataset{}`: a new dataset at `p` -/
def Heap.alloc (h : Heap) (p : Nat) : Heap := { h with ds := upd h.ds p {} }

/-- dataset.go:240-248 through a pointer: only fields of the dataset itself -/
def Heap.dropTransient (h : Heap) (p : Nat) : Heap :=
  { h with ds := upd h.ds p { h.ds p with flat := (h.ds p).flat.dropTransient } }

/-- dstest/compare.go:16-42 `CompareDatasets` with pointers: `r` and `q` are the addresses of the two copies -/
def Heap.compareDatasets (h : Heap) (r q : Nat) (drop : Bool) (expect got : Option Nat) : Bool × Heap :=
  let h := ((h.alloc r).assign r [expect])
  let h := ((h.alloc q).assign q [got])
  let h := if drop then (h.dropTransient r).dropTransient r else h
  ((h.load r).cmpEq (h.load q), h)

end Verif.Doc
