import Verif.Model.Doc
/-
`Dataset.Assign` (dataset.go:352-429) with pointers: datasets and components live in a store and
are shared by reference.  A component pointer is an optional address.

Simplification: the maps and slices inside a component are values of the component; the only
functions that write into such a map (`Transform.Assign`) write into the map of the component they
write to, so two components sharing a map would need a store of maps, which is not modelled.
-/
namespace Verif.Doc

/-- a dataset object: plain fields (in `flat`, whose component fields are unused) and pointers -/
structure DsObj where
  flat : Dataset := {}
  commit : Option Nat := none
  meta_ : Option Nat := none
  readme : Option Nat := none
  structure_ : Option Nat := none
  stats : Option Nat := none
  transform : Option Nat := none
  viz : Option Nat := none

/-- the store: one address space per type -/
structure Heap where
  ds : Nat → DsObj
  commit : Nat → Commit
  meta_ : Nat → Meta
  readme : Nat → Readme
  structure_ : Nat → Structure
  stats : Nat → Stats
  transform : Nat → Transform
  viz : Nat → Viz

/-- write one cell -/
def upd {α : Type} (h : Nat → α) (p : Nat) (v : α) : Nat → α := fun q => if q = p then v else h q

/-- `*dst.Assign(src)` through pointers, src possibly nil -/
def ptrAssign {α : Type} (assign : α → List (Option α) → α) (h : Nat → α) (p : Nat) (src : Option Nat) : Nat → α :=
  upd h p (assign (h p) [src.map h])

/-- dataset.go:372-376 and alike: the new pointer of the receiver -/
def adopt (dst src : Option Nat) : Option Nat := match dst with | none => src | some p => some p

/-- dataset.go:372-376 and alike: the store after the statement -/
def compStore {α : Type} (assign : α → List (Option α) → α) (h : Nat → α) (dst src : Option Nat) : Nat → α :=
  match dst with
  | none => h
  | some p => ptrAssign assign h p src

/-- dataset.go:427: the unconditional second `ds.Commit.Assign(d.Commit)`; with a nil receiver the
argument is nil too and the loop body is skipped -/
def commitAgain (h : Nat → Commit) (dst src : Option Nat) : Nat → Commit :=
  match dst with
  | none => h
  | some p => ptrAssign Commit.assign h p src

/-- one round of the loop in `Assign`: receiver at `r`, source at `a` -/
def Heap.assign1 (h : Heap) (r a : Nat) : Heap :=
  let x := h.ds r
  let y := h.ds a
  { ds := upd h.ds r
      { flat := x.flat.assign1 y.flat
        commit := adopt x.commit y.commit
        meta_ := adopt x.meta_ y.meta_
        readme := adopt x.readme y.readme
        structure_ := adopt x.structure_ y.structure_
        stats := adopt x.stats y.stats
        transform := adopt x.transform y.transform
        viz := adopt x.viz y.viz }
    commit := commitAgain (compStore Commit.assign h.commit x.commit y.commit) (adopt x.commit y.commit) y.commit
    meta_ := compStore Meta.assign h.meta_ x.meta_ y.meta_
    readme := compStore Readme.assign h.readme x.readme y.readme
    structure_ := compStore Structure.assign h.structure_ x.structure_ y.structure_
    stats := compStore Stats.assign h.stats x.stats y.stats
    transform := compStore Transform.assign h.transform x.transform y.transform
    viz := compStore Viz.assign h.viz x.viz y.viz }

/-- dataset.go:352 `Assign`; nil arguments are skipped -/
def Heap.assign (h : Heap) (r : Nat) : List (Option Nat) → Heap
  | [] => h
  | none :: l => h.assign r l
  | some a :: l => (h.assign1 r a).assign r l

/-- the document reachable from a dataset pointer -/
def Heap.load (h : Heap) (p : Nat) : Dataset :=
  let x := h.ds p
  { x.flat with
    commit := x.commit.map h.commit
    meta_ := x.meta_.map h.meta_
    readme := x.readme.map h.readme
    structure_ := x.structure_.map h.structure_
    stats := x.stats.map h.stats
    transform := x.transform.map h.transform
    viz := x.viz.map h.viz }

end Verif.Doc
