import Verif.Model.Tabular
/-
The package generate: random values and rows (generate/value.go, generate/tabular.go).

The random source (math/rand) is any state machine; a run-time panic is `none`.
-/
set_option autoImplicit false
namespace Verif.Generate

/-- `rand.Rand`: `Intn` for a positive bound, and `NormFloat64` -/
structure Source (ρ : Type) where
  intn : Nat → ρ → Nat × ρ
  norm : ρ → UInt64 × ρ

/-- value.go:57 -/
def letters : Bytes := b!"abcdefghijklmnopqrstuvwxyzABCDEFGHIJKLMNOPQRSTUVWXYZ0123456789"

/-- value.go:62-64: the loop filling a string -/
def fill {ρ : Type} (S : Source ρ) : Nat → ρ → Bytes × ρ
  | 0, r => ([], r)
  | n + 1, r => (letters.getD (S.intn letters.length r).1 0 :: (fill S n (S.intn letters.length r).2).1, (fill S n (S.intn letters.length r).2).2)

/-- value.go:60-66 `String`; `Intn` panics unless its bound is positive -/
def string {ρ : Type} (S : Source ρ) (maxLen : Int) (r : ρ) : Option (Val × ρ) :=
  if maxLen ≤ 0 then none
  else some (.str (fill S (S.intn maxLen.toNat r).1 (S.intn maxLen.toNat r).2).1, (fill S (S.intn maxLen.toNat r).1 (S.intn maxLen.toNat r).2).2)

/-- value.go:69-71 `Float` -/
def float {ρ : Type} (S : Source ρ) (r : ρ) : Val × ρ := (.f64 (S.norm r).1, (S.norm r).2)

/-- value.go:74-76 `Int` -/
def int {ρ : Type} (S : Source ρ) (r : ρ) : Val × ρ := (.gint (S.intn (2 ^ 63 - 1) r).1, (S.intn (2 ^ 63 - 1) r).2)

/-- value.go:79-81 `Bool` -/
def bool {ρ : Type} (S : Source ρ) (r : ρ) : Val × ρ := (.bool (decide ((S.intn 1 r).1 % 2 = 0)), (S.intn 1 r).2)

/-- value.go:15-30 `Value` -/
def value {ρ : Type} (S : Source ρ) (maxLen : Int) (r : ρ) : Option (Val × ρ) :=
  let i := (S.intn 40 r).1
  let r := (S.intn 40 r).2
  if i = 0 then some (.null, r)
  else if 0 < i ∧ i < 10 then some (int S r)
  else if 10 < i ∧ i < 20 then string S maxLen r
  else if 20 < i ∧ i < 30 then some (float S r)
  else if 30 < i ∧ i < 40 then some (bool S r)
  else some (.null, r)

/-- value.go:34-55 `Type`, with 83-93 `Object` and `Array` -/
def type {ρ : Type} (S : Source ρ) (maxLen : Int) (t : Bytes) (r : ρ) : Option (Val × ρ) :=
  if t = b!"string" then string S maxLen r
  else if t = b!"boolean" then some (bool S r)
  else if t = b!"number" then some (float S r)
  else if t = b!"integer" then some (int S r)
  else if t = b!"object" then some (.obj [], r)
  else if t = b!"array" then some (.arr [], r)
  else if t = b!"null" then some (.null, r)
  else value S maxLen r

/-- tabular.go:84-87: the loop over the columns; indexing panics for a column without types -/
def row {ρ : Type} (S : Source ρ) (maxLen : Int) : List Tabular.Column → ρ → Option (List Val × ρ)
  | [], r => some ([], r)
  | c :: cols, r =>
    match c.type with
    | [] => none
    | t :: _ =>
      match type S maxLen t r with
      | none => none
      | some (v, r) => (row S maxLen cols r).map fun p => (v :: p.1, p.2)

/-- tabular.go:13-17 `Config`, made by `DefaultConfig` and changed by options -/
structure Config (ρ : Type) where
  random : ρ
  maxLen : Int := 64
  useRandomType : Bool := false

/-- tabular.go:44-53 `TabularGenerator`; the structure is kept unchanged and not modelled -/
structure Gen (ρ : Type) where
  cols : List Tabular.Column
  maxLen : Int
  random : ρ
  count : Int := 0

/-- tabular.go:60-82 `NewTabularGenerator`, after the options -/
def newTabular {ρ : Type} (order : Nat → List (Bytes × Val) → List (Bytes × Val)) (cfg : Config ρ) (sch : List (Bytes × Val)) :
    Except Tabular.Err (Gen ρ) :=
  match Tabular.fromSchema order sch with
  | .error e => .error e
  | .ok (cols, _) => .ok { cols, maxLen := cfg.maxLen, random := cfg.random }

/-- tabular.go:85-93 `ReadEntry` -/
def readEntry {ρ : Type} (S : Source ρ) (g : Gen ρ) : Option (Entry × Gen ρ) :=
  (row S g.maxLen g.cols g.random).map fun p =>
    ({ index := g.count, value := .arr p.1 }, { g with random := p.2, count := g.count + 1 })

/-- so many calls of `ReadEntry`, none of which may panic -/
def reads {ρ : Type} (S : Source ρ) : Nat → Gen ρ → Option (List Entry × Gen ρ)
  | 0, g => some ([], g)
  | n + 1, g =>
    match readEntry S g with
    | none => none
    | some (e, g) => (reads S n g).map fun p => (e :: p.1, p.2)

end Verif.Generate
