import Verif.Go.Bytes
/-
The Go `interface{}` trees that flow through the dsio readers and writers.
-/
namespace Verif

/-- A Go `interface{}` holding decoded data.

* `int`  – `int64` (what the JSON and CBOR readers produce),
* `gint` – `int`,
* `f64`  – `float64`, represented by its IEEE-754 bits,
* `bytes`– `[]byte`,
* `obj`  – `map[string]interface{}` as a key-sorted association list. -/
inductive Val where
  | null
  | bool (b : Bool)
  | int (i : Int)
  | gint (i : Int)
  | f64 (bits : UInt64)
  | str (s : Bytes)
  | bytes (s : Bytes)
  | arr (l : List Val)
  | obj (m : List (Bytes × Val))

mutual
/-- Decidable equality, written out because `deriving` does not support nested types. -/
def Val.dec : (a b : Val) → Decidable (a = b)
  | .null, .null => isTrue rfl
  | .bool a, .bool b => if h : a = b then isTrue (h ▸ rfl) else isFalse (by intro e; injection e; contradiction)
  | .int a, .int b => if h : a = b then isTrue (h ▸ rfl) else isFalse (by intro e; injection e; contradiction)
  | .gint a, .gint b => if h : a = b then isTrue (h ▸ rfl) else isFalse (by intro e; injection e; contradiction)
  | .f64 a, .f64 b => if h : a = b then isTrue (h ▸ rfl) else isFalse (by intro e; injection e; contradiction)
  | .str a, .str b => if h : a = b then isTrue (h ▸ rfl) else isFalse (by intro e; injection e; contradiction)
  | .bytes a, .bytes b => if h : a = b then isTrue (h ▸ rfl) else isFalse (by intro e; injection e; contradiction)
  | .arr a, .arr b => match Val.decL a b with
    | isTrue h => isTrue (h ▸ rfl)
    | isFalse h => isFalse (by intro e; injection e; contradiction)
  | .obj a, .obj b => match Val.decF a b with
    | isTrue h => isTrue (h ▸ rfl)
    | isFalse h => isFalse (by intro e; injection e; contradiction)
  | .null, .bool _ | .null, .int _ | .null, .gint _ | .null, .f64 _ | .null, .str _ | .null, .bytes _
  | .null, .arr _ | .null, .obj _ => isFalse nofun
  | .bool _, .null | .bool _, .int _ | .bool _, .gint _ | .bool _, .f64 _ | .bool _, .str _
  | .bool _, .bytes _ | .bool _, .arr _ | .bool _, .obj _ => isFalse nofun
  | .int _, .null | .int _, .bool _ | .int _, .gint _ | .int _, .f64 _ | .int _, .str _
  | .int _, .bytes _ | .int _, .arr _ | .int _, .obj _ => isFalse nofun
  | .gint _, .null | .gint _, .bool _ | .gint _, .int _ | .gint _, .f64 _ | .gint _, .str _
  | .gint _, .bytes _ | .gint _, .arr _ | .gint _, .obj _ => isFalse nofun
  | .f64 _, .null | .f64 _, .bool _ | .f64 _, .int _ | .f64 _, .gint _ | .f64 _, .str _
  | .f64 _, .bytes _ | .f64 _, .arr _ | .f64 _, .obj _ => isFalse nofun
  | .str _, .null | .str _, .bool _ | .str _, .int _ | .str _, .gint _ | .str _, .f64 _
  | .str _, .bytes _ | .str _, .arr _ | .str _, .obj _ => isFalse nofun
  | .bytes _, .null | .bytes _, .bool _ | .bytes _, .int _ | .bytes _, .gint _ | .bytes _, .f64 _
  | .bytes _, .str _ | .bytes _, .arr _ | .bytes _, .obj _ => isFalse nofun
  | .arr _, .null | .arr _, .bool _ | .arr _, .int _ | .arr _, .gint _ | .arr _, .f64 _
  | .arr _, .str _ | .arr _, .bytes _ | .arr _, .obj _ => isFalse nofun
  | .obj _, .null | .obj _, .bool _ | .obj _, .int _ | .obj _, .gint _ | .obj _, .f64 _
  | .obj _, .str _ | .obj _, .bytes _ | .obj _, .arr _ => isFalse nofun
def Val.decL : (a b : List Val) → Decidable (a = b)
  | [], [] => isTrue rfl
  | [], _ :: _ => isFalse nofun
  | _ :: _, [] => isFalse nofun
  | a :: s, b :: t => match Val.dec a b, Val.decL s t with
    | isTrue h, isTrue h' => isTrue (by rw [h, h'])
    | isFalse h, _ => isFalse (by intro e; injection e; contradiction)
    | _, isFalse h => isFalse (by intro e; injection e; contradiction)
def Val.decF : (a b : List (Bytes × Val)) → Decidable (a = b)
  | [], [] => isTrue rfl
  | [], _ :: _ => isFalse nofun
  | _ :: _, [] => isFalse nofun
  | (k, a) :: s, (l, b) :: t => if hk : k = l then match Val.dec a b, Val.decF s t with
    | isTrue h, isTrue h' => isTrue (by rw [h, h', hk])
    | isFalse h, _ => isFalse (by intro e; simp at e; exact h e.1.2)
    | _, isFalse h => isFalse (by intro e; injection e; contradiction)
   else isFalse (by intro e; simp at e; exact hk e.1.1)
end
instance : DecidableEq Val := Val.dec

/-- `dsio.Entry` (dsio/entry.go:9-19): one unit of body data.  `Index` is used for array
bodies and `Key` for object bodies. -/
structure Entry where
  index : Int := 0
  key : Bytes := []
  value : Val := .null
deriving DecidableEq

/-- The two top level types a body can have (dsio/dsio.go:127-140). -/
inductive TopLevel where
  | array
  | object
deriving DecidableEq

/-- int64 range -/
def IsInt64 (i : Int) : Prop := -(2^63) ≤ i ∧ i < 2^63

instance (i : Int) : Decidable (IsInt64 i) := inferInstanceAs (Decidable (_ ∧ _))

/-- Go conversion `int64(u)` of a uint64 value. -/
def toInt64 (n : Nat) : Int := if n < 2^63 then (n : Int) else (n : Int) - 2^64

/-- big endian value of a byte string (`binary.BigEndian.Uint64` for 8 bytes) -/
def beNat : Bytes → Nat := List.foldl (fun acc b => acc * 256 + b.toNat) 0

/-- `n` low bytes of `v`, big endian -/
def toBE : Nat → Nat → Bytes
  | 0, _ => []
  | n + 1, v => toBE n (v / 256) ++ [UInt8.ofNat (v % 256)]

theorem toBE_length (n v : Nat) : (toBE n v).length = n := by
  induction n generalizing v with
  | zero => rfl
  | succ n ih => simp [toBE, ih]

theorem beNat_append (s : Bytes) (b : UInt8) : beNat (s ++ [b]) = beNat s * 256 + b.toNat := by
  simp [beNat]

theorem beNat_toBE (n v : Nat) (h : v < 256 ^ n) : beNat (toBE n v) = v := by
  induction n generalizing v with
  | zero => simp at h; simp [toBE, beNat, h]
  | succ n ih =>
    have h' : v / 256 < 256 ^ n := by
      rw [Nat.pow_succ] at h
      exact Nat.div_lt_of_lt_mul (by omega)
    simp only [toBE, beNat_append, ih _ h']
    simp
    omega

end Verif
