import Verif.Go.Val
import Verif.Spec.FloatValue
/-
Specification: CBOR data items (RFC 8949), every way to encode them, and what they stand for.

An `Item` is a data item together with the choices its encoding leaves open: the width of the number in each head, and definite or indefinite length.
-/
set_option autoImplicit false
namespace Verif.CborItem

/-- how many bytes follow the first byte of a head -/
inductive Width where
  | w0 | w1 | w2 | w4 | w8
deriving DecidableEq

/-- how many bytes follow the first one -/
def Width.size : Width → Nat
  | .w0 => 0
  | .w1 => 1
  | .w2 => 2
  | .w4 => 4
  | .w8 => 8

/-- which numbers can be written with this width -/
def Width.Holds : Width → Nat → Prop
  | .w0, n => n < 24
  | w, n => n < 256 ^ w.size

instance (w : Width) (n : Nat) : Decidable (w.Holds n) := by
  cases w <;> exact inferInstanceAs (Decidable (_ < _))

/-- the low five bits of the first byte -/
def Width.info : Width → Nat → Nat
  | .w0, n => n
  | .w1, _ => 24
  | .w2, _ => 25
  | .w4, _ => 26
  | .w8, _ => 27

/-- RFC 8949, section 3: major type and number -/
def head (major : Nat) (w : Width) (n : Nat) : Bytes := UInt8.ofNat (32 * major + w.info n) :: toBE w.size n

/-- data items with the choices of their encoding (for containers: no width for an indefinite length) -/
inductive Item where
  | uint (w : Width) (n : Nat)
  | nint (w : Width) (n : Nat)
  | bytes (w : Width) (s : Bytes)
  | byteChunks (l : List (Width × Bytes))
  | text (w : Width) (s : Bytes)
  | textChunks (l : List (Width × Bytes))
  | arr (w : Option Width) (l : List Item)
  | map (w : Option Width) (l : List (Item × Item))
  | tag (w : Width) (n : Nat) (i : Item)
  | simple (n : Nat)
  | half (n : Nat)
  | single (n : Nat)
  | double (n : Nat)

/-- the chunks of a string of indefinite length, up to the break -/
def chunksBytes (major : Nat) : List (Width × Bytes) → Bytes
  | [] => [0xff]
  | (w, s) :: l => head major w s.length ++ s ++ chunksBytes major l

/-- head and end of a container -/
def container (major : Nat) (w : Option Width) (n : Nat) (p : Bytes) : Bytes :=
  match w with
  | some w => head major w n ++ p
  | none => UInt8.ofNat (32 * major + 31) :: (p ++ [0xff])

mutual
/-- the encoding -/
def Item.encoded : Item → Bytes
  | .uint w n => head 0 w n
  | .nint w n => head 1 w n
  | .bytes w s => head 2 w s.length ++ s
  | .byteChunks l => 0x5f :: chunksBytes 2 l
  | .text w s => head 3 w s.length ++ s
  | .textChunks l => 0x7f :: chunksBytes 3 l
  | .arr w l => container 4 w l.length (encodedL l)
  | .map w l => container 5 w l.length (encodedM l)
  | .tag w n i => head 6 w n ++ i.encoded
  | .simple n => if n < 24 then [UInt8.ofNat (0xe0 + n)] else [0xf8, UInt8.ofNat n]
  | .half n => 0xf9 :: toBE 2 n
  | .single n => 0xfa :: toBE 4 n
  | .double n => 0xfb :: toBE 8 n
/-- elements -/
def encodedL : List Item → Bytes
  | [] => []
  | i :: l => i.encoded ++ encodedL l
/-- members -/
def encodedM : List (Item × Item) → Bytes
  | [] => []
  | (k, i) :: l => k.encoded ++ i.encoded ++ encodedM l
end

/-- the text of a key -/
def Item.key : Item → Option Bytes
  | .text _ s => some s
  | .textChunks l => some (l.flatMap (·.2))
  | _ => none

mutual
/-- well-formed and valid: every number fits its width, there are fewer than 2^63 elements, no key comes twice -/
def Item.Valid : Item → Prop
  | .uint w n => w.Holds n
  | .nint w n => w.Holds n
  | .bytes w s => w.Holds s.length
  | .byteChunks l => ∀ c ∈ l, c.1.Holds c.2.length
  | .text w s => w.Holds s.length
  | .textChunks l => ∀ c ∈ l, c.1.Holds c.2.length
  | .arr w l => (∀ w' ∈ w, w'.Holds l.length) ∧ l.length < 2 ^ 63 ∧ ValidL l
  | .map w l => (∀ w' ∈ w, w'.Holds l.length) ∧ l.length < 2 ^ 63 ∧ l.Pairwise (fun a b => a.1.key = none ∨ a.1.key ≠ b.1.key) ∧ ValidM l
  | .tag w n i => w.Holds n ∧ i.Valid
  | .simple n => n < 24 ∨ 32 ≤ n ∧ n < 256
  | .half n => n < 256 ^ 2
  | .single n => n < 256 ^ 4
  | .double n => n < 256 ^ 8
def ValidL : List Item → Prop
  | [] => True
  | i :: l => i.Valid ∧ ValidL l
def ValidM : List (Item × Item) → Prop
  | [] => True
  | (k, i) :: l => k.Valid ∧ i.Valid ∧ ValidM l
end

/-- the number that a float with `e` bits of exponent and `m` of fraction stands for (IEEE 754), if it is one -/
def fraction (e m n : Nat) : ℚ :=
  (if n / 2 ^ (e + m) % 2 = 1 then -1 else 1) * ((if n / 2 ^ m % 2 ^ e = 0 then n % 2 ^ m else 2 ^ m + n % 2 ^ m : Nat) : ℚ) *
    (2 : ℚ) ^ ((max 1 (n / 2 ^ m % 2 ^ e) : Nat) - ((2 ^ (e - 1) - 1 : Nat) : ℤ) - (m : ℤ))

/-- the float64 `x` stands for the same as the narrower float `n`: the same infinity, not a number, or the same number with the same sign -/
def SameFloat (e m n : Nat) (x : UInt64) : Prop :=
  if n / 2 ^ m % 2 ^ e = 2 ^ e - 1 then
    if n % 2 ^ m = 0 then f64Mag x = 0x7FF0000000000000 ∧ (n / 2 ^ (e + m) % 2 = 1 ↔ 2 ^ 63 ≤ x.toNat) else f64NaN x = true
  else f64Mag x < 0x7FF0000000000000 ∧ FloatText.value x = fraction e m n ∧ (n / 2 ^ (e + m) % 2 = 1 ↔ 2 ^ 63 ≤ x.toNat)

mutual
/-- what an item stands for; tags are taken as remarks, undefined as null -/
def Item.Means : Item → Val → Prop
  | .uint _ n, v => v = .int n
  | .nint _ n, v => v = .int (-1 - n)
  | .bytes _ s, v => v = .bytes s
  | .byteChunks l, v => v = .bytes (l.flatMap (·.2))
  | .text _ s, v => v = .str s
  | .textChunks l, v => v = .str (l.flatMap (·.2))
  | .arr _ l, v => ∃ vs, v = .arr vs ∧ MeansL l vs
  | .map _ l, v => ∃ m, v = .obj m ∧ KeysSorted m ∧ m.length = l.length ∧ MeansM l m
  | .tag _ _ i, v => i.Means v
  | .simple n, v => n = 20 ∧ v = .bool false ∨ n = 21 ∧ v = .bool true ∨ n = 22 ∧ v = .null ∨ n = 23 ∧ v = .null
  | .half n, v => ∃ x, v = .f64 x ∧ SameFloat 5 10 n x
  | .single n, v => ∃ x, v = .f64 x ∧ SameFloat 8 23 n x
  | .double n, v => v = .f64 (UInt64.ofNat n)
def MeansL : List Item → List Val → Prop
  | [], vs => vs = []
  | i :: l, vs => ∃ v vs', vs = v :: vs' ∧ i.Means v ∧ MeansL l vs'
/-- every member is in the map -/
def MeansM : List (Item × Item) → List (Bytes × Val) → Prop
  | [], _ => True
  | (k, i) :: l, m => (∃ k' v, k.key = some k' ∧ mapGet m k' = some v ∧ i.Means v) ∧ MeansM l m
end

end Verif.CborItem
