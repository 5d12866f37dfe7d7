import Verif.Spec.JsonTree
/-
Specification: what a JSON text (RFC 8259) stands for, texts with surrogate pairs, numbers of any size and repeated keys included.
-/
set_option autoImplicit false
namespace Verif.JsonG

/-- four hexadecimal digits and their number -/
def Hex4 (a b c d : UInt8) (n : Nat) : Prop :=
  ∃ n1 n2 n3 n4, hexVal a = some n1 ∧ hexVal b = some n2 ∧ hexVal c = some n3 ∧ hexVal d = some n4 ∧ n = n1 * 4096 + n2 * 256 + n3 * 16 + n4

/-- `StrSays s t`: the text `t` between quotes stands for the string `s`.  A character outside the basic multilingual plane may be written as two
escapes, of its surrogates (RFC 8259, section 7); a surrogate on its own stands for no character. -/
inductive StrSays : Bytes → Bytes → Prop
  | nil : StrSays [] []
  | plain (c : UInt8) {s t : Bytes} : 0x20 ≤ c → c ≠ 34 → c ≠ 92 → StrSays s t → StrSays (c :: s) (c :: t)
  | esc (e c : UInt8) {s t : Bytes} : (e, c) ∈ escapes → StrSays s t → StrSays (c :: s) (92 :: e :: t)
  | uni (a b c d : UInt8) (n : Nat) {s t : Bytes} : Hex4 a b c d n → ValidRune n → StrSays s t →
      StrSays (utf8Enc n ++ s) (92 :: 117 :: a :: b :: c :: d :: t)
  | pair (a b c d a' b' c' d' : UInt8) (n n' : Nat) {s t : Bytes} : Hex4 a b c d n → Hex4 a' b' c' d' n' → 0xD800 ≤ n → n < 0xDC00 → 0xDC00 ≤ n' →
      n' < 0xE000 → StrSays s t →
      StrSays (utf8Enc (0x10000 + (n - 0xD800) * 1024 + (n' - 0xDC00)) ++ s)
        (92 :: 117 :: a :: b :: c :: d :: 92 :: 117 :: a' :: b' :: c' :: d' :: t)

/-- what a number stands for: an integer, of any size, if there is neither fraction nor exponent, otherwise a floating point number -/
def NumSays (F : FloatCodec) (t : Bytes) (v : Val) : Prop :=
  (∃ n, IntPart t ∧ parseNat t = some n ∧ v = .int n) ∨
  (∃ ds n, t = 45 :: ds ∧ IntPart ds ∧ parseNat ds = some n ∧ v = .int (-n)) ∨
  (∃ sign ds u x, (sign = [] ∨ sign = [45]) ∧ IntPart ds ∧ FracExp u ∧ t = sign ++ (ds ++ u) ∧ F.parse t = some x ∧ v = .f64 x)

mutual
/-- `Means F T v`: the text stands for the value.  An object stands for a map that has each member, and nothing but the members. -/
def Tree.Means (F : FloatCodec) : Tree → Val → Prop
  | .null, v => v = .null
  | .bool b, v => v = .bool b
  | .num t, v => NumSays F t v
  | .str t, v => ∃ s, StrSays s t ∧ v = .str s
  | .arr l, v => ∃ vs, v = .arr vs ∧ MeansL F l vs
  | .obj m, v => ∃ kvs, v = .obj kvs ∧ MeansM F m kvs ∧ ∀ x ∈ kvs, ∃ y ∈ m, StrSays x.1 y.1
/-- elements, in order -/
def MeansL (F : FloatCodec) : List Tree → List Val → Prop
  | [], vs => vs = []
  | T :: l, vs => ∃ v r, vs = v :: r ∧ T.Means F v ∧ MeansL F l r
/-- members -/
def MeansM (F : FloatCodec) : List (Bytes × Tree) → List (Bytes × Val) → Prop
  | [], _ => True
  | (k, T) :: m, kvs => (∃ s v, StrSays s k ∧ mapGet kvs s = some v ∧ T.Means F v) ∧ MeansM F m kvs
end

/-- members, in order -/
def MeansF (F : FloatCodec) : List (Bytes × Tree) → List (Bytes × Val) → Prop
  | [], kvs => kvs = []
  | (k, T) :: m, kvs => ∃ s v r, kvs = (s, v) :: r ∧ StrSays s k ∧ T.Means F v ∧ MeansF F m r

mutual
/-- no object has two keys that stand for the same string -/
def Tree.Unique : Tree → Prop
  | .arr l => UniqueL l
  | .obj m => m.Pairwise (fun a b => ¬ ∃ s, StrSays s a.1 ∧ StrSays s b.1) ∧ UniqueF m
  | _ => True
def UniqueL : List Tree → Prop
  | [] => True
  | T :: l => T.Unique ∧ UniqueL l
def UniqueF : List (Bytes × Tree) → Prop
  | [] => True
  | (_, T) :: m => T.Unique ∧ UniqueF m
end

mutual
/-- every number satisfies `p`, every string and every key `q` -/
def Tree.All (p q : Bytes → Prop) : Tree → Prop
  | .num t => p t
  | .str t => q t
  | .arr l => AllL p q l
  | .obj m => AllF p q m
  | _ => True
def AllL (p q : Bytes → Prop) : List Tree → Prop
  | [] => True
  | T :: l => T.All p q ∧ AllL p q l
def AllF (p q : Bytes → Prop) : List (Bytes × Tree) → Prop
  | [] => True
  | (k, T) :: m => q k ∧ T.All p q ∧ AllF p q m
end

/-- a number that stands for a 64-bit integer or for a floating point number -/
def NumFits (F : FloatCodec) (t : Bytes) : Prop := ∃ v, NumSays F t v ∧ ∀ i, v = .int i → IsInt64 i

/-- a text without escapes of surrogates -/
def NoSurrogates (t : Bytes) : Prop := ∃ s, StrBody s t

/-- whether four hexadecimal digits are those of a surrogate -/
def isSurrogate (a b c d : UInt8) : Bool :=
  match hexVal a, hexVal b, hexVal c, hexVal d with
  | some n1, some n2, some n3, some n4 => 0xD800 ≤ n1 * 4096 + n2 * 256 + n3 * 16 + n4 ∧ n1 * 4096 + n2 * 256 + n3 * 16 + n4 < 0xE000
  | _, _, _, _ => false

/-- the text with a question mark in place of each escape of a surrogate -/
def ask : Bytes → Bytes
  | 92 :: 117 :: a :: b :: c :: d :: t => if isSurrogate a b c d then 63 :: ask t else 92 :: 117 :: a :: b :: c :: d :: ask t
  | 92 :: e :: t => 92 :: e :: ask t
  | c :: t => c :: ask t
  | [] => []

mutual
/-- the text with question marks in place of surrogates -/
def Tree.asked : Tree → Tree
  | .str t => .str (ask t)
  | .arr l => .arr (askedL l)
  | .obj m => .obj (askedF m)
  | T => T
def askedL : List Tree → List Tree
  | [] => []
  | T :: l => T.asked :: askedL l
def askedF : List (Bytes × Tree) → List (Bytes × Tree)
  | [] => []
  | (k, T) :: m => (ask k, T.asked) :: askedF m
end

/-- strings in the wider dialect of the reader: any escape of RFC 8259, bytes by two hexadecimal digits, question marks for escapes of surrogates and for
digits that are none, other escaped characters for themselves, control characters -/
inductive Lax : Bytes → Bytes → Prop
  | nil : Lax [] []
  | plain (c : UInt8) {s t : Bytes} : c ≠ 34 → c ≠ 92 → Lax s t → Lax (c :: s) (c :: t)
  | esc (e c : UInt8) {s t : Bytes} : (e, c) ∈ escapes → Lax s t → Lax (c :: s) (92 :: e :: t)
  | other (e : UInt8) {s t : Bytes} : e ∉ [34, 92, 47, 98, 102, 110, 114, 116, 117, 120] → Lax s t → Lax (e :: s) (92 :: e :: t)
  | byte (a b : UInt8) (m n : Nat) {s t : Bytes} : hexVal a = some m → hexVal b = some n → Lax s t → Lax (UInt8.ofNat (16 * m + n) :: s) (92 :: 120 :: a :: b :: t)
  | noByte (a b : UInt8) {s t : Bytes} : a ∉ [34, 92] → b ∉ [34, 92] → hexVal a = none ∨ hexVal b = none → Lax s t → Lax (63 :: s) (92 :: 120 :: a :: b :: t)
  | uni (a b c d : UInt8) (n : Nat) {s t : Bytes} : Hex4 a b c d n → ValidRune n → Lax s t → Lax (utf8Enc n ++ s) (92 :: 117 :: a :: b :: c :: d :: t)
  | surrogate (a b c d : UInt8) (n : Nat) {s t : Bytes} : Hex4 a b c d n → 0xD800 ≤ n → n < 0xE000 → Lax s t → Lax (63 :: s) (92 :: 117 :: a :: b :: c :: d :: t)
  | noUni (a b c d : UInt8) {s t : Bytes} : a ∉ [34, 92] → b ∉ [34, 92] → c ∉ [34, 92] → d ∉ [34, 92] → ¬ (∃ n, Hex4 a b c d n) → Lax s t →
      Lax (63 :: s) (92 :: 117 :: a :: b :: c :: d :: t)

end Verif.JsonG
