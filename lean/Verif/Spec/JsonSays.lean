import Verif.Spec.JsonMeaning
/-
Specification: what a JSON text stands for, given what its numbers and its strings stand for.
-/
set_option autoImplicit false
namespace Verif.JsonG

mutual
/-- `Says N S T v`: the text stands for the value, if numbers stand for values by `N` and strings by `S`.  An object stands for a map that has each
member, and nothing but the members. -/
def Tree.Says (N : Bytes → Val → Prop) (S : Bytes → Bytes → Prop) : Tree → Val → Prop
  | .null, v => v = .null
  | .bool b, v => v = .bool b
  | .num t, v => N t v
  | .str t, v => ∃ s, S s t ∧ v = .str s
  | .arr l, v => ∃ vs, v = .arr vs ∧ SaysL N S l vs
  | .obj m, v => ∃ kvs, v = .obj kvs ∧ SaysM N S m kvs ∧ ∀ x ∈ kvs, ∃ y ∈ m, S x.1 y.1
/-- elements, in order -/
def SaysL (N : Bytes → Val → Prop) (S : Bytes → Bytes → Prop) : List Tree → List Val → Prop
  | [], vs => vs = []
  | T :: l, vs => ∃ v r, vs = v :: r ∧ T.Says N S v ∧ SaysL N S l r
/-- members -/
def SaysM (N : Bytes → Val → Prop) (S : Bytes → Bytes → Prop) : List (Bytes × Tree) → List (Bytes × Val) → Prop
  | [], _ => True
  | (k, T) :: m, kvs => (∃ s v, S s k ∧ mapGet kvs s = some v ∧ T.Says N S v) ∧ SaysM N S m kvs
end

mutual
/-- no object has two keys that stand for the same string -/
def Tree.Once (S : Bytes → Bytes → Prop) : Tree → Prop
  | .arr l => OnceL S l
  | .obj m => m.Pairwise (fun a b => ¬ ∃ s, S s a.1 ∧ S s b.1) ∧ OnceF S m
  | _ => True
def OnceL (S : Bytes → Bytes → Prop) : List Tree → Prop
  | [] => True
  | T :: l => T.Once S ∧ OnceL S l
def OnceF (S : Bytes → Bytes → Prop) : List (Bytes × Tree) → Prop
  | [] => True
  | (_, T) :: m => T.Once S ∧ OnceF S m
end

/-- a number as a floating point number, however it is written -/
def FloatSays (F : FloatCodec) (t : Bytes) (v : Val) : Prop := ∃ x, F.parse t = some x ∧ v = .f64 x

/-- what comes next is the escape of the second half of a surrogate pair -/
def LowNext (t : Bytes) : Prop := ∃ a b c d n r, t = 92 :: 117 :: a :: b :: c :: d :: r ∧ Hex4 a b c d n ∧ 0xDC00 ≤ n ∧ n < 0xE000

/-- strings with surrogates that are not in pairs: each stands for U+FFFD -/
inductive StrReads : Bytes → Bytes → Prop
  | nil : StrReads [] []
  | plain (c : UInt8) {s t : Bytes} : 0x20 ≤ c → c ≠ 34 → c ≠ 92 → StrReads s t → StrReads (c :: s) (c :: t)
  | esc (e c : UInt8) {s t : Bytes} : (e, c) ∈ escapes → StrReads s t → StrReads (c :: s) (92 :: e :: t)
  | uni (a b c d : UInt8) (n : Nat) {s t : Bytes} : Hex4 a b c d n → ValidRune n → StrReads s t →
      StrReads (utf8Enc n ++ s) (92 :: 117 :: a :: b :: c :: d :: t)
  | pair (a b c d a' b' c' d' : UInt8) (n n' : Nat) {s t : Bytes} : Hex4 a b c d n → Hex4 a' b' c' d' n' → 0xD800 ≤ n → n < 0xDC00 → 0xDC00 ≤ n' →
      n' < 0xE000 → StrReads s t →
      StrReads (utf8Enc (0x10000 + (n - 0xD800) * 1024 + (n' - 0xDC00)) ++ s)
        (92 :: 117 :: a :: b :: c :: d :: 92 :: 117 :: a' :: b' :: c' :: d' :: t)
  | low (a b c d : UInt8) (n : Nat) {s t : Bytes} : Hex4 a b c d n → 0xDC00 ≤ n → n < 0xE000 → StrReads s t →
      StrReads ([0xEF, 0xBF, 0xBD] ++ s) (92 :: 117 :: a :: b :: c :: d :: t)
  | high (a b c d : UInt8) (n : Nat) {s t : Bytes} : Hex4 a b c d n → 0xD800 ≤ n → n < 0xDC00 → ¬ LowNext t → StrReads s t →
      StrReads ([0xEF, 0xBF, 0xBD] ++ s) (92 :: 117 :: a :: b :: c :: d :: t)

end Verif.JsonG
