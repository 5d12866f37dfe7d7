import Verif.Go.JsonText
/-
Specification: the JSON grammar (RFC 8259), written down independently of any reader or
writer, as a relation between a value and the texts that denote it.

Not covered: `\u` escapes of surrogate pairs (the reader does not support them), and numbers
outside int64 that are written without fraction or exponent.
-/
namespace Verif.JsonG

/-- insignificant whitespace -/
def WS (w : Bytes) : Prop := ∀ c ∈ w, c = 32 ∨ c = 10 ∨ c = 13 ∨ c = 9

/-- two-character escapes and the character they denote -/
def escapes : List (UInt8 × UInt8) :=
  [(34, 34), (92, 92), (47, 47), (98, 8), (102, 12), (110, 10), (114, 13), (116, 9)]

/-- `StrBody s t`: the text `t` between quotes denotes the string `s` -/
inductive StrBody : Bytes → Bytes → Prop
  | nil : StrBody [] []
  | plain (c : UInt8) {s t : Bytes} : 0x20 ≤ c → c ≠ 34 → c ≠ 92 → StrBody s t → StrBody (c :: s) (c :: t)
  | esc (e c : UInt8) {s t : Bytes} : (e, c) ∈ escapes → StrBody s t → StrBody (c :: s) (92 :: e :: t)
  | uni (a b c d : UInt8) (n1 n2 n3 n4 : Nat) {s t : Bytes} :
      hexVal a = some n1 → hexVal b = some n2 → hexVal c = some n3 → hexVal d = some n4 →
      ValidRune (n1 * 4096 + n2 * 256 + n3 * 16 + n4) → StrBody s t →
      StrBody (utf8Enc (n1 * 4096 + n2 * 256 + n3 * 16 + n4) ++ s) (92 :: 117 :: a :: b :: c :: d :: t)

/-- decimal digits -/
def Digits (t : Bytes) : Prop := ∀ c ∈ t, isDigit c = true

/-- integer part of a number: `0` or digits not starting with `0` -/
inductive IntPart : Bytes → Prop
  | zero : IntPart [48]
  | nonzero (c : UInt8) (t : Bytes) : isDigit c = true → c ≠ 48 → Digits t → IntPart (c :: t)

/-- fraction and exponent of a number -/
inductive FracExp : Bytes → Prop
  | frac (t : Bytes) : t ≠ [] → Digits t → FracExp (46 :: t)
  | exp (e : UInt8) (sign t : Bytes) : (e = 101 ∨ e = 69) → (sign = [] ∨ sign = [43] ∨ sign = [45]) →
      t ≠ [] → Digits t → FracExp (e :: (sign ++ t))
  | both (u : Bytes) (e : UInt8) (sign t : Bytes) : u ≠ [] → Digits u → (e = 101 ∨ e = 69) →
      (sign = [] ∨ sign = [43] ∨ sign = [45]) → t ≠ [] → Digits t → FracExp (46 :: (u ++ e :: (sign ++ t)))

mutual
/-- `Text F v t`: the text `t`, without surrounding whitespace, denotes the value `v` -/
inductive Text (F : FloatCodec) : Val → Bytes → Prop
  | null : Text F .null b!"null"
  | true : Text F (.bool Bool.true) b!"true"
  | false : Text F (.bool Bool.false) b!"false"
  | nat (t : Bytes) (n : Nat) : IntPart t → parseNat t = some n → IsInt64 n → Text F (.int n) t
  | neg (t : Bytes) (n : Nat) : IntPart t → parseNat t = some n → IsInt64 (-n) → Text F (.int (-n)) (45 :: t)
  | float (t u : Bytes) (x : UInt64) : IntPart t → FracExp u → F.parse (t ++ u) = some x →
      Text F (.f64 x) (t ++ u)
  | negFloat (t u : Bytes) (x : UInt64) : IntPart t → FracExp u → F.parse (45 :: (t ++ u)) = some x →
      Text F (.f64 x) (45 :: (t ++ u))
  | str (s t : Bytes) : StrBody s t → Text F (.str s) (34 :: (t ++ [34]))
  | arr0 (w : Bytes) : WS w → Text F (.arr []) (91 :: (w ++ [93]))
  | arr (l : List Val) (t : Bytes) : Elems F l t → Text F (.arr l) (91 :: (t ++ [93]))
  | obj0 (w : Bytes) : WS w → Text F (.obj []) (123 :: (w ++ [125]))
  | obj (m : List (Bytes × Val)) (t : Bytes) : Members F m t → Text F (.obj (mapOf m)) (123 :: (t ++ [125]))
/-- a non-empty comma separated list of values -/
inductive Elems (F : FloatCodec) : List Val → Bytes → Prop
  | one (v : Val) (w t w' : Bytes) : WS w → Text F v t → WS w' → Elems F [v] (w ++ (t ++ w'))
  | cons (v : Val) (w t w' : Bytes) (l : List Val) (t' : Bytes) : WS w → Text F v t → WS w' → Elems F l t' →
      Elems F (v :: l) (w ++ (t ++ (w' ++ 44 :: t')))
/-- a non-empty comma separated list of members; with repeated keys the last one counts -/
inductive Members (F : FloatCodec) : List (Bytes × Val) → Bytes → Prop
  | one (k : Bytes) (v : Val) (w kt w1 w2 t w' : Bytes) : WS w → StrBody k kt → WS w1 → WS w2 → Text F v t →
      WS w' → Members F [(k, v)] (w ++ 34 :: (kt ++ 34 :: (w1 ++ 58 :: (w2 ++ (t ++ w')))))
  | cons (k : Bytes) (v : Val) (w kt w1 w2 t w' : Bytes) (m : List (Bytes × Val)) (t' : Bytes) : WS w →
      StrBody k kt → WS w1 → WS w2 → Text F v t → WS w' → Members F m t' →
      Members F ((k, v) :: m) (w ++ 34 :: (kt ++ 34 :: (w1 ++ 58 :: (w2 ++ (t ++ (w' ++ 44 :: t'))))))
end

/-- a JSON document: optional whitespace, a value, optional whitespace -/
def Doc (F : FloatCodec) (v : Val) (s : Bytes) : Prop :=
  ∃ w t w', WS w ∧ Text F v t ∧ WS w' ∧ s = w ++ (t ++ w')

end Verif.JsonG
