import Verif.Spec.JsonGrammar
/-
Specification: the JSON grammar (RFC 8259), complete, over trees that keep numbers and strings as they are written.
-/
set_option autoImplicit false
namespace Verif.JsonG

/-- a JSON text without whitespace: numbers and strings as written, members in the order written, repeated keys included -/
inductive Tree where
  | null
  | bool (b : Bool)
  | num (t : Bytes)
  | str (t : Bytes)
  | arr (l : List Tree)
  | obj (m : List (Bytes × Tree))

/-- text between quotes: no control characters, no quotes, escapes of RFC 8259 section 7 -/
inductive StrText : Bytes → Prop
  | nil : StrText []
  | plain (c : UInt8) {t : Bytes} : 0x20 ≤ c → c ≠ 34 → c ≠ 92 → StrText t → StrText (c :: t)
  | esc (e : UInt8) {t : Bytes} : e ∈ [34, 92, 47, 98, 102, 110, 114, 116] → StrText t → StrText (92 :: e :: t)
  | uni (a b c d : UInt8) {t : Bytes} : (hexVal a).isSome → (hexVal b).isSome → (hexVal c).isSome → (hexVal d).isSome →
      StrText t → StrText (92 :: 117 :: a :: b :: c :: d :: t)

/-- a number: sign, integer part, fraction and exponent -/
def NumText (n : Bytes) : Prop :=
  ∃ sign t u, (sign = [] ∨ sign = [45]) ∧ IntPart t ∧ (u = [] ∨ FracExp u) ∧ n = sign ++ (t ++ u)

mutual
/-- `Spells T t`: the text `t`, without surrounding whitespace, is the tree `T` -/
inductive Spells : Tree → Bytes → Prop
  | null : Spells .null b!"null"
  | true : Spells (.bool Bool.true) b!"true"
  | false : Spells (.bool Bool.false) b!"false"
  | num (t : Bytes) : NumText t → Spells (.num t) t
  | str (t : Bytes) : StrText t → Spells (.str t) (34 :: (t ++ [34]))
  | arr0 (w : Bytes) : WS w → Spells (.arr []) (91 :: (w ++ [93]))
  | arr (l : List Tree) (t : Bytes) : SpellsL l t → Spells (.arr l) (91 :: (t ++ [93]))
  | obj0 (w : Bytes) : WS w → Spells (.obj []) (123 :: (w ++ [125]))
  | obj (m : List (Bytes × Tree)) (t : Bytes) : SpellsF m t → Spells (.obj m) (123 :: (t ++ [125]))
/-- a non-empty comma separated list of values -/
inductive SpellsL : List Tree → Bytes → Prop
  | one (v : Tree) (w t w' : Bytes) : WS w → Spells v t → WS w' → SpellsL [v] (w ++ (t ++ w'))
  | cons (v : Tree) (w t w' : Bytes) (l : List Tree) (t' : Bytes) : WS w → Spells v t → WS w' → SpellsL l t' →
      SpellsL (v :: l) (w ++ (t ++ (w' ++ 44 :: t')))
/-- a non-empty comma separated list of members -/
inductive SpellsF : List (Bytes × Tree) → Bytes → Prop
  | one (k : Bytes) (v : Tree) (w w1 w2 t w' : Bytes) : WS w → StrText k → WS w1 → WS w2 → Spells v t →
      WS w' → SpellsF [(k, v)] (w ++ 34 :: (k ++ 34 :: (w1 ++ 58 :: (w2 ++ (t ++ w')))))
  | cons (k : Bytes) (v : Tree) (w w1 w2 t w' : Bytes) (m : List (Bytes × Tree)) (t' : Bytes) : WS w →
      StrText k → WS w1 → WS w2 → Spells v t → WS w' → SpellsF m t' →
      SpellsF ((k, v) :: m) (w ++ 34 :: (k ++ 34 :: (w1 ++ 58 :: (w2 ++ (t ++ (w' ++ 44 :: t'))))))
end

mutual
/-- how deep arrays and objects are nested -/
def Tree.depth : Tree → Nat
  | .arr l => treeDepthL l + 1
  | .obj m => treeDepthF m + 1
  | _ => 0
def treeDepthL : List Tree → Nat
  | [] => 0
  | v :: l => max v.depth (treeDepthL l)
def treeDepthF : List (Bytes × Tree) → Nat
  | [] => 0
  | (_, v) :: m => max v.depth (treeDepthF m)
end

end Verif.JsonG
