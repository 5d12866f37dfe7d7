import Verif.Spec.JsonGrammar
/-
Specification: decimal numbers as texts and the numbers they mean.
-/
set_option autoImplicit false
namespace Verif.FloatText
open JsonG

/-- the number written with the digits -/
def natOf (ds : Bytes) : Nat := ds.foldl (fun n c => n * 10 + (c.toNat - 48)) 0

/-- an exponent or none: `x` is its text, `ds` its digits, `E` what it means -/
inductive ExpText : Bytes → Bytes → Int → Prop
  | none : ExpText [] [] 0
  | pos (c : UInt8) (sg ds : Bytes) : c = 101 ∨ c = 69 → sg = [] ∨ sg = [43] → ds ≠ [] → Digits ds → ExpText (c :: (sg ++ ds)) ds (natOf ds)
  | neg (c : UInt8) (ds : Bytes) : c = 101 ∨ c = 69 → ds ≠ [] → Digits ds → ExpText (c :: 45 :: ds) ds (-(natOf ds : Int))

/-- fraction or none: its text and its digits -/
inductive FracText : Bytes → Bytes → Prop
  | none : FracText [] []
  | some (b : Bytes) : Digits b → FracText (46 :: b) b

/-- decimal text for `± m * 10^e`: sign, digits, point and digits, exponent, all of them optional but for one digit; `xs` are the digits
of the exponent -/
inductive Decimal : Bytes → Bytes → Bool → Nat → Int → Prop
  | mk (sign a f b x xs : Bytes) (E : Int) : sign = [] ∨ sign = [43] ∨ sign = [45] → Digits a → FracText f b → a ++ b ≠ [] → ExpText x xs E →
      Decimal (sign ++ (a ++ (f ++ x))) xs (sign = [45]) (natOf (a ++ b)) (E - b.length)

end Verif.FloatText
