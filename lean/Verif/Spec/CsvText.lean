import Verif.Go.Bytes
/-
Specification: CSV texts (RFC 4180), with any separator, and with the ends of lines of all systems.
-/
set_option autoImplicit false
namespace Verif.CsvG

/-- the text of a cell between quotes: quotes are doubled -/
inductive Doubled : Bytes → Bytes → Prop
  | nil : Doubled [] []
  | other (c : UInt8) {f t : Bytes} : c ≠ 34 → Doubled f t → Doubled (c :: f) (c :: t)
  | quote {f t : Bytes} : Doubled f t → Doubled (34 :: f) (34 :: 34 :: t)

/-- the text of a cell: as it is, if there are neither separators, quotes nor ends of lines in it, or between quotes -/
inductive Cell (sep : Bytes) : Bytes → Bytes → Prop
  | bare (f : Bytes) : (¬ ∃ a b, f = a ++ (sep ++ b)) → (34 : UInt8) ∉ f → (10 : UInt8) ∉ f → (13 : UInt8) ∉ f → Cell sep f f
  | quoted {f t : Bytes} : Doubled f t → Cell sep f (34 :: (t ++ [34]))

/-- cells with separators between them -/
inductive Row (sep : Bytes) : List Bytes → Bytes → Prop
  | one {f t : Bytes} : Cell sep f t → Row sep [f] t
  | cons {f t : Bytes} {fs : List Bytes} {u : Bytes} : Cell sep f t → Row sep fs u → Row sep (f :: fs) (t ++ (sep ++ u))

/-- `Break e u`: a line ends with `e`, and `u` follows -/
def Break (e u : Bytes) : Prop := e = [10] ∨ e = [13, 10] ∨ (e = [13] ∧ u.head? ≠ some 10)

/-- a text and its rows; there may be empty lines, and the last line may have no end -/
inductive Rows (sep : Bytes) : List (List Bytes) → Bytes → Prop
  | nil : Rows sep [] []
  | last {fs : List Bytes} {t : Bytes} : Row sep fs t → t ≠ [] → Rows sep [fs] t
  | cons {fs : List Bytes} {t e : Bytes} {rs : List (List Bytes)} {u : Bytes} : Row sep fs t → t ≠ [] → Break e u → Rows sep rs u →
      Rows sep (fs :: rs) (t ++ (e ++ u))
  | empty {e : Bytes} {rs : List (List Bytes)} {u : Bytes} : Break e u → Rows sep rs u → Rows sep rs (e ++ u)

end Verif.CsvG
