import Verif.Spec.JsonGrammar
/-
Specification: which values survive JSON, and what the others turn into.
-/
namespace Verif.Json
open JsonG

/-- A float whose text keeps it a float and parses back to it. -/
def FloatOK (F : FloatCodec) (x : UInt64) : Prop :=
  ∃ sign t u, (sign = [] ∨ sign = [45]) ∧ IntPart t ∧ FracExp u ∧ F.fmt x = sign ++ (t ++ u) ∧
    F.parse (F.fmt x) = some x

/-- A float printed without fraction or exponent, e.g. 3.0 as `3`: JSON text cannot tell it
from an integer. -/
def FloatAsInt (F : FloatCodec) (x : UInt64) : Prop := ∃ i, IsInt64 i ∧ F.fmt x = fmtInt i

mutual
/-- Values the JSON marshaller accepts and the reader can represent. -/
def Writable (F : FloatCodec) : Val → Prop
  | .null => True
  | .bool _ => True
  | .int i => IsInt64 i
  | .gint i => IsInt64 i
  | .f64 x => (FloatOK F x ∨ FloatAsInt F x) ∧ floatFinite x = true
  | .str _ => True
  | .bytes _ => True
  | .arr l => WritableL F l
  | .obj m => WritableF F m
def WritableL (F : FloatCodec) : List Val → Prop
  | [] => True
  | v :: l => Writable F v ∧ WritableL F l
def WritableF (F : FloatCodec) : List (Bytes × Val) → Prop
  | [] => True
  | (_, v) :: m => Writable F v ∧ WritableF F m
end

mutual
/-- What the JSON text of a value denotes: int and int64 coincide, byte strings become base64 strings,
invalid UTF-8 is replaced by U+FFFD, integral floats become integers. -/
def norm (F : FloatCodec) : Val → Val
  | .null => .null
  | .bool b => .bool b
  | .int i => .int i
  | .gint i => .int i
  | .f64 x => match atoi (F.fmt x) with | some i => .int i | none => .f64 x
  | .str s => .str (toValidUtf8 0 s)
  | .bytes s => .str (base64 s)
  | .arr l => .arr (normL F l)
  | .obj m => .obj (mapOf (normF F m))
def normL (F : FloatCodec) : List Val → List Val
  | [] => []
  | v :: l => norm F v :: normL F l
def normF (F : FloatCodec) : List (Bytes × Val) → List (Bytes × Val)
  | [] => []
  | (k, v) :: m => (toValidUtf8 0 k, norm F v) :: normF F m
end

mutual
/-- Values whose JSON encoding denotes them: null, booleans, int64, valid UTF-8 strings, arrays,
maps, and floats printed with fraction or exponent. -/
def Supported (F : FloatCodec) : Val → Prop
  | .null => True
  | .bool _ => True
  | .int i => IsInt64 i
  | .gint _ => False
  | .f64 x => FloatOK F x ∧ floatFinite x = true
  | .str s => ValidUtf8 s
  | .bytes _ => False
  | .arr l => SupportedL F l
  | .obj m => KeysSorted m ∧ SupportedF F m
def SupportedL (F : FloatCodec) : List Val → Prop
  | [] => True
  | v :: l => Supported F v ∧ SupportedL F l
def SupportedF (F : FloatCodec) : List (Bytes × Val) → Prop
  | [] => True
  | (k, v) :: m => ValidUtf8 k ∧ Supported F v ∧ SupportedF F m
end

/-- the entries whose write succeeded -/
def accepted {ε : Type} (es : List Entry) (rs : List (Except ε Unit)) : List Entry :=
  ((es.zip rs).filter fun p => match p.2 with | .ok _ => true | .error _ => false).map Prod.fst

/-- entries of an array body: numbered from `n` -/
def indexed : Int → List Val → List Entry
  | _, [] => []
  | n, v :: l => { index := n, value := v } :: indexed (n + 1) l

/-- entries of an object body -/
def keyed (m : List (Bytes × Val)) : List Entry := m.map fun kv => { key := kv.1, value := kv.2 }

/-- what the text of an object's members denotes -/
def normMembers (F : FloatCodec) (es : List Entry) : List (Bytes × Val) :=
  es.map fun e => (toValidUtf8 0 e.key, norm F e.value)

end Verif.Json
