import Verif.Model.Vals
import Verif.Go.Ieee
/-
The methods of `vals.Value` (vals/value.go), values with a key (vals/object_value.go), and their JSON text.
-/
set_option autoImplicit false
namespace Verif.Vals

/-- the methods of the interface that do not fit every type (value.go:13-28) -/
inductive Method where
  | len | index | keys | mapIndex | boolean | integer | number
deriving DecidableEq

/-- the names in the errors -/
def Method.name : Method → Bytes
  | .len => b!"Len"
  | .index => b!"Index"
  | .keys => b!"Keys"
  | .mapIndex => b!"MapIndex"
  | .boolean => b!"Boolean"
  | .integer => b!"Integer"
  | .number => b!"Number"

/-- how a call panics: with a `*ValueError` (value.go:38-41), or with the run-time error for a slice index -/
inductive Panic where
  | value (method : Bytes) (type : VType)
  | outOfRange (i : Int) (len : Nat)
deriving DecidableEq

/-- value.go:44-49 `Error`; nothing for a run-time error -/
def Panic.text : Panic → Option Bytes
  | .value m t =>
    some (if t = .unknown then b!"data: call of " ++ m ++ b!" on Unknown Type" else b!"data: call of " ++ m ++ b!" on " ++ t.name ++ b!" Value")
  | .outOfRange _ _ => none

/-- value.go:71-73, 139, 196-198, 260-262, 321-323, 383-385, 450-452 `Len` -/
def Value.len : Value → Except Panic Int
  | .array _ l => .ok l.length
  | v => .error (.value Method.len.name v.type)

/-- value.go:76-78, 142, 201-203, 265-267, 326-328, 388-390, 455-457 `Index` -/
def Value.index : Value → Int → Except Panic Value
  | .array _ l, i =>
    if 0 ≤ i then
      match l[i.toNat]? with
      | some v => .ok v
      | none => .error (.outOfRange i l.length)
    else .error (.outOfRange i l.length)
  | v, _ => .error (.value Method.index.name v.type)

/-- value.go:81-89, 145-147, 206-208, 270-272, 331-333, 393-395, 460-462 `Keys`; `order` is the order in which Go goes through the
map -/
def Value.keys (order : List Bytes → List Bytes) : Value → Except Panic (List Bytes)
  | .object _ m => .ok (order (m.map (·.1)))
  | v => .error (.value Method.keys.name v.type)

/-- value.go:92-94, 150-152, 211-213, 275-277, 336-338, 398-400, 465-467 `MapIndex`; none is the nil interface -/
def Value.mapIndex : Value → Bytes → Except Panic (Option Value)
  | .object _ m, k => .ok (mapGet m k)
  | v, _ => .error (.value Method.mapIndex.name v.type)

/-- value.go:97-99, 155-157, 216-218, 280-282, 341-343, 403-405, 470-472 `Boolean` -/
def Value.boolean_ : Value → Except Panic Bool
  | .boolean b => .ok b
  | v => .error (.value Method.boolean.name v.type)

/-- value.go:108-110, 165-167, 229-231, 290-292, 352-354, 413-415, 480-482 `Integer` -/
def Value.integer_ : Value → Except Panic Int
  | .integer i => .ok i
  | v => .error (.value Method.integer.name v.type)

/-- value.go:113-115, 170-172, 234-236, 295-297, 357-359, 418-420, 485-487 `Number` -/
def Value.number_ : Value → Except Panic UInt64
  | .integer i => .ok (Ieee.ofInt i)
  | .number x => .ok x
  | v => .error (.value Method.number.name v.type)

/-- value.go:118, 175, 239, 300, 362, 423, 490 `IsNull` -/
def Value.isNull : Value → Bool
  | .null _ => true
  | _ => false

/-- value.go:103-105, 160-162, 224-226, 285-287, 346-348, 408-410, 475-477 `String` -/
def Value.text : Value → Bytes
  | .object _ m => b!"<object " ++ fmtNat m.length ++ b!" keys>"
  | .array _ _ => b!"<" ++ VType.array.name ++ b!">"
  | .string s => s
  | .integer _ => b!"<" ++ VType.integer.name ++ b!">"
  | .number _ => b!"<" ++ VType.number.name ++ b!">"
  | .boolean b => b!"<" ++ VType.boolean.name ++ b!" " ++ (if b then b!"true" else b!"false") ++ b!">"
  | .null _ => b!"<" ++ VType.null.name ++ b!">"

/-! ### Values with a key (object_value.go) -/

/-- a `Value`, perhaps inside of `ObjectValue`s (object_value.go:5-8) -/
inductive Keyed where
  | plain (v : Value)
  | keyed (key : Bytes) (v : Keyed)

/-- object_value.go:11-13 `NewObjectValue` -/
def newObjectValue (key : Bytes) (v : Keyed) : Keyed := .keyed key v

/-- the methods of an `ObjectValue` are those of the embedded value -/
def Keyed.inner : Keyed → Value
  | .plain v => v
  | .keyed _ v => v.inner

/-- `reflect.DeepEqual`: the dynamic types and the keys count -/
def Keyed.deepEqual : Keyed → Keyed → Bool
  | .plain a, .plain b => Vals.deepEqual a b
  | .keyed k a, .keyed j b => k == j && a.deepEqual b
  | _, _ => false

/-- compare.go:10-29 `Equal` -/
def Keyed.equal (a b : Keyed) : Bool :=
  if a.inner.type ≠ b.inner.type then false
  else match a.inner, b.inner with
    | .number x, .number y => f64Eq x y
    | .integer i, .integer j => i == j
    | .boolean x, .boolean y => x == y
    | .null _, .null _ => true
    | .string x, .string y => x == y
    | _, _ => a.deepEqual b

/-! ### JSON text -/

mutual
/-- what `encoding/json` sees of a value: basic kinds are written like the Go types under them, `Null` as null (value.go:442-444) -/
def Value.data : Value → Val
  | .null _ => .null
  | .boolean b => .bool b
  | .integer i => .gint i
  | .number x => .f64 x
  | .string s => .str s
  | .array _ l => .arr (Value.dataL l)
  | .object _ m => .obj (Value.dataF m)
def Value.dataL : List Value → List Val
  | [] => []
  | v :: l => v.data :: Value.dataL l
def Value.dataF : List (Bytes × Value) → List (Bytes × Val)
  | [] => []
  | (k, v) :: m => (k, v.data) :: Value.dataF m
end

/-- `json.Marshal` of a value; none for an error (an infinity or NaN) -/
def Value.marshal (F : FloatCodec) (v : Value) : Option Bytes := if jsonOK v.data then some (enc F v.data) else none

end Verif.Vals
