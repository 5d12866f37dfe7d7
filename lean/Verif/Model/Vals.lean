import Verif.Go.Float
import Verif.Go.Strconv
import Verif.Go.JsonText
/-
The package `vals`: types of cells, guessing them from text, parsing, printing and comparing.
-/
set_option autoImplicit false
namespace Verif.Vals

/-! ### Types (vals/type.go) -/

/-- type.go:15-35 -/
inductive VType where
  | unknown | null | integer | number | boolean | string | object | array | bytes
deriving DecidableEq

/-- type.go:42-57 `TypeFromString` -/
def typeFromString (t : Bytes) : VType :=
  (([(b!"string", VType.string), (b!"integer", .integer), (b!"number", .number), (b!"boolean", .boolean), (b!"object", .object),
    (b!"array", .array), (b!"null", .null)].find? fun e => e.1 = t).map (·.2)).getD .unknown

/-- type.go:97-114 `String` -/
def VType.name : VType → Bytes
  | .unknown => []
  | .string => b!"string"
  | .integer => b!"integer"
  | .number => b!"number"
  | .boolean => b!"boolean"
  | .object => b!"object"
  | .array => b!"array"
  | .null => b!"null"
  | .bytes => []

/-- type.go:117-119 `MarshalJSON` -/
def VType.marshal (t : VType) : Val := .str t.name

/-- type.go:122-136 `UnmarshalJSON` of a JSON tree; `json.Unmarshal` of null leaves the string empty -/
def VType.unmarshal (v : Val) : Option VType :=
  let s := match v with
    | .str s => some s
    | .null => some []
    | _ => none
  s.bind fun s => if typeFromString s = .unknown then none else some (typeFromString s)

/-! ### What is taken from the Go library -/

/-- `strconv.ParseFloat(s, 64)`, whether `strconv.ParseFloat(s, 32)` succeeds, `FormatFloat(x, 'g', -1, 64)`, and
`json.Unmarshal` into a slice or a map, `json.Marshal`; none for an error -/
structure Lib where
  parse64 : Bytes → Option UInt64
  parse32 : Bytes → Bool
  fmtG : UInt64 → Bytes
  unmarshalMap : Bytes → Option Val
  unmarshalSlice : Bytes → Option Val
  marshal : Val → Option Bytes

/-- outcome of `strconv.ParseInt` -/
inductive IntRes where
  | ok (i : Int)
  | syntaxErr
  | rangeErr
deriving DecidableEq

/-- strconv `ParseUint(s, 10, 64)`: the loop over the digits, which gives up as soon as the number is too large -/
def parseUintLoop : Nat → Bytes → Option Nat ⊕ Unit
  | n, [] => .inl (some n)
  | n, c :: s =>
    if isDigit c = false then .inl none
    else if 1844674407370955162 ≤ n then .inr ()
    else if 2 ^ 64 ≤ n * 10 + (c.toNat - 48) then .inr ()
    else parseUintLoop (n * 10 + (c.toNat - 48)) s

/-- `strconv.ParseInt(s, 10, 64)` with its two kinds of errors -/
def parseIntE : Bytes → IntRes
  | [] => .syntaxErr
  | c :: s =>
    let ds := if c = 45 ∨ c = 43 then s else c :: s
    if ds = [] then .syntaxErr
    else match parseUintLoop 0 ds with
      | .inr _ => .rangeErr
      | .inl none => .syntaxErr
      | .inl (some n) =>
        if c = 45 then (if 2 ^ 63 < n then .rangeErr else .ok (-(n : Int)))
        else (if 2 ^ 63 ≤ n then .rangeErr else .ok n)

/-- `strconv.ParseBool` -/
def parseBool (s : Bytes) : Option Bool :=
  if s ∈ [b!"1", b!"t", b!"T", b!"TRUE", b!"true", b!"True"] then some true
  else if s ∈ [b!"0", b!"f", b!"F", b!"FALSE", b!"false", b!"False"] then some false
  else none

/-! ### Guessing (vals/type.go) -/

/-- type.go:285-292 `IsBoolean` -/
def isBoolean (s : Bytes) : Bool :=
  s ∈ [b!"t", b!"f", b!"T", b!"F", b!"true", b!"false", b!"TRUE", b!"FALSE", b!"True", b!"False"]

/-- type.go:271-282 `IsInteger` -/
def isInteger (s : Bytes) : Bool :=
  match s with
  | [] => false
  | c :: _ =>
    if isDigit c = false ∧ c ≠ 45 ∧ c ≠ 43 then false
    else match parseIntE s with
      | .syntaxErr => false
      | _ => true

/-- type.go:69-90: the loop over the bytes -/
def parseTypeLoop (L : Lib) (value : Bytes) : Bytes → VType
  | [] => .string
  | b :: s =>
    if b = 34 then .string
    else if b = 45 ∨ isDigit b ∨ b = 101 then
      if L.parse32 value = false then .string
      else if isInteger value then .integer
      else .number
    else if b = 123 then .object
    else if b = 91 then .array
    else if b = 32 ∨ b = 10 then parseTypeLoop L value s
    else .string

/-- type.go:62-94 `ParseType` -/
def parseType (L : Lib) (value : Bytes) : VType :=
  if isBoolean value then .boolean
  else if value = b!"null" then .null
  else parseTypeLoop L value value

/-! ### Parsing and printing (vals/type.go) -/

/-- type.go:238-250 `JSONArrayOrObject` -/
def jsonArrayOrObject : Bytes → Bytes
  | [] => []
  | b :: s => if b = 34 then [] else if b = 123 then b!"object" else if b = 91 then b!"array" else jsonArrayOrObject s

/-- type.go:253-268 `ParseJSON` -/
def parseJSON (L : Lib) (s : Bytes) : Option Val :=
  if jsonArrayOrObject s = [] then none
  else if jsonArrayOrObject s = b!"object" then L.unmarshalMap s
  else L.unmarshalSlice s

/-- type.go:228-230 `ParseInteger` -/
def parseInteger (s : Bytes) : Option Int :=
  match parseIntE s with
  | .ok i => some i
  | _ => none

/-- type.go:139-157 `Parse` -/
def VType.parse (L : Lib) (t : VType) (s : Bytes) : Option Val :=
  match t with
  | .string => some (.str s)
  | .number => (L.parse64 s).map .f64
  | .integer => (parseInteger s).map .int
  | .boolean => (parseBool s).map .bool
  | .array => parseJSON L s
  | .object => parseJSON L s
  | _ => none

/-- type.go:160-202 `ValueToString`; an `int` is a `gint`, an `int64` an `int` -/
def VType.valueToString (L : Lib) (t : VType) (v : Val) : Option Bytes :=
  match t with
  | .string => match v with | .str s => some s | _ => none
  | .integer => match v with | .gint i => some (fmtInt i) | _ => none
  | .number => match v with | .f64 x => some (L.fmtG x) | _ => none
  | .boolean => match v with | .bool b => some (if b then b!"true" else b!"false") | _ => none
  | .object => L.marshal v
  | .array => L.marshal v
  | _ => none

/-! ### Comparing (vals/compare.go) -/

/-- `bytes.Compare` -/
def bytesCompare (a b : Bytes) : Int := if bytesLt a b then -1 else if a = b then 0 else 1

/-- compare.go:56-71 `CompareIntegerBytes` -/
def compareIntegerBytes (a b : Bytes) : Option Int :=
  (parseInteger a).bind fun x => (parseInteger b).map fun y => if y < x then 1 else if x = y then 0 else -1

/-- compare.go:74-89 `CompareNumberBytes` -/
def compareNumberBytes (L : Lib) (a b : Bytes) : Option Int :=
  (L.parse64 a).bind fun x => (L.parse64 b).map fun y => if f64Gt x y then 1 else if f64Eq x y then 0 else -1

/-- compare.go:34-53 `CompareTypeBytes` -/
def compareTypeBytes (L : Lib) (a b : Bytes) (t : VType) : Option Int :=
  if a = [] ∧ b ≠ [] then some (-1)
  else if b = [] ∧ a ≠ [] then some 1
  else if b = [] ∧ a = [] then some 0
  else match t with
    | .string => some (bytesCompare a b)
    | .integer => compareIntegerBytes a b
    | .number => compareNumberBytes L a b
    | _ => none

/-! ### Decoded data as `Value`s (vals/coding.go, vals/value.go, vals/compare.go:10-29) -/

/-- value.go: the seven kinds of values.  Arrays and objects are either themselves or behind a pointer, which
`reflect.DeepEqual` tells apart.  Keys sorted as everywhere in the model. -/
inductive Value where
  | null (b : Bool)
  | boolean (b : Bool)
  | integer (i : Int)
  | number (x : UInt64)
  | string (s : Bytes)
  | array (ptr : Bool) (l : List Value)
  | object (ptr : Bool) (m : List (Bytes × Value))

mutual
/-- coding.go:9-66 `ConvertDecoded`; none for an error.  `[]byte` is a type it does not know. -/
def convertDecoded : Val → Option Value
  | .null => some (.null true)
  | .bool b => some (.boolean b)
  | .int i => some (.integer i)
  | .gint i => some (.integer i)
  | .f64 x => some (.number x)
  | .str s => some (.string s)
  | .bytes _ => none
  | .arr l => (convertL l).map (.array true)
  | .obj m => (convertF m).map (.object true)
def convertL : List Val → Option (List Value)
  | [] => some []
  | v :: l => (convertDecoded v).bind fun x => (convertL l).map (x :: ·)
def convertF : List (Bytes × Val) → Option (List (Bytes × Value))
  | [] => some []
  | (k, v) :: m => (convertDecoded v).bind fun x => (convertF m).map ((k, x) :: ·)
end

/-- the `Type` methods of value.go -/
def Value.type : Value → VType
  | .null _ => .null
  | .boolean _ => .boolean
  | .integer _ => .integer
  | .number _ => .number
  | .string _ => .string
  | .array _ _ => .array
  | .object _ _ => .object

mutual
/-- `reflect.DeepEqual` of two values built separately (no shared pointers or backing arrays) -/
def deepEqual : Value → Value → Bool
  | .null a, .null b => a == b
  | .boolean a, .boolean b => a == b
  | .integer a, .integer b => a == b
  | .number a, .number b => f64Eq a b
  | .string a, .string b => a == b
  | .array p l, .array q m => p == q && deepEqualL l m
  | .object p l, .object q m => p == q && deepEqualF l m
  | _, _ => false
def deepEqualL : List Value → List Value → Bool
  | [], [] => true
  | a :: l, b :: m => deepEqual a b && deepEqualL l m
  | _, _ => false
/-- maps of the same length with equal values under the same keys; keys are sorted -/
def deepEqualF : List (Bytes × Value) → List (Bytes × Value) → Bool
  | [], [] => true
  | (k, a) :: l, (j, b) :: m => k == j && deepEqual a b && deepEqualF l m
  | _, _ => false
end

/-- compare.go:10-29 `Equal`; `IsNull` of a `Null` is always true (value.go:490) -/
def equal (a b : Value) : Bool :=
  if a.type ≠ b.type then false
  else match a, b with
    | .number x, .number y => f64Eq x y
    | .integer i, .integer j => i == j
    | .boolean x, .boolean y => x == y
    | .null _, .null _ => true
    | .string x, .string y => x == y
    | a, b => deepEqual a b

end Verif.Vals
