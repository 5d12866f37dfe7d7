import Verif.Model.Vals
import Verif.Go.JsonParse
/-
`vals.UnmarshalJSON` (vals/coding.go): JSON text as typed values.
-/
set_option autoImplicit false
namespace Verif.JsonStd

/-! ### `json.RawMessage`

`json.Unmarshal` into `[]json.RawMessage` and `map[string]json.RawMessage` (external library, documented behaviour):
the whole text is checked, then every element is handed over as its text, without the whitespace around it. -/

/-- the beginning of `s` up to where `rest` follows -/
def upTo (s rest : Bytes) : Bytes := s.take (s.length - rest.length)

mutual
/-- what follows a value nested `d` deep -/
def skipVal : Nat → Nat → Bytes → Option Bytes
  | 0, _, _ => none
  | f + 1, d, s =>
    match skipWS s with
    | [] => none
    | c :: t =>
      if c = 110 then (lit b!"null" .null (c :: t)).map (·.2)
      else if c = 116 then (lit b!"true" .null (c :: t)).map (·.2)
      else if c = 102 then (lit b!"false" .null (c :: t)).map (·.2)
      else if c = 34 then (strRaw t).map (·.2)
      else if c = 91 then
        if maxDepth ≤ d then none
        else match skipWS t with
          | [] => none
          | e :: r => if e = 93 then some r else (rawElems f (d + 1) (e :: r)).map (·.2)
      else if c = 123 then
        if maxDepth ≤ d then none
        else match skipWS t with
          | [] => none
          | e :: r => if e = 125 then some r else (rawMembers f (d + 1) (e :: r)).map (·.2)
      else (numLit (c :: t)).map (·.2)
/-- the texts of the elements up to the closing bracket, and what follows it -/
def rawElems : Nat → Nat → Bytes → Option (List Bytes × Bytes)
  | 0, _, _ => none
  | f + 1, d, s =>
    (skipVal f d s).bind fun r =>
      match skipWS r with
      | [] => none
      | c :: t =>
        if c = 44 then (rawElems f d t).map fun p => (upTo (skipWS s) r :: p.1, p.2)
        else if c = 93 then some ([upTo (skipWS s) r], t)
        else none
/-- the keys and the texts of the members up to the closing brace, and what follows it -/
def rawMembers : Nat → Nat → Bytes → Option (List (Bytes × Bytes) × Bytes)
  | 0, _, _ => none
  | f + 1, d, s =>
    match skipWS s with
    | [] => none
    | q :: s =>
      if q = 34 then
        (strLit s).bind fun k =>
          match skipWS k.2 with
          | [] => none
          | col :: s =>
            if col = 58 then
              (skipVal f d s).bind fun r =>
                match skipWS r with
                | [] => none
                | c :: t =>
                  if c = 44 then (rawMembers f d t).map fun p => ((k.1, upTo (skipWS s) r) :: p.1, p.2)
                  else if c = 125 then some ([(k.1, upTo (skipWS s) r)], t)
                  else none
            else none
      else none
end

/-- enough for any text -/
def fuel (s : Bytes) : Nat := 2 * s.length + 2

/-- `checkValid` -/
def checkValid (s : Bytes) : Bool :=
  match skipVal (fuel s) 0 s with
  | none => false
  | some r => skipWS r = []

/-- `json.Unmarshal(s, &a)` for `a []json.RawMessage`, of text that begins with a bracket -/
def rawSlice (s : Bytes) : Option (List Bytes) :=
  if checkValid s = false then none
  else match skipWS s with
    | [] => none
    | c :: t =>
      if c ≠ 91 then none
      else match skipWS t with
        | [] => none
        | e :: r => if e = 93 then some [] else (rawElems (fuel s) 1 (e :: r)).map (·.1)

/-- `json.Unmarshal(s, &m)` for `m map[string]json.RawMessage`, of text that begins with a brace: of members with the same
key the last one stays -/
def rawMap (s : Bytes) : Option (List (Bytes × Bytes)) :=
  if checkValid s = false then none
  else match skipWS s with
    | [] => none
    | c :: t =>
      if c ≠ 123 then none
      else match skipWS t with
        | [] => none
        | e :: r => if e = 125 then some [] else (rawMembers (fuel s) 1 (e :: r)).map fun p => mapOf p.1

/-! ### `json.Unmarshal` into a variable of a basic type: null leaves it alone, a value of another type is an error -/

/-- what the text is: its first byte and the rest, if it is valid -/
def valid (s : Bytes) : Option (UInt8 × Bytes) :=
  if checkValid s then (match skipWS s with | [] => none | c :: t => some (c, t)) else none

/-- into a `string` that was `old` -/
def intoString (old s : Bytes) : Option Bytes :=
  (valid s).bind fun p => if p.1 = 110 then some old else if p.1 = 34 then (strLit p.2).map (·.1) else none

/-- into a `bool` that was `old` -/
def intoBool (old : Bool) (s : Bytes) : Option Bool :=
  (valid s).bind fun p => if p.1 = 110 then some old else if p.1 = 116 then some true else if p.1 = 102 then some false else none

/-- into a number that was `old`; `strconv` reads its text -/
def intoNum {α : Type} (conv : Bytes → Option α) (old : α) (s : Bytes) : Option α :=
  (valid s).bind fun p =>
    if p.1 = 110 then some old
    else if p.1 = 45 ∨ isDigit p.1 then (numLit (p.1 :: p.2)).bind fun n => conv n.1
    else none

end Verif.JsonStd

namespace Verif.Vals
open JsonStd

/-- coding.go:68-166 `UnmarshalJSON`, `unmarshalObject`, `unmarshalArray`; none for an error.  A basic value is returned behind a
pointer at the top (inside arrays and objects it is copied out), which the methods of `Value` do not show; arrays and objects are
returned as they are.  `f` only bounds the recursion: each text handed down is shorter. -/
def unmarshalJSONn (L : Lib) : Nat → Bytes → Option Value
  | 0, _ => none
  | f + 1, data =>
    match parseType L data with
    | .object => (rawMap data).bind fun m => (m.mapM fun kv => (unmarshalJSONn L f kv.2).map fun v => (kv.1, v)).map (.object false)
    | .array => (rawSlice data).bind fun l => (l.mapM (unmarshalJSONn L f)).map (.array false)
    | .string => (intoString [] data).map .string
    | .integer => (intoNum parseInteger 0 data).map .integer
    | .number => (intoNum L.parse64 0 data).map .number
    | .boolean => (intoBool false data).map .boolean
    | .null => (intoBool true data).map .null
    | _ => none

def unmarshalJSON (L : Lib) (data : Bytes) : Option Value := unmarshalJSONn L (data.length + 1) data

end Verif.Vals
