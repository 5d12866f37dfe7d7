import Verif.Model.Json
/-
Reading JSON text without ever meeting an error: what a reader of the dialect of dsio/json.go delivers as long as nothing is
wrong.  Errors inside arrays, which the code sometimes ignores, and cut-off escapes end it (`none`).  The dialect is wider than JSON:
missing values are null, duplicate keys overwrite, unknown escapes stand for themselves.
-/
set_option autoImplicit false
namespace Verif.JsonClean
open Json

/-- no escape `\x` or `\u` is cut off by the end of the string -/
def escapesWhole : Bytes → Bool
  | [] => true
  | c :: t =>
    if c = 92 then
      match t with
      | [] => true
      | e :: t =>
        if e = 120 then
          match t with
          | _ :: _ :: t => escapesWhole t
          | _ => false
        else if e = 117 then
          match t with
          | _ :: _ :: _ :: _ :: t => escapesWhole t
          | _ => false
        else escapesWhole t
    else escapesWhole t

def lit (tok : Bytes) (v : Val) (s : Bytes) : Option (Val × Bytes) :=
  if s.take tok.length = tok then some (v, s.drop tok.length) else none

/-- after the opening quote -/
def stringBody (s : Bytes) : Option (Bytes × Bytes) :=
  (scanStr s).bind fun (inner, r) => if escapesWhole inner then some (unq inner, r) else none

def string (s : Bytes) : Option (Bytes × Bytes) := (token 34 s).bind stringBody

def number (F : FloatCodec) (s : Bytes) : Option (Val × Bytes) :=
  match convNumber F (s.takeWhile isNumCh) [] with
  | .ok v _ => some (v, s.dropWhile isNumCh)
  | .err _ _ => none

mutual
def value (F : FloatCodec) : Nat → Bytes → Option (Val × Bytes)
  | 0, _ => none
  | f + 1, s =>
    match skipWS s with
    | [] => some (.null, [])
    | c :: t =>
      if c = 110 then lit b!"null" .null (c :: t)
      else if c = 116 then lit b!"true" (.bool true) (c :: t)
      else if c = 102 then lit b!"false" (.bool false) (c :: t)
      else if c = 34 then (stringBody t).map fun p => (.str p.1, p.2)
      else if c = 45 ∨ isDigit c then number F (c :: t)
      else if c = 123 then object F f t
      else if c = 91 then array F f t
      else some (.null, c :: t)
/-- after the opening brace -/
def object (F : FloatCodec) : Nat → Bytes → Option (Val × Bytes)
  | 0, _ => none
  | f + 1, s =>
    match token 125 s with
    | some r => some (.obj [], r)
    | none => (pair F f s).bind fun p => members F f (mapSet [] p.1.1 p.1.2) p.2
/-- after the opening bracket -/
def array (F : FloatCodec) : Nat → Bytes → Option (Val × Bytes)
  | 0, _ => none
  | f + 1, s =>
    match token 93 s with
    | some r => some (.arr [], r)
    | none => (value F f s).bind fun p => elements F f [p.1] p.2
/-- further members of an object -/
def members (F : FloatCodec) : Nat → List (Bytes × Val) → Bytes → Option (Val × Bytes)
  | 0, _, _ => none
  | f + 1, m, s =>
    match token 125 s with
    | some r => some (.obj m, r)
    | none => (token 44 s).bind fun s => (pair F f s).bind fun p => members F f (mapSet m p.1.1 p.1.2) p.2
/-- further elements of an array -/
def elements (F : FloatCodec) : Nat → List Val → Bytes → Option (Val × Bytes)
  | 0, _, _ => none
  | f + 1, l, s =>
    match token 93 s with
    | some r => some (.arr l, r)
    | none => (token 44 s).bind fun s => (value F f s).bind fun p => elements F f (l ++ [p.1]) p.2
def pair (F : FloatCodec) : Nat → Bytes → Option ((Bytes × Val) × Bytes)
  | 0, _ => none
  | f + 1, s => (string s).bind fun k => (token 58 k.2).bind fun r => (value F f r).map fun p => ((k.1, p.1), p.2)
end

/-- an entry and what follows it -/
def entry (F : FloatCodec) (tl : TopLevel) (n : Int) (s : Bytes) : Option (Entry × Bytes) :=
  match tl with
  | .object => (pair F (fuelFor s) s).map fun p => ({ key := p.1.1, value := p.1.2 }, p.2)
  | .array => (value F (fuelFor s) s).map fun p => ({ index := n, value := p.1 }, p.2)

/-- the entries after the first ones (`n` are read), up to the first error, and whether the closing bracket is reached -/
def rest (F : FloatCodec) (tl : TopLevel) : Nat → Int → Bytes → List Entry × Bool
  | 0, _, _ => ([], false)
  | f + 1, n, s =>
    match token (closeCh tl) s with
    | some _ => ([], true)
    | none =>
      match (token 44 s).bind (entry F tl n) with
      | none => ([], false)
      | some (e, s) => (e :: (rest F tl f (n + 1) s).1, (rest F tl f (n + 1) s).2)

/-- the entries of a body up to the first error, and whether the closing bracket is reached -/
def body (F : FloatCodec) (tl : TopLevel) (s : Bytes) : List Entry × Bool :=
  match token (openCh tl) s with
  | none => ([], false)
  | some s =>
    match token (closeCh tl) s with
    | some _ => ([], true)
    | none =>
      match entry F tl 0 s with
      | none => ([], false)
      | some (e, r) => (e :: (rest F tl s.length 1 r).1, (rest F tl s.length 1 r).2)

end Verif.JsonClean
