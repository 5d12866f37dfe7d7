import Verif.Model.Doc
/-
Setting metadata by key: meta.go:115-236 and the Decode methods at 437-500.  Values are
`json.Unmarshal` data as the comment on `Set` asks for.
-/
namespace Verif.Doc

/-- meta.go:116-126 `strVal` -/
def strVal : Val → Option Bytes
  | .null => some []
  | .str s => some s
  | _ => none

/-- meta.go:129-148 `strSliceVal`; an empty slice becomes nil -/
def strSliceVal : Val → Option (Option (List Bytes))
  | .null => some none
  | .arr l => (l.mapM strVal).map fun r => if r = [] then none else some r
  | _ => none

/-- index expression on a `map[string]interface{}` -/
def member (m : List (Bytes × Val)) (k : Bytes) : Val := (mapGet m k).getD .null

/-- meta.go:438-453 -/
def User.decode : Val → Option User
  | .obj m => do return { id := ← strVal (member m b!"id"), fullname := ← strVal (member m b!"name"), email := ← strVal (member m b!"email") }
  | _ => none

/-- meta.go:485-500 -/
def Citation.decode : Val → Option Citation
  | .obj m => do return { name := ← strVal (member m b!"name"), url := ← strVal (member m b!"url"), email := ← strVal (member m b!"email") }
  | _ => none

/-- meta.go:462-475; on failure the receiver keeps what was read so far -/
def License.decode : Val → License × Bool
  | .obj m =>
    match strVal (member m b!"type") with
    | none => ({}, false)
    | some t => match strVal (member m b!"url") with
      | none => ({ type := t }, false)
      | some u => ({ type := t, url := u }, true)
  | _ => ({}, false)

/-- the loops at meta.go:188-196 and 202-210: stops at the first failure, later elements stay nil -/
def decodeElems {α : Type} (f : Val → Option α) : List Val → List (Option α) × Bool
  | [] => ([], true)
  | v :: l => match f v with
    | none => (List.replicate (l.length + 1) none, false)
    | some a => let r := decodeElems f l; (some a :: r.1, r.2)

/-- code points that `unicode.IsSpace` accepts, as UTF-8 -/
def spaces : List Bytes :=
  [[9], [10], [11], [12], [13], [32], [0xC2, 0x85], [0xC2, 0xA0], [0xE1, 0x9A, 0x80], [0xE2, 0x80, 0x80], [0xE2, 0x80, 0x81], [0xE2, 0x80, 0x82],
   [0xE2, 0x80, 0x83], [0xE2, 0x80, 0x84], [0xE2, 0x80, 0x85], [0xE2, 0x80, 0x86], [0xE2, 0x80, 0x87], [0xE2, 0x80, 0x88], [0xE2, 0x80, 0x89],
   [0xE2, 0x80, 0x8A], [0xE2, 0x80, 0xA8], [0xE2, 0x80, 0xA9], [0xE2, 0x80, 0xAF], [0xE2, 0x81, 0x9F], [0xE3, 0x80, 0x80]]

/-- drop one leading element of `sp`, if there is one -/
def dropOne (sp : List Bytes) (s : Bytes) : Option Bytes := (sp.find? fun p => p.isPrefixOf s).map fun p => s.drop p.length

def trimLeftF (sp : List Bytes) : Nat → Bytes → Bytes
  | 0, s => s
  | f + 1, s => match dropOne sp s with | none => s | some t => trimLeftF sp f t

/-- `strings.TrimSpace` -/
def trimSpace (s : Bytes) : Bytes :=
  let l := trimLeftF spaces s.length s
  (trimLeftF (spaces.map List.reverse) l.length l.reverse).reverse

/-- `strings.ToLower`, as far as it can produce ASCII letters: A-Z, the Kelvin sign and İ; other
code points are left alone here (their lower case forms are not ASCII) -/
def toLower : Bytes → Bytes
  | 0xE2 :: 0x84 :: 0xAA :: t => 107 :: toLower t
  | 0xC4 :: 0xB0 :: t => 105 :: toLower t
  | c :: t => (if 65 ≤ c ∧ c ≤ 90 then c + 32 else c) :: toLower t
  | [] => []

/-- meta.go:154, what `Set` switches on -/
def keyName (key : Bytes) : Bytes := trimSpace (toLower key)

/-- meta.go:154-226: the switch, `n` being the lowercased and trimmed key -/
def Meta.setN (m : Meta) (n key : Bytes) (v : Val) : Meta × Bool :=
  let s := (strVal v).getD []
  let sok := (strVal v).isSome
  let l := (strSliceVal v).getD none
  let lok := (strSliceVal v).isSome
  if n = b!"qri" then ({ m with qri := s }, sok)
  else if n = b!"accessurl" then ({ m with accessURL := s }, sok)
  else if n = b!"accrualperiodicity" then ({ m with accrualPeriodicity := s }, sok)
  else if n = b!"description" then ({ m with description := s }, sok)
  else if n = b!"downloadurl" then ({ m with downloadURL := s }, sok)
  else if n = b!"homeurl" then ({ m with homeURL := s }, sok)
  else if n = b!"identifier" then ({ m with identifier := s }, sok)
  else if n = b!"readmeurl" then ({ m with readmeURL := s }, sok)
  else if n = b!"title" then ({ m with title := s }, sok)
  else if n = b!"version" then ({ m with version := s }, sok)
  else if n = b!"keywords" then ({ m with keywords := l }, lok)
  else if n = b!"language" then ({ m with language := l }, lok)
  else if n = b!"theme" then ({ m with theme := l }, lok)
  else if n = b!"citations" then
    match v with
    | .arr es => let r := decodeElems Citation.decode es; ({ m with citations := some r.1 }, r.2)
    | _ => (m, false)
  else if n = b!"contributors" then
    match v with
    | .arr es => let r := decodeElems User.decode es; ({ m with contributors := some r.1 }, r.2)
    | _ => (m, false)
  else if n = b!"license" then let r := License.decode v; ({ m with license := some r.1 }, r.2)
  else ({ m with arbitrary := some (mapSet (m.arbitrary.getD []) key v) }, true)

/-- meta.go:152-227 `Set`: the metadata afterwards and whether no error was returned -/
def Meta.set (m : Meta) (key : Bytes) (v : Val) : Meta × Bool := m.setN (keyName key) key v

/-- meta.go:230-236 -/
def Meta.setArbitrary (m : Meta) (key : Bytes) (v : Val) : Meta :=
  { m with arbitrary := some (mapSet (m.arbitrary.getD []) key v) }

end Verif.Doc
