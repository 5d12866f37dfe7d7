import Verif.Go.Sha256
import Verif.Go.JsonText
import Verif.Model.DocJson
import Verif.Model.Formats
/-
Model of hash.go, and of the parts of structure.go around it: `Hash`, `Abstract`, `RequiresTabularSchema`, `NewStructureRef`.
-/
set_option autoImplicit false
namespace Verif.Hash
open Doc

/-- hash.go:29-44 `HashBytes`; neither `Write` nor `Encode` of a digest of the right length can fail -/
def hashBytes (data : Bytes) : Bytes := base58 (multihash (sha256 data))

/-- the fields that are not left out, in the order of the struct -/
def present (fs : Fields) : List (Bytes × Val) := fs.filterMap fun f => f.2.map fun v => (f.1, v)

/-- structure.go:186-222 `MarshalJSON`: the text (members come in the order of the fields of the struct, unlike those of a map);
none for an error -/
def marshalStructure (F : FloatCodec) (s : Structure) : Option Bytes :=
  if s.path ≠ [] ∧ s.encoding = [] ∧ s.schema = none then some (enc F (.str s.path))
  else if jsonOK (.obj (present s.fields)) then some (enc F (.obj (present s.fields)))
  else none

/-- hash.go:16-23 `JSONHash` of something whose `MarshalJSON` gives this -/
def jsonHash (text : Option Bytes) : Option Bytes := text.map hashBytes

/-- structure.go:182-184 `Hash` -/
def hash (F : FloatCodec) (s : Structure) : Option Bytes := jsonHash (marshalStructure F s)

/-- structure.go:155-179 `Abstract`.  The format configuration is the same map, not a copy. -/
def abstract (s : Structure) : Structure :=
  { format := s.format, formatConfig := s.formatConfig, encoding := s.encoding, strict := s.strict }

/-- structure.go:148-150 `RequiresTabularSchema` -/
def requiresTabularSchema (s : Structure) : Bool := s.format = b!"csv" || s.format = b!"xlsx"

/-- structure.go:81-83 `NewStructureRef` -/
def newStructureRef (path : Bytes) : Structure := { qri := kindStructure, path }

end Verif.Hash
