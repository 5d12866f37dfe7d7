import Verif.Model.DocJson
import Verif.Model.Hash
import Verif.Model.Vals
import Verif.Go.JsonTreeParse
/-
JSON text of the dataset document: MarshalJSON / UnmarshalJSON of commit.go, meta.go, structure.go, stats.go, transform.go, readme.go,
viz.go, dataset.go, from and to bytes.  `Model/DocJson` is the same at the level of trees; here members come in the order they are
written, names and strings are decoded from their text, repeated members meet the value that is already there, and numbers are texts.

Reading into a Go value starts from what the value holds (`old`).  Members are sorted by field and the fields read one after the other,
instead of in document order: fields do not depend on each other, so this can change only which of several errors is reported.
-/
set_option autoImplicit false
namespace Verif.DocText
open Doc JsonStd
open JsonG (Tree)

/-- the members that go to the field `name`, in document order -/
def getAll (m : List (Bytes × Tree)) (name : Bytes) : List Tree :=
  (m.filter fun x => foldName (unquote x.1) = foldName name).map (·.2)

/-- storing a JSON value where `old` is -/
abbrev Into (α : Type) := Tree → α → D α

/-- a struct field: all its members, one after the other -/
def fld {α : Type} (f : Into α) (m : List (Bytes × Tree)) (name : Bytes) (old : α) : D α :=
  (getAll m name).foldlM (fun acc T => f T acc) old

/-! ### encoding/json decode.go: what a JSON value does to a Go value of each type -/

def intoStr : Into Bytes
  | .null, old => .ok old
  | .str t, _ => .ok (unquote t)
  | _, _ => .error .mismatch

/-- an `int`: the text of the number must be an integer (`strconv.ParseInt`) -/
def intoInt : Into Int
  | .null, old => .ok old
  | .num t, _ => match Vals.parseInteger t with | some i => .ok i | none => .error .mismatch
  | _, _ => .error .mismatch

def intoBool : Into Bool
  | .null, old => .ok old
  | .bool b, _ => .ok b
  | _, _ => .error .mismatch

/-- an `interface{}` is replaced -/
def intoAny (F : FloatCodec) : Into Val := fun T _ =>
  match plain F T with | some v => .ok v | none => .error .mismatch

/-- a `map[string]interface{}`: null makes it nil, an object is merged into it -/
def intoAnyMap (F : FloatCodec) : Into (Option (List (Bytes × Val)))
  | .null, _ => .ok none
  | .obj m, old => match plainF F m with
    | some kvs => .ok (some (kvs.foldl (fun a p => mapSet a p.1 p.2) (old.getD [])))
    | none => .error .mismatch
  | _, _ => .error .mismatch

/-- a pointer: null makes it nil, anything else is stored in what it points to, or in a new zero value -/
def intoPtr {α : Type} (f : Into α) (zero : α) : Into (Option α)
  | .null, _ => .ok none
  | T, old => (f T (old.getD zero)).map some

/-- a map with typed values, each read into a new zero value -/
def intoMapOf {α : Type} (f : Tree → D α) : Into (Option (List (Bytes × α)))
  | .null, _ => .ok none
  | .obj m, old => (m.mapM fun kv => (f kv.2).map fun a => (unquote kv.1, a)).map fun kvs =>
      some (kvs.foldl (fun a p => mapSet a p.1 p.2) (old.getD []))
  | _, _ => .error .mismatch

/-- a slice.  Elements already there are reused when a second array comes; this is left out. -/
def intoList {α : Type} (f : Tree → D α) : Into (Option (List α))
  | .null, _ => .ok none
  | .arr l, old => if (old.getD []).isEmpty || l.isEmpty then (l.mapM f).map some else .error .outside
  | _, _ => .error .mismatch

/-- a new string -/
def strElem (T : Tree) : D Bytes := intoStr T []

/-- a new `uint8` (`strconv.ParseUint` and `OverflowUint`) -/
def byteElem : Tree → D UInt8
  | .null => .ok 0
  | .num t => match Vals.parseUintLoop 0 t with
    | .inl (some n) => if n < 256 then .ok (UInt8.ofNat n) else .error .mismatch
    | _ => .error .mismatch
  | _ => .error .mismatch

/-- a `[]byte`: base64, or an array of numbers -/
def intoBytes : Into (Option Bytes)
  | .null, _ => .ok none
  | .str t, _ => match b64decNL (unquote t) with | some b => .ok (some b) | none => .error .mismatch
  | T, old => intoList byteElem T old

/-- `time.Time.UnmarshalJSON`: the text between the quotes as it is written, escapes are not decoded -/
def intoTime : Into Time
  | .null, old => .ok old
  | .str t, _ => match parseTime t with | some x => .ok x | none => .error .outside
  | _, _ => .error .mismatch

/-- a struct without UnmarshalJSON -/
def intoStruct {α : Type} (f : List (Bytes × Tree) → α → D α) : Into α
  | .null, old => .ok old
  | .obj m, old => f m old
  | _, _ => .error .mismatch

/-- the components: a string is a reference, null is the zero value, the old value is dropped -/
def component {α : Type} (ref : Bytes → α) (zero : α) (f : List (Bytes × Tree) → D α) : Tree → D α
  | .str t => .ok (ref (unquote t))
  | .null => .ok zero
  | .obj m => f m
  | _ => .error .mismatch

/-- a pointer to a component -/
def intoComp {α : Type} (f : Tree → D α) (zero : α) : Into (Option α) := intoPtr (fun T _ => f T) zero

/-! ### The types -/

/-- meta.go:431-435 -/
def userObj (m : List (Bytes × Tree)) (old : User) : D User := do
  let id ← fld intoStr m b!"id" old.id
  let fullname ← fld intoStr m b!"name" old.fullname
  let email ← fld intoStr m b!"email" old.email
  return { id, fullname, email }

/-- meta.go:456-459 -/
def licenseObj (m : List (Bytes × Tree)) (old : License) : D License := do
  let type ← fld intoStr m b!"type" old.type
  let url ← fld intoStr m b!"url" old.url
  return { type, url }

/-- meta.go:478-482 -/
def citationObj (m : List (Bytes × Tree)) (old : Citation) : D Citation := do
  let name ← fld intoStr m b!"name" old.name
  let url ← fld intoStr m b!"url" old.url
  let email ← fld intoStr m b!"email" old.email
  return { name, url, email }

/-- transform.go:328-334 -/
def stepObj (F : FloatCodec) (m : List (Bytes × Tree)) (old : TransformStep) : D TransformStep := do
  let name ← fld intoStr m b!"name" old.name
  let path ← fld intoStr m b!"path" old.path
  let syntaxName ← fld intoStr m b!"syntax" old.syntaxName
  let category ← fld intoStr m b!"category" old.category
  let script ← fld (intoAny F) m b!"script" old.script
  return { name, path, syntaxName, category, script }

/-- commit.go:133-149 `UnmarshalJSON` -/
def commitObj (m : List (Bytes × Tree)) : D Commit := do
  let author ← fld (intoPtr (intoStruct userObj) {}) m b!"author" none
  let message ← fld intoStr m b!"message" []
  let path ← fld intoStr m b!"path" []
  let qri ← fld intoStr m b!"qri" []
  let signature ← fld intoStr m b!"signature" []
  let timestamp ← fld intoTime m b!"timestamp" {}
  let title ← fld intoStr m b!"title" []
  let runID ← fld intoStr m b!"runID" []
  return { author, message, path, qri, signature, timestamp, title, runID }
def commit : Tree → D Commit := component (fun p => { path := p }) {} commitObj

/-- structure.go:223-239 `UnmarshalJSON` -/
def structureObj (F : FloatCodec) (m : List (Bytes × Tree)) : D Structure := do
  let checksum ← fld intoStr m b!"checksum" []
  let compression ← fld intoStr m b!"compression" []
  let depth ← fld intoInt m b!"depth" 0
  let encoding ← fld intoStr m b!"encoding" []
  let errCount ← fld intoInt m b!"errCount" 0
  let entries ← fld intoInt m b!"entries" 0
  let format ← fld intoStr m b!"format" []
  let formatConfig ← fld (intoAnyMap F) m b!"formatConfig" none
  let length ← fld intoInt m b!"length" 0
  let path ← fld intoStr m b!"path" []
  let qri ← fld intoStr m b!"qri" []
  let schema ← fld (intoAnyMap F) m b!"schema" none
  let strict ← fld intoBool m b!"strict" false
  return { checksum, compression, depth, encoding, errCount, entries, format, formatConfig, length, path, qri, schema, strict }
def structure_ (F : FloatCodec) : Tree → D Structure := component (fun p => { path := p }) {} (structureObj F)

/-- stats.go:77-91 -/
def statsObj (F : FloatCodec) (m : List (Bytes × Tree)) : D Stats := do
  let path ← fld intoStr m b!"path" []
  let qri ← fld intoStr m b!"qri" []
  let stats ← fld (intoAny F) m b!"stats" .null
  return { path, qri, stats }
def stats (F : FloatCodec) : Tree → D Stats := component (fun p => { path := p }) {} (statsObj F)

/-- transform.go:136-151 `TransformResource.UnmarshalJSON` -/
def resource : Tree → D Bytes := component id [] fun m => fld intoStr m b!"path" []

/-- transform.go:295-309 `UnmarshalJSON` -/
def transformObj (F : FloatCodec) (m : List (Bytes × Tree)) : D Transform := do
  let config ← fld (intoAnyMap F) m b!"config" none
  let path ← fld intoStr m b!"path" []
  let qri ← fld intoStr m b!"qri" []
  let resources ← fld (intoMapOf fun T => intoComp resource [] T none) m b!"resources" none
  let scriptPath ← fld intoStr m b!"scriptPath" []
  let text ← fld intoStr m b!"text" []
  let secrets ← fld (intoMapOf strElem) m b!"secrets" none
  let steps ← fld (intoList fun T => intoPtr (intoStruct (stepObj F)) {} T none) m b!"steps" none
  let syntaxName ← fld intoStr m b!"syntax" []
  let syntaxVersion ← fld intoStr m b!"syntaxVersion" []
  let syntaxes ← fld (intoMapOf strElem) m b!"syntaxes" none
  return { config, path, qri, resources, scriptPath, text, secrets, steps, syntaxName, syntaxVersion, syntaxes }
def transform (F : FloatCodec) : Tree → D Transform := component (fun p => { path := p }) {} (transformObj F)

/-- readme.go:209-226: the kind is filled in -/
def readmeObj (m : List (Bytes × Tree)) : D Readme := do
  let format ← fld intoStr m b!"format" []
  let path ← fld intoStr m b!"path" []
  let qri ← fld intoStr m b!"qri" []
  let scriptPath ← fld intoStr m b!"scriptPath" []
  let text ← fld intoStr m b!"text" []
  let renderedPath ← fld intoStr m b!"renderedPath" []
  return { format, path, qri := kindOr qri kindReadme, scriptPath, text, renderedPath }
def readme : Tree → D Readme := component (fun p => { path := p }) {} readmeObj

/-- viz.go:211-228 -/
def vizObj (m : List (Bytes × Tree)) : D Viz := do
  let format ← fld intoStr m b!"format" []
  let path ← fld intoStr m b!"path" []
  let qri ← fld intoStr m b!"qri" []
  let scriptPath ← fld intoStr m b!"scriptPath" []
  let text ← fld intoStr m b!"text" []
  let renderedPath ← fld intoStr m b!"renderedPath" []
  return { format, path, qri := kindOr qri kindViz, scriptPath, text, renderedPath }
def viz : Tree → D Viz := component (fun p => { path := p }) {} vizObj

/-- meta.go:378-428 `UnmarshalJSON`: once into the struct, once more into a map, from which the known names are deleted -/
def metaObj (F : FloatCodec) (m : List (Bytes × Tree)) : D Meta := do
  let accessURL ← fld intoStr m b!"accessURL" []
  let accrualPeriodicity ← fld intoStr m b!"accrualPeriodicity" []
  let citations ← fld (intoList fun T => intoPtr (intoStruct citationObj) {} T none) m b!"citations" none
  let contributors ← fld (intoList fun T => intoPtr (intoStruct userObj) {} T none) m b!"contributors" none
  let description ← fld intoStr m b!"description" []
  let downloadURL ← fld intoStr m b!"downloadURL" []
  let homeURL ← fld intoStr m b!"homeURL" []
  let identifier ← fld intoStr m b!"identifier" []
  let keywords ← fld (intoList strElem) m b!"keywords" none
  let language ← fld (intoList strElem) m b!"language" none
  let license ← fld (intoPtr (intoStruct licenseObj) {}) m b!"license" none
  let path ← fld intoStr m b!"path" []
  let qri ← fld intoStr m b!"qri" []
  let readmeURL ← fld intoStr m b!"readmeURL" []
  let title ← fld intoStr m b!"title" []
  let theme ← fld (intoList strElem) m b!"theme" none
  let version ← fld intoStr m b!"version" []
  let all ← intoAnyMap F (.obj m) none
  let rest := metaReserved.foldl mapDel (all.getD [])
  return { arbitrary := if rest = [] then none else some rest, accessURL, accrualPeriodicity, citations, contributors, description,
           downloadURL, homeURL, identifier, keywords, language, license, path, qri, readmeURL, title, theme, version }
def meta_ (F : FloatCodec) : Tree → D Meta := component (fun p => { path := p }) {} (metaObj F)

/-- dataset.go:450-465 `UnmarshalJSON` -/
def datasetObj (F : FloatCodec) (m : List (Bytes × Tree)) : D Dataset := do
  let body ← fld (intoAny F) m b!"body" .null
  let bodyBytes ← fld intoBytes m b!"bodyBytes" none
  let bodyPath ← fld intoStr m b!"bodyPath" []
  let commit ← fld (intoComp commit {}) m b!"commit" none
  let id ← fld intoStr m b!"id" []
  let meta_ ← fld (intoComp (meta_ F) {}) m b!"meta" none
  let name ← fld intoStr m b!"name" []
  let path ← fld intoStr m b!"path" []
  let peername ← fld intoStr m b!"peername" []
  let previousPath ← fld intoStr m b!"previousPath" []
  let profileID ← fld intoStr m b!"profileID" []
  let readme ← fld (intoComp readme {}) m b!"readme" none
  let numVersions ← fld intoInt m b!"numVersions" 0
  let qri ← fld intoStr m b!"qri" []
  let structure_ ← fld (intoComp (structure_ F) {}) m b!"structure" none
  let stats ← fld (intoComp (stats F) {}) m b!"stats" none
  let transform ← fld (intoComp (transform F) {}) m b!"transform" none
  let viz ← fld (intoComp viz {}) m b!"viz" none
  return { body, bodyBytes, bodyPath, commit, id, meta_, name, path, peername, previousPath, profileID, readme, numVersions, qri,
           structure_, stats, transform, viz }
def dataset (F : FloatCodec) : Tree → D Dataset := component (fun p => { path := p }) {} (datasetObj F)

/-- `json.Unmarshal(s, …)`: the text is checked first -/
def read {α : Type} (f : Tree → D α) (s : Bytes) : D α :=
  match tree s with
  | none => .error .mismatch
  | some T => f T

/-! ### Writing: members of a struct come in the order of its fields, those of a map sorted -/

open Hash (present)

/-- meta.go:431-435 -/
def userVal (u : User) : Val := .obj (present u.fields)
def licenseVal (l : License) : Val := .obj (present l.fields)
def citationVal (c : Citation) : Val := .obj (present c.fields)
def stepVal (s : TransformStep) : Val := .obj (present s.fields)

/-- commit.go:100-128 `MarshalJSON`, `MarshalJSONObject`; none when the time cannot be written -/
def commitFields (c : Commit) (tt : Bytes) : Fields := [
  (b!"author", c.author.map userVal), (b!"message", omitStr c.message), (b!"path", omitStr c.path),
  (b!"qri", omitStr (kindOr c.qri kindCommit)), (b!"signature", omitStr c.signature), (b!"timestamp", some (.str tt)),
  (b!"title", some (.str c.title)), (b!"runID", omitStr c.runID)]
def commitVal (c : Commit) : Option Val :=
  if c.path ≠ [] ∧ c.isEmpty then some (.str c.path)
  else (encTime c.timestamp).map fun tt => .obj (present (commitFields c tt))

/-- structure.go:186-222 -/
def structureVal (s : Structure) : Val :=
  if s.path ≠ [] ∧ s.encoding = [] ∧ s.schema = none then .str s.path else .obj (present s.fields)

/-- stats.go:52-74 -/
def statsVal (s : Stats) : Val := if s.path ≠ [] ∧ s.isEmpty then .str s.path else .obj (present s.fields)

/-- transform.go:260-292 -/
def transformFields (q : Transform) : Fields := [
  (b!"config", omitMap q.config), (b!"path", omitStr q.path), (b!"qri", omitStr (kindOr q.qri kindTransform)),
  (b!"resources", encMapOf (ptr encResource) q.resources), (b!"scriptPath", omitStr q.scriptPath), (b!"text", omitStr q.text),
  (b!"secrets", none), (b!"steps", omitList (ptr stepVal) q.steps), (b!"syntax", omitStr q.syntaxName),
  (b!"syntaxVersion", omitStr q.syntaxVersion), (b!"syntaxes", encMapOf .str q.syntaxes)]
def transformVal (q : Transform) : Val :=
  if q.path ≠ [] ∧ q.isEmpty then .str q.path else .obj (present (transformFields q))

/-- meta.go:304-373; a map, so the members are sorted -/
def metaFields (m : Meta) : Fields := [
  (b!"qri", some (.str kindMeta)), (b!"accessURL", omitStr m.accessURL), (b!"citations", putList (ptr citationVal) m.citations),
  (b!"contributors", putList (ptr userVal) m.contributors), (b!"description", omitStr m.description),
  (b!"downloadURL", omitStr m.downloadURL), (b!"homeURL", omitStr m.homeURL), (b!"identifier", omitStr m.identifier),
  (b!"keywords", putList .str m.keywords), (b!"language", putList .str m.language), (b!"license", m.license.map licenseVal),
  (b!"path", omitStr m.path), (b!"readmeURL", omitStr m.readmeURL), (b!"theme", putList .str m.theme), (b!"title", omitStr m.title),
  (b!"accrualPeriodicity", omitStr m.accrualPeriodicity), (b!"version", omitStr m.version)]
def metaVal (m : Meta) : Val :=
  if m.path ≠ [] ∧ m.isEmpty then .str m.path else .obj (putFields (m.arbitrary.getD []) (metaFields m))

/-- dataset.go:431-445 -/
def datasetFields (d : Dataset) (cm : Option Val) : Fields := [
  (b!"body", omitVal d.body), (b!"bodyBytes", omitBytes d.bodyBytes), (b!"bodyPath", omitStr d.bodyPath), (b!"commit", cm),
  (b!"id", omitStr d.id), (b!"meta", d.meta_.map metaVal), (b!"name", omitStr d.name), (b!"path", omitStr d.path),
  (b!"peername", omitStr d.peername), (b!"previousPath", omitStr d.previousPath), (b!"profileID", omitStr d.profileID),
  (b!"readme", d.readme.map Readme.enc), (b!"numVersions", omitInt d.numVersions), (b!"qri", some (.str (kindOr d.qri kindDataset))),
  (b!"structure", d.structure_.map structureVal), (b!"stats", d.stats.map statsVal), (b!"transform", d.transform.map transformVal),
  (b!"viz", d.viz.map Viz.enc)]
def datasetVal (d : Dataset) : Option Val :=
  if d.path ≠ [] ∧ d.isEmpty then some (.str d.path)
  else (encComp commitVal d.commit).map fun cm => .obj (present (datasetFields d cm))

/-- `json.Marshal`: none for an error -/
def write (F : FloatCodec) (v : Val) : Option Bytes := if jsonOK v then some (enc F v) else none

def writeCommit (F : FloatCodec) (c : Commit) : Option Bytes := (commitVal c).bind (write F)
def writeDataset (F : FloatCodec) (d : Dataset) : Option Bytes := (datasetVal d).bind (write F)

/-! ### UnmarshalDataset (dataset.go:467-483), UnmarshalCommit (commit.go:152-168), UnmarshalStructure (structure.go:316-332),
UnmarshalTransform (transform.go:311-326), UnmarshalReadme (readme.go:228-244), UnmarshalViz (viz.go:230-246): a value, a pointer to
one, or its JSON text -/

inductive Src (α : Type) where
  | value (x : α)
  | text (s : Bytes)
  | other

def unmarshal {α : Type} (f : Tree → D α) : Src α → D α
  | .value x => .ok x
  | .text s => read f s
  | .other => .error .mismatch

end Verif.DocText
