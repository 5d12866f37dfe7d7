import Verif.Model.Doc
import Verif.Model.TimeText
import Verif.Go.Base64
/-
JSON form of the dataset document: MarshalJSON / UnmarshalJSON of commit.go, meta.go, structure.go,
stats.go, transform.go, readme.go, viz.go, dataset.go, at the level of JSON trees (`Val`).

The text layer of encoding/json (trees ↔ bytes) is not modelled here but in `Model/DocText`.  A number written from a Go `int` is `.int`, a number in
an `interface{}` is `.f64`; `interface{}` values are only modelled for the types json.Unmarshal
produces (`Val.isJson`).
-/
namespace Verif.Doc

/-- result of decoding: Go reports a type mismatch, or the input is outside of what is modelled -/
inductive DErr where
  | mismatch
  | outside
deriving DecidableEq

deriving instance DecidableEq for Except

abbrev D (α : Type) := Except DErr α

/-! ### encoding/json: structs -/

/-- case folding used to match member names to struct fields (encoding/json fold.go: ASCII letters,
plus U+212A for k and U+017F for s) -/
def foldName : Bytes → Bytes
  | 0xE2 :: 0x84 :: 0xAA :: t => 107 :: foldName t
  | 0xC5 :: 0xBF :: t => 115 :: foldName t
  | c :: t => (if 65 ≤ c ∧ c ≤ 90 then c + 32 else c) :: foldName t
  | [] => []

/-- values of the members that go to the field `name`, in document order -/
def getAll (m : List (Bytes × Val)) (name : Bytes) : List Val :=
  (m.filter fun x => foldName x.1 = foldName name).map (·.2)

/-- members of an encoded struct; `none` marks a field left out by `omitempty` -/
abbrev Fields := List (Bytes × Option Val)

/-- set the present fields in a map -/
def putFields (m : List (Bytes × Val)) (fs : Fields) : List (Bytes × Val) :=
  fs.foldl (fun m f => match f.2 with | none => m | some v => mapSet m f.1 v) m

def encFields (fs : Fields) : List (Bytes × Val) := putFields [] fs

def omitStr (s : Bytes) : Option Val := if s = [] then none else some (.str s)
def omitInt (i : Int) : Option Val := if i = 0 then none else some (.int i)
def omitBool (b : Bool) : Option Val := if b then some (.bool true) else none
def omitVal (v : Val) : Option Val := if v = .null then none else some v
/-- `omitempty` on a map: nil and empty are left out -/
def omitMap (m : Option (List (Bytes × Val))) : Option Val :=
  match m with
  | none | some [] => none
  | some m => some (.obj m)
/-- `omitempty` on a slice -/
def omitList {α : Type} (f : α → Val) (l : Option (List α)) : Option Val :=
  match l with
  | none | some [] => none
  | some l => some (.arr (l.map f))

/-- nil pointer as null -/
def ptr {α : Type} (f : α → Val) : Option α → Val
  | none => .null
  | some x => f x

/-! values that json.Unmarshal can store in an `interface{}` -/
mutual
def isJson : Val → Bool
  | .null | .bool _ | .f64 _ | .str _ => true
  | .arr l => isJsonL l
  | .obj m => isJsonM m
  | _ => false
def isJsonL : List Val → Bool
  | [] => true
  | v :: l => isJson v && isJsonL l
def isJsonM : List (Bytes × Val) → Bool
  | [] => true
  | (_, v) :: l => isJson v && isJsonM l
end

/-! decoding one field from the values of its members -/

/-- string: null leaves the field as it is -/
def decStr (vs : List Val) : D Bytes :=
  vs.foldlM (fun acc v => match v with | .null => .ok acc | .str s => .ok s | _ => .error .mismatch) []

def decInt (vs : List Val) : D Int :=
  vs.foldlM (fun acc v => match v with
    | .null => .ok acc
    | .int i => if IsInt64 i then .ok i else .error .mismatch
    | .f64 _ | .gint _ => .error .outside
    | _ => .error .mismatch) 0

def decBool (vs : List Val) : D Bool :=
  vs.foldlM (fun acc v => match v with | .null => .ok acc | .bool b => .ok b | _ => .error .mismatch) false

/-- `interface{}`: the last one counts -/
def decVal (vs : List Val) : D Val :=
  vs.foldlM (fun _ v => if isJson v then .ok v else .error .outside) .null

/-- pointers, maps and slices: repeated members would be merged, which is not modelled -/
def decOpt {α : Type} (f : Val → D α) (vs : List Val) : D (Option α) :=
  match vs with
  | [] => .ok none
  | [.null] => .ok none
  | [v] => (f v).map some
  | _ => .error .outside

/-- `map[string]interface{}` -/
def decAnyMap : Val → D (List (Bytes × Val))
  | .obj m => if isJsonM m then .ok m else .error .outside
  | _ => .error .mismatch

/-- slice -/
def decList {α : Type} (f : Val → D α) : Val → D (List α)
  | .arr l => l.mapM f
  | _ => .error .mismatch

/-- element of `[]string` -/
def decStrElem : Val → D Bytes
  | .str s => .ok s
  | .null => .ok []
  | _ => .error .mismatch

/-- element of a slice or map of pointers -/
def decPtr {α : Type} (f : Val → D α) : Val → D (Option α)
  | .null => .ok none
  | v => (f v).map some

/-- map with typed values -/
def decMapOf {α : Type} (f : Val → D α) : Val → D (List (Bytes × α))
  | .obj m => m.mapM fun kv => (f kv.2).map fun a => (kv.1, a)
  | _ => .error .mismatch

/-- struct without a custom UnmarshalJSON -/
def decStruct {α : Type} (f : List (Bytes × Val) → D α) : Val → D α
  | .obj m => f m
  | _ => .error .mismatch

/-! ### Users, licenses, citations (meta.go:431-482) -/

def User.fields (u : User) : Fields := [(b!"id", omitStr u.id), (b!"name", omitStr u.fullname), (b!"email", omitStr u.email)]
def User.enc (u : User) : Val := .obj (encFields u.fields)
def User.decObj (m : List (Bytes × Val)) : D User := do
  let id ← decStr (getAll m b!"id")
  let fullname ← decStr (getAll m b!"name")
  let email ← decStr (getAll m b!"email")
  return { id, fullname, email }

def User.dec : Val → D User := decStruct User.decObj

def License.fields (l : License) : Fields := [(b!"type", omitStr l.type), (b!"url", omitStr l.url)]
def License.enc (l : License) : Val := .obj (encFields l.fields)
def License.decObj (m : List (Bytes × Val)) : D License := do
  let type ← decStr (getAll m b!"type")
  let url ← decStr (getAll m b!"url")
  return { type, url }

def License.dec : Val → D License := decStruct License.decObj

def Citation.fields (c : Citation) : Fields := [(b!"name", omitStr c.name), (b!"url", omitStr c.url), (b!"email", omitStr c.email)]
def Citation.enc (c : Citation) : Val := .obj (encFields c.fields)
def Citation.decObj (m : List (Bytes × Val)) : D Citation := do
  let name ← decStr (getAll m b!"name")
  let url ← decStr (getAll m b!"url")
  let email ← decStr (getAll m b!"email")
  return { name, url, email }

def Citation.dec : Val → D Citation := decStruct Citation.decObj

/-! ### Commit -/

/-- "filled in if empty" -/
def kindOr (qri dflt : Bytes) : Bytes := if qri = [] then dflt else qri

/-- commit.go:111-128 `MarshalJSONObject`; fails when the time does -/
def Commit.fields (c : Commit) (tt : Bytes) : Fields := [
    (b!"author", c.author.map User.enc), (b!"message", omitStr c.message), (b!"path", omitStr c.path),
    (b!"qri", omitStr (kindOr c.qri kindCommit)), (b!"signature", omitStr c.signature), (b!"timestamp", some (.str tt)),
    (b!"title", some (.str c.title)), (b!"runID", omitStr c.runID)]
def Commit.encObj (c : Commit) : Option Val := (encTime c.timestamp).map fun tt => .obj (encFields (c.fields tt))

/-- commit.go:102-107 `MarshalJSON` -/
def Commit.enc (c : Commit) : Option Val := if c.path ≠ [] ∧ c.isEmpty then some (.str c.path) else c.encObj

/-- the timestamp field; null is a no-op -/
def decTime (vs : List Val) : D Time :=
  vs.foldlM (fun acc v => match v with
    | .null => .ok acc
    | .str s => match parseTime s with | some t => .ok t | none => .error .outside
    | _ => .error .mismatch) {}

/-- commit.go:134-149 `UnmarshalJSON` -/
def Commit.decObj (m : List (Bytes × Val)) : D Commit := do
  let author ← decOpt User.dec (getAll m b!"author")
  let message ← decStr (getAll m b!"message")
  let path ← decStr (getAll m b!"path")
  let qri ← decStr (getAll m b!"qri")
  let signature ← decStr (getAll m b!"signature")
  let timestamp ← decTime (getAll m b!"timestamp")
  let title ← decStr (getAll m b!"title")
  let runID ← decStr (getAll m b!"runID")
  return { author, message, path, qri, signature, timestamp, title, runID }

/-- … which accepts a string as a reference -/
def Commit.dec : Val → D Commit
  | .str p => .ok { path := p }
  | .null => .ok {}
  | .obj m => Commit.decObj m
  | _ => .error .mismatch

/-! ### Structure -/

/-- structure.go:195-221 `MarshalJSONObject` -/
def Structure.fields (s : Structure) : Fields := [
  (b!"checksum", omitStr s.checksum), (b!"compression", omitStr s.compression), (b!"depth", omitInt s.depth),
  (b!"encoding", omitStr s.encoding), (b!"errCount", omitInt s.errCount), (b!"entries", omitInt s.entries),
  (b!"format", some (.str s.format)), (b!"formatConfig", omitMap s.formatConfig), (b!"length", omitInt s.length),
  (b!"path", omitStr s.path), (b!"qri", some (.str (kindOr s.qri kindStructure))), (b!"schema", omitMap s.schema),
  (b!"strict", omitBool s.strict)]
def Structure.encObj (s : Structure) : Val := .obj (encFields s.fields)

/-- structure.go:186-192 `MarshalJSON`: a reference whenever path is set and encoding and schema are not -/
def Structure.enc (s : Structure) : Val :=
  if s.path ≠ [] ∧ s.encoding = [] ∧ s.schema = none then .str s.path else s.encObj

/-- structure.go:224-239 `UnmarshalJSON` -/
def Structure.decObj (m : List (Bytes × Val)) : D Structure := do
  let checksum ← decStr (getAll m b!"checksum")
  let compression ← decStr (getAll m b!"compression")
  let depth ← decInt (getAll m b!"depth")
  let encoding ← decStr (getAll m b!"encoding")
  let errCount ← decInt (getAll m b!"errCount")
  let entries ← decInt (getAll m b!"entries")
  let format ← decStr (getAll m b!"format")
  let formatConfig ← decOpt decAnyMap (getAll m b!"formatConfig")
  let length ← decInt (getAll m b!"length")
  let path ← decStr (getAll m b!"path")
  let qri ← decStr (getAll m b!"qri")
  let schema ← decOpt decAnyMap (getAll m b!"schema")
  let strict ← decBool (getAll m b!"strict")
  return { checksum, compression, depth, encoding, errCount, entries, format, formatConfig, length, path, qri, schema, strict }

/-- … which accepts a string as a reference -/
def Structure.dec : Val → D Structure
  | .str p => .ok { path := p }
  | .null => .ok {}
  | .obj m => Structure.decObj m
  | _ => .error .mismatch

/-! ### Stats -/

/-- stats.go:63-74 -/
def Stats.fields (s : Stats) : Fields := [
  (b!"path", omitStr s.path), (b!"qri", omitStr (kindOr s.qri kindStats)), (b!"stats", omitVal s.stats)]
def Stats.encObj (s : Stats) : Val := .obj (encFields s.fields)

/-- stats.go:52-59 -/
def Stats.enc (s : Stats) : Val := if s.path ≠ [] ∧ s.isEmpty then .str s.path else s.encObj

/-- stats.go:77-91 -/
def Stats.decObj (m : List (Bytes × Val)) : D Stats := do
  let path ← decStr (getAll m b!"path")
  let qri ← decStr (getAll m b!"qri")
  let stats ← decVal (getAll m b!"stats")
  return { path, qri, stats }

/-- … which accepts a string as a reference -/
def Stats.dec : Val → D Stats
  | .str p => .ok { path := p }
  | .null => .ok {}
  | .obj m => Stats.decObj m
  | _ => .error .mismatch

/-! ### Transform -/

/-- transform.go:328-334 -/
def TransformStep.fields (s : TransformStep) : Fields := [
  (b!"name", some (.str s.name)), (b!"path", omitStr s.path), (b!"syntax", some (.str s.syntaxName)),
  (b!"category", some (.str s.category)), (b!"script", some s.script)]
def TransformStep.enc (s : TransformStep) : Val := .obj (encFields s.fields)

def TransformStep.decObj (m : List (Bytes × Val)) : D TransformStep := do
  let name ← decStr (getAll m b!"name")
  let path ← decStr (getAll m b!"path")
  let syntaxName ← decStr (getAll m b!"syntax")
  let category ← decStr (getAll m b!"category")
  let script ← decVal (getAll m b!"script")
  return { name, path, syntaxName, category, script }

def TransformStep.dec : Val → D TransformStep := decStruct TransformStep.decObj

/-- transform.go:127-129 -/
def encResource (p : Bytes) : Val := .obj (encFields [(b!"path", some (.str p))])

/-- transform.go:136-151 `TransformResource.UnmarshalJSON` -/
def decResource : Val → D Bytes
  | .str p => .ok p
  | .obj m => decStr (getAll m b!"path")
  | _ => .error .mismatch

/-- a map with each value encoded -/
def encMapOf {α : Type} (f : α → Val) (m : Option (List (Bytes × α))) : Option Val :=
  omitMap (m.map fun m => m.map fun kv => (kv.1, f kv.2))

/-- transform.go:269-292 `MarshalJSONObject`; secrets are not copied -/
def Transform.fields (q : Transform) : Fields := [
  (b!"config", omitMap q.config), (b!"path", omitStr q.path), (b!"qri", omitStr (kindOr q.qri kindTransform)),
  (b!"resources", encMapOf (ptr encResource) q.resources), (b!"scriptPath", omitStr q.scriptPath), (b!"text", omitStr q.text),
  (b!"secrets", none), (b!"steps", omitList (ptr TransformStep.enc) q.steps), (b!"syntax", omitStr q.syntaxName),
  (b!"syntaxVersion", omitStr q.syntaxVersion), (b!"syntaxes", encMapOf .str q.syntaxes)]
def Transform.encObj (q : Transform) : Val := .obj (encFields q.fields)

/-- transform.go:261-267 `MarshalJSON` -/
def Transform.enc (q : Transform) : Val := if q.path ≠ [] ∧ q.isEmpty then .str q.path else q.encObj

/-- transform.go:295-309 `UnmarshalJSON`; a secrets member is read -/
def Transform.decObj (m : List (Bytes × Val)) : D Transform := do
  let config ← decOpt decAnyMap (getAll m b!"config")
  let path ← decStr (getAll m b!"path")
  let qri ← decStr (getAll m b!"qri")
  let resources ← decOpt (decMapOf (decPtr decResource)) (getAll m b!"resources")
  let scriptPath ← decStr (getAll m b!"scriptPath")
  let text ← decStr (getAll m b!"text")
  let secrets ← decOpt (decMapOf decStrElem) (getAll m b!"secrets")
  let steps ← decOpt (decList (decPtr TransformStep.dec)) (getAll m b!"steps")
  let syntaxName ← decStr (getAll m b!"syntax")
  let syntaxVersion ← decStr (getAll m b!"syntaxVersion")
  let syntaxes ← decOpt (decMapOf decStrElem) (getAll m b!"syntaxes")
  return { config, path, qri, resources, scriptPath, text, secrets, steps, syntaxName, syntaxVersion, syntaxes }

/-- … which accepts a string as a reference -/
def Transform.dec : Val → D Transform
  | .str p => .ok { path := p }
  | .null => .ok {}
  | .obj m => Transform.decObj m
  | _ => .error .mismatch

/-! ### Readme and viz -/

/-- readme.go:248-270 `MarshalJSONObject`; the path is not written -/
def Readme.fields (r : Readme) : Fields := [
  (b!"qri", some (.str r.qri)), (b!"format", omitStr r.format), (b!"text", omitStr r.text),
  (b!"scriptPath", omitStr r.scriptPath), (b!"renderedPath", omitStr r.renderedPath)]
def Readme.encObj (r : Readme) : Val := .obj (encFields r.fields)

/-- readme.go:194-205 `MarshalJSON` (it also stores the default kind in the receiver) -/
def Readme.enc (r : Readme) : Val :=
  if r.path ≠ [] ∧ r.isEmpty then .str r.path else { r with qri := kindOr r.qri kindReadme : Readme }.encObj

/-- readme.go:210-226 -/
def Readme.decObj (m : List (Bytes × Val)) : D Readme := do
  let format ← decStr (getAll m b!"format")
  let path ← decStr (getAll m b!"path")
  let qri ← decStr (getAll m b!"qri")
  let scriptPath ← decStr (getAll m b!"scriptPath")
  let text ← decStr (getAll m b!"text")
  let renderedPath ← decStr (getAll m b!"renderedPath")
  return { format, path, qri := kindOr qri kindReadme, scriptPath, text, renderedPath }

/-- … which accepts a string as a reference -/
def Readme.dec : Val → D Readme
  | .str p => .ok { path := p }
  | .null => .ok {}
  | .obj m => Readme.decObj m
  | _ => .error .mismatch

/-- viz.go:250-272 -/
def Viz.fields (r : Viz) : Fields := [
  (b!"qri", some (.str r.qri)), (b!"format", omitStr r.format), (b!"text", omitStr r.text),
  (b!"scriptPath", omitStr r.scriptPath), (b!"renderedPath", omitStr r.renderedPath)]
def Viz.encObj (r : Viz) : Val := .obj (encFields r.fields)

/-- viz.go:197-208 -/
def Viz.enc (r : Viz) : Val :=
  if r.path ≠ [] ∧ r.isEmpty then .str r.path else { r with qri := kindOr r.qri kindViz : Viz }.encObj

/-- viz.go:211-228 -/
def Viz.decObj (m : List (Bytes × Val)) : D Viz := do
  let format ← decStr (getAll m b!"format")
  let path ← decStr (getAll m b!"path")
  let qri ← decStr (getAll m b!"qri")
  let scriptPath ← decStr (getAll m b!"scriptPath")
  let text ← decStr (getAll m b!"text")
  let renderedPath ← decStr (getAll m b!"renderedPath")
  return { format, path, qri := kindOr qri kindViz, scriptPath, text, renderedPath }

/-- … which accepts a string as a reference -/
def Viz.dec : Val → D Viz
  | .str p => .ok { path := p }
  | .null => .ok {}
  | .obj m => Viz.decObj m
  | _ => .error .mismatch

/-! ### Meta -/

/-- a non-nil slice is written even when empty -/
def putList {α : Type} (f : α → Val) (l : Option (List α)) : Option Val := l.map fun l => .arr (l.map f)

/-- meta.go:321-371: the standard fields written over the arbitrary ones -/
def Meta.fields (m : Meta) : Fields := [
  (b!"qri", some (.str kindMeta)), (b!"accessURL", omitStr m.accessURL), (b!"citations", putList (ptr Citation.enc) m.citations),
  (b!"contributors", putList (ptr User.enc) m.contributors), (b!"description", omitStr m.description),
  (b!"downloadURL", omitStr m.downloadURL), (b!"homeURL", omitStr m.homeURL), (b!"identifier", omitStr m.identifier),
  (b!"keywords", putList .str m.keywords), (b!"language", putList .str m.language), (b!"license", m.license.map License.enc),
  (b!"path", omitStr m.path), (b!"readmeURL", omitStr m.readmeURL), (b!"theme", putList .str m.theme), (b!"title", omitStr m.title),
  (b!"accrualPeriodicity", omitStr m.accrualPeriodicity), (b!"version", omitStr m.version)]

/-- meta.go:318-373 `MarshalJSONObject` -/
def Meta.encObj (m : Meta) : Val := .obj (putFields (m.arbitrary.getD []) m.fields)

/-- meta.go:306-314 `MarshalJSON` -/
def Meta.enc (m : Meta) : Val := if m.path ≠ [] ∧ m.isEmpty then .str m.path else m.encObj

/-- meta.go:397-419: names deleted from the arbitrary entries ("keywords" is missing) -/
def metaReserved : List Bytes :=
  [b!"accessURL", b!"accrualPeriodicity", b!"citations", b!"contributors", b!"data", b!"description", b!"downloadURL", b!"homeURL",
   b!"identifier", b!"image", b!"keyword", b!"path", b!"qri", b!"language", b!"length", b!"license", b!"readmeURL", b!"theme",
   b!"timestamp", b!"title", b!"version"]

/-- meta.go:379-428 `UnmarshalJSON` -/
def Meta.decObj (m : List (Bytes × Val)) : D Meta := do
  let accessURL ← decStr (getAll m b!"accessURL")
  let accrualPeriodicity ← decStr (getAll m b!"accrualPeriodicity")
  let citations ← decOpt (decList (decPtr Citation.dec)) (getAll m b!"citations")
  let contributors ← decOpt (decList (decPtr User.dec)) (getAll m b!"contributors")
  let description ← decStr (getAll m b!"description")
  let downloadURL ← decStr (getAll m b!"downloadURL")
  let homeURL ← decStr (getAll m b!"homeURL")
  let identifier ← decStr (getAll m b!"identifier")
  let keywords ← decOpt (decList decStrElem) (getAll m b!"keywords")
  let language ← decOpt (decList decStrElem) (getAll m b!"language")
  let license ← decOpt License.dec (getAll m b!"license")
  let path ← decStr (getAll m b!"path")
  let qri ← decStr (getAll m b!"qri")
  let readmeURL ← decStr (getAll m b!"readmeURL")
  let title ← decStr (getAll m b!"title")
  let theme ← decOpt (decList decStrElem) (getAll m b!"theme")
  let version ← decStr (getAll m b!"version")
  let rest := metaReserved.foldl mapDel m
  if isJsonM rest then
    return { arbitrary := if rest = [] then none else some rest, accessURL, accrualPeriodicity, citations, contributors, description,
             downloadURL, homeURL, identifier, keywords, language, license, path, qri, readmeURL, title, theme, version }
  else .error .outside

/-- … which accepts a string as a reference -/
def Meta.dec : Val → D Meta
  | .str p => .ok { path := p }
  | .null => .ok {}
  | .obj m => Meta.decObj m
  | _ => .error .mismatch

/-! ### Dataset -/

/-- an optional component whose encoding may fail -/
def encComp {α : Type} (f : α → Option Val) : Option α → Option (Option Val)
  | none => some none
  | some x => (f x).map some

/-- `[]byte` with `omitempty` -/
def omitBytes : Option Bytes → Option Val
  | none | some [] => none
  | some b => some (.str (b64enc b))

/-- `[]byte`; an array of numbers is read too, which is left out -/
def decBytes : Val → D Bytes
  | .str s => match b64decNL s with | some b => .ok b | none => .error .mismatch
  | .arr _ => .error .outside
  | _ => .error .mismatch

/-- dataset.go:433-445 `MarshalJSON` (it also stores the default kind in the receiver) -/
def Dataset.fields (d : Dataset) (cm : Option Val) : Fields := [
    (b!"body", omitVal d.body), (b!"bodyBytes", omitBytes d.bodyBytes), (b!"bodyPath", omitStr d.bodyPath), (b!"commit", cm),
    (b!"id", omitStr d.id), (b!"meta", d.meta_.map Meta.enc), (b!"name", omitStr d.name), (b!"path", omitStr d.path),
    (b!"peername", omitStr d.peername), (b!"previousPath", omitStr d.previousPath), (b!"profileID", omitStr d.profileID),
    (b!"readme", d.readme.map Readme.enc), (b!"numVersions", omitInt d.numVersions), (b!"qri", some (.str (kindOr d.qri kindDataset))),
    (b!"structure", d.structure_.map Structure.enc), (b!"stats", d.stats.map Stats.enc), (b!"transform", d.transform.map Transform.enc),
    (b!"viz", d.viz.map Viz.enc)]
def Dataset.enc (d : Dataset) : Option Val :=
  if d.path ≠ [] ∧ d.isEmpty then some (.str d.path)
  else (encComp Commit.enc d.commit).map fun cm => .obj (encFields (d.fields cm))

/-- dataset.go:451-465 `UnmarshalJSON` -/
def Dataset.decObj (m : List (Bytes × Val)) : D Dataset := do
  let body ← decVal (getAll m b!"body")
  let bodyBytes ← decOpt decBytes (getAll m b!"bodyBytes")
  let bodyPath ← decStr (getAll m b!"bodyPath")
  let commit ← decOpt Commit.dec (getAll m b!"commit")
  let id ← decStr (getAll m b!"id")
  let meta_ ← decOpt Meta.dec (getAll m b!"meta")
  let name ← decStr (getAll m b!"name")
  let path ← decStr (getAll m b!"path")
  let peername ← decStr (getAll m b!"peername")
  let previousPath ← decStr (getAll m b!"previousPath")
  let profileID ← decStr (getAll m b!"profileID")
  let readme ← decOpt Readme.dec (getAll m b!"readme")
  let numVersions ← decInt (getAll m b!"numVersions")
  let qri ← decStr (getAll m b!"qri")
  let structure_ ← decOpt Structure.dec (getAll m b!"structure")
  let stats ← decOpt Stats.dec (getAll m b!"stats")
  let transform ← decOpt Transform.dec (getAll m b!"transform")
  let viz ← decOpt Viz.dec (getAll m b!"viz")
  return { body, bodyBytes, bodyPath, commit, id, meta_, name, path, peername, previousPath, profileID, readme, numVersions, qri,
           structure_, stats, transform, viz }

/-- … which accepts a string as a reference -/
def Dataset.dec : Val → D Dataset
  | .str p => .ok { path := p }
  | .null => .ok {}
  | .obj m => Dataset.decObj m
  | _ => .error .mismatch

end Verif.Doc
