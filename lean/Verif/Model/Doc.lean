import Verif.Go.Val
import Verif.Go.Strconv
/-
Model of the dataset document: dataset.go, commit.go, meta.go, structure.go, stats.go,
transform.go, readme.go, viz.go, kind.go – types, emptiness, dropping of values, merging
(`Assign`), path map and signing bytes.

Representation:
* a string field is a byte string, the empty string is `[]`;
* a nil-able map or slice is an `Option`;
* an `interface{}` field is a `Val`, nil is `Val.null`;
* an open file (`qfs.File`) is an opaque number;
* a component pointer is an `Option` of the component (sharing of pointers is modelled
  separately in Verif/Model/DocHeap.lean).
-/
namespace Verif.Doc

/-- `time.Time` as its date and clock fields in UTC.  (Package `time` provides the bijection
between instants and valid such tuples; time zones only affect display.) -/
structure Time where
  year : Int := 1
  month : Nat := 1
  day : Nat := 1
  hour : Nat := 0
  minute : Nat := 0
  second : Nat := 0
  nanos : Nat := 0
deriving DecidableEq

/-- clock fields are in range -/
def Time.Valid (t : Time) : Prop :=
  t.month ≤ 12 ∧ t.day ≤ 31 ∧ t.hour < 24 ∧ t.minute < 60 ∧ t.second < 60 ∧ t.nanos < 1000000000

instance (t : Time) : Decidable t.Valid := inferInstanceAs (Decidable (_ ∧ _))

/-- `Time.IsZero`: January 1, year 1, 00:00:00 UTC -/
def Time.isZero (t : Time) : Bool := t = {}

/-- opaque identity of an open file -/
abbrev File := Nat

/-- meta.go:431-435 -/
structure User where
  id : Bytes := []
  fullname : Bytes := []
  email : Bytes := []
deriving DecidableEq

/-- meta.go:456-459 -/
structure License where
  type : Bytes := []
  url : Bytes := []
deriving DecidableEq

/-- meta.go:478-482 -/
structure Citation where
  name : Bytes := []
  url : Bytes := []
  email : Bytes := []
deriving DecidableEq

/-- commit.go:14-34 -/
structure Commit where
  author : Option User := none
  message : Bytes := []
  path : Bytes := []
  qri : Bytes := []
  signature : Bytes := []
  timestamp : Time := {}
  title : Bytes := []
  runID : Bytes := []
deriving DecidableEq

/-- meta.go:17-64; elements of `citations` and `contributors` are pointers -/
structure Meta where
  arbitrary : Option (List (Bytes × Val)) := none
  accessURL : Bytes := []
  accrualPeriodicity : Bytes := []
  citations : Option (List (Option Citation)) := none
  contributors : Option (List (Option User)) := none
  description : Bytes := []
  downloadURL : Bytes := []
  homeURL : Bytes := []
  identifier : Bytes := []
  keywords : Option (List Bytes) := none
  language : Option (List Bytes) := none
  license : Option License := none
  path : Bytes := []
  qri : Bytes := []
  readmeURL : Bytes := []
  title : Bytes := []
  theme : Option (List Bytes) := none
  version : Bytes := []
deriving DecidableEq

/-- structure.go:29-77 -/
structure Structure where
  checksum : Bytes := []
  compression : Bytes := []
  depth : Int := 0
  encoding : Bytes := []
  errCount : Int := 0
  entries : Int := 0
  format : Bytes := []
  formatConfig : Option (List (Bytes × Val)) := none
  length : Int := 0
  path : Bytes := []
  qri : Bytes := []
  schema : Option (List (Bytes × Val)) := none
  strict : Bool := false
deriving DecidableEq

/-- stats.go:7-11 -/
structure Stats where
  path : Bytes := []
  qri : Bytes := []
  stats : Val := .null
deriving DecidableEq

/-- transform.go:328-334 -/
structure TransformStep where
  name : Bytes := []
  path : Bytes := []
  syntaxName : Bytes := []
  category : Bytes := []
  script : Val := .null
deriving DecidableEq

/-- transform.go:19-52; a resource is a pointer to a path -/
structure Transform where
  config : Option (List (Bytes × Val)) := none
  path : Bytes := []
  qri : Bytes := []
  resources : Option (List (Bytes × Option Bytes)) := none
  scriptFile : Option File := none
  scriptPath : Bytes := []
  text : Bytes := []
  secrets : Option (List (Bytes × Bytes)) := none
  steps : Option (List (Option TransformStep)) := none
  syntaxName : Bytes := []
  syntaxVersion : Bytes := []
  syntaxes : Option (List (Bytes × Bytes)) := none
deriving DecidableEq

/-- readme.go:14-35 -/
structure Readme where
  format : Bytes := []
  path : Bytes := []
  qri : Bytes := []
  scriptFile : Option File := none
  renderedFile : Option File := none
  scriptPath : Bytes := []
  text : Bytes := []
  renderedPath : Bytes := []
deriving DecidableEq

/-- viz.go:14-35 -/
structure Viz where
  format : Bytes := []
  path : Bytes := []
  qri : Bytes := []
  scriptFile : Option File := none
  renderedFile : Option File := none
  scriptPath : Bytes := []
  text : Bytes := []
  renderedPath : Bytes := []
deriving DecidableEq

/-- dataset.go:46-94 -/
structure Dataset where
  bodyFile : Option File := none
  body : Val := .null
  bodyBytes : Option Bytes := none
  bodyPath : Bytes := []
  commit : Option Commit := none
  id : Bytes := []
  meta_ : Option Meta := none
  name : Bytes := []
  path : Bytes := []
  peername : Bytes := []
  previousPath : Bytes := []
  profileID : Bytes := []
  readme : Option Readme := none
  numVersions : Int := 0
  qri : Bytes := []
  structure_ : Option Structure := none
  stats : Option Stats := none
  transform : Option Transform := none
  viz : Option Viz := none
deriving DecidableEq

/-! ### Kinds (kind.go) -/

/-- kind.go:11-30: kind strings; `CurrentSpecVersion` is "0" -/
def kindDataset : Bytes := b!"ds:0"
def kindBody : Bytes := b!"bd:0"
def kindMeta : Bytes := b!"md:0"
def kindStructure : Bytes := b!"st:0"
def kindTransform : Bytes := b!"tf:0"
def kindCommit : Bytes := b!"cm:0"
def kindViz : Bytes := b!"vz:0"
def kindReadme : Bytes := b!"rm:0"
def kindStats : Bytes := b!"sa:0"

/-- kind.go:54-56 `Type` (panics below two bytes; all uses are on the constants above) -/
def kindType (k : Bytes) : Bytes := k.take 2

/-- kind.go:77-79 `ComponentTypePrefix` -/
def componentTypePrefix (k s : Bytes) : Bytes := kindType k ++ 58 :: s

/-! ### IsEmpty -/

/-- commit.go:56-63 -/
def Commit.isEmpty (c : Commit) : Bool :=
  c.author = none && c.message = [] && c.signature = [] && c.timestamp.isZero && c.title = [] && c.runID = []

/-- meta.go:79-95; the arbitrary entries are not looked at -/
def Meta.isEmpty (m : Meta) : Bool :=
  m.accessURL = [] && m.accrualPeriodicity = [] && m.citations = none && m.contributors = none && m.description = [] &&
  m.downloadURL = [] && m.homeURL = [] && m.identifier = [] && m.keywords = none && m.language = none &&
  m.license = none && m.readmeURL = [] && m.title = [] && m.theme = none && m.version = []

/-- structure.go:247-259 -/
def Structure.isEmpty (s : Structure) : Bool :=
  s.checksum = [] && s.compression = [] && s.depth = 0 && s.encoding = [] && s.entries = 0 && s.errCount = 0 &&
  s.format = [] && s.formatConfig = none && s.length = 0 && s.schema = none && !s.strict

/-- stats.go:25-27 -/
def Stats.isEmpty (s : Stats) : Bool := s.stats = .null

/-- transform.go:160-170 -/
def Transform.isEmpty (q : Transform) : Bool :=
  q.config = none && q.resources = none && q.text = [] && q.scriptPath = [] && q.secrets = none && q.steps = none &&
  q.syntaxName = [] && q.syntaxVersion = [] && q.syntaxes = none

/-- readme.go:154-159 -/
def Readme.isEmpty (r : Readme) : Bool := r.format = [] && r.text = [] && r.scriptPath = [] && r.renderedPath = []

/-- viz.go:154-159 -/
def Viz.isEmpty (v : Viz) : Bool := v.format = [] && v.text = [] && v.scriptPath = [] && v.renderedPath = []

/-- dataset.go:97-113 -/
def Dataset.isEmpty (d : Dataset) : Bool :=
  d.body = .null && d.bodyBytes = none && d.bodyPath = [] && d.commit = none && d.id = [] && d.meta_ = none &&
  d.name = [] && d.peername = [] && d.previousPath = [] && d.profileID = [] && d.structure_ = none &&
  d.transform = none && d.readme = none && d.stats = none && d.viz = none

/-! ### Dropping values -/

/-- commit.go:44-46 -/
def Commit.dropTransient (c : Commit) : Commit := { c with path := [] }
/-- commit.go:50-53 -/
def Commit.dropDerived (c : Commit) : Commit := { c with path := [], qri := [] }
/-- meta.go:68-70 -/
def Meta.dropTransient (m : Meta) : Meta := { m with path := [] }
/-- meta.go:73-76 -/
def Meta.dropDerived (m : Meta) : Meta := { m with path := [], qri := [] }
/-- structure.go:87-89 -/
def Structure.dropTransient (s : Structure) : Structure := { s with path := [] }
/-- structure.go:92-100 -/
def Structure.dropDerived (s : Structure) : Structure :=
  { s with checksum := [], depth := 0, errCount := 0, entries := 0, length := 0, path := [], qri := [] }
/-- stats.go:19-22 -/
def Stats.dropDerived (s : Stats) : Stats := { s with qri := [], path := [] }
/-- transform.go:56-60 -/
def Transform.dropTransient (q : Transform) : Transform := { q with path := [], secrets := none, text := [] }
/-- transform.go:63-66 -/
def Transform.dropDerived (q : Transform) : Transform := { q with qri := [], path := [] }
/-- readme.go:44-47 -/
def Readme.dropTransient (r : Readme) : Readme := { r with path := [], text := [] }
/-- readme.go:50-53 -/
def Readme.dropDerived (r : Readme) : Readme := { r with qri := [], path := [] }
/-- viz.go:44-47 -/
def Viz.dropTransient (v : Viz) : Viz := { v with path := [], text := [] }
/-- viz.go:50-53 -/
def Viz.dropDerived (v : Viz) : Viz := { v with qri := [], path := [] }

/-- dataset.go:240-248 -/
def Dataset.dropTransient (d : Dataset) : Dataset :=
  { d with body := .null, bodyBytes := none, name := [], peername := [], path := [], profileID := [], numVersions := 0 }

/-- dataset.go:251-276 -/
def Dataset.dropDerived (d : Dataset) : Dataset :=
  { d with
    qri := [], path := []
    commit := d.commit.map Commit.dropDerived
    meta_ := d.meta_.map Meta.dropDerived
    structure_ := d.structure_.map Structure.dropDerived
    transform := d.transform.map Transform.dropDerived
    readme := d.readme.map Readme.dropDerived
    stats := d.stats.map Stats.dropDerived
    viz := d.viz.map Viz.dropDerived }

/-! ### Assign -/

/-- `if src != "" { dst = src }` -/
def setStr (dst src : Bytes) : Bytes := if src = [] then dst else src
/-- `if src != nil { dst = src }` -/
def setOpt {α : Type} (dst src : Option α) : Option α := match src with | none => dst | some x => some x
/-- `if src != 0 { dst = src }` -/
def setInt (dst src : Int) : Int := if src = 0 then dst else src
/-- `if src != nil { dst = src }` for an `interface{}` -/
def setVal (dst src : Val) : Val := if src = .null then dst else src
/-- `if !src.IsZero() { dst = src }` -/
def setTime (dst src : Time) : Time := if src.isZero then dst else src
/-- merge a map key by key into a possibly nil map -/
def mergeMap {α : Type} (dst src : Option (List (Bytes × α))) : Option (List (Bytes × α)) :=
  match src with
  | none => dst
  | some m => some (m.foldl (fun acc kv => mapSet acc kv.1 kv.2) (dst.getD []))

/-- commit.go:73-96: one argument of `Assign` -/
def Commit.assign1 (c m : Commit) : Commit where
  author := setOpt c.author m.author
  message := setStr c.message m.message
  path := setStr c.path m.path
  qri := setStr c.qri m.qri
  signature := setStr c.signature m.signature
  title := setStr c.title m.title
  timestamp := setTime c.timestamp m.timestamp
  runID := setStr c.runID m.runID

/-- meta.go:246-300 -/
def Meta.assign1 (d m : Meta) : Meta where
  arbitrary := setOpt d.arbitrary m.arbitrary
  accessURL := setStr d.accessURL m.accessURL
  accrualPeriodicity := setStr d.accrualPeriodicity m.accrualPeriodicity
  citations := setOpt d.citations m.citations
  contributors := setOpt d.contributors m.contributors
  description := setStr d.description m.description
  downloadURL := setStr d.downloadURL m.downloadURL
  homeURL := setStr d.homeURL m.homeURL
  identifier := setStr d.identifier m.identifier
  keywords := setOpt d.keywords m.keywords
  language := setOpt d.language m.language
  license := setOpt d.license m.license
  path := setStr d.path m.path
  qri := setStr d.qri m.qri
  readmeURL := setStr d.readmeURL m.readmeURL
  theme := setOpt d.theme m.theme
  title := setStr d.title m.title
  version := setStr d.version m.version

/-- structure.go:269-312 -/
def Structure.assign1 (d s : Structure) : Structure where
  path := setStr d.path s.path
  checksum := setStr d.checksum s.checksum
  compression := setStr d.compression s.compression
  depth := setInt d.depth s.depth
  encoding := setStr d.encoding s.encoding
  entries := setInt d.entries s.entries
  errCount := setInt d.errCount s.errCount
  format := setStr d.format s.format
  formatConfig := setOpt d.formatConfig s.formatConfig
  qri := setStr d.qri s.qri
  length := setInt d.length s.length
  schema := setOpt d.schema s.schema
  strict := if s.strict then s.strict else d.strict

/-- stats.go:36-44 -/
def Stats.assign1 (d s : Stats) : Stats where
  stats := setVal d.stats s.stats
  path := setStr d.path s.path
  qri := setStr d.qri s.qri

/-- transform.go:204-254 -/
def Transform.assign1 (d s : Transform) : Transform where
  config := mergeMap d.config s.config
  path := setStr d.path s.path
  qri := setStr d.qri s.qri
  resources := mergeMap d.resources s.resources
  scriptFile := setOpt d.scriptFile s.scriptFile
  text := setStr d.text s.text
  scriptPath := setStr d.scriptPath s.scriptPath
  secrets := mergeMap d.secrets s.secrets
  steps := setOpt d.steps s.steps
  syntaxName := setStr d.syntaxName s.syntaxName
  syntaxVersion := setStr d.syntaxVersion s.syntaxVersion
  syntaxes := setOpt d.syntaxes s.syntaxes

/-- readme.go:169-189; `renderedFile` is not assigned -/
def Readme.assign1 (d s : Readme) : Readme :=
  { d with
    format := setStr d.format s.format
    path := setStr d.path s.path
    qri := setStr d.qri s.qri
    text := setStr d.text s.text
    scriptFile := setOpt d.scriptFile s.scriptFile
    scriptPath := setStr d.scriptPath s.scriptPath
    renderedPath := setStr d.renderedPath s.renderedPath }

/-- viz.go:169-189; `renderedFile` is not assigned -/
def Viz.assign1 (d s : Viz) : Viz :=
  { d with
    format := setStr d.format s.format
    path := setStr d.path s.path
    qri := setStr d.qri s.qri
    text := setStr d.text s.text
    scriptFile := setOpt d.scriptFile s.scriptFile
    scriptPath := setStr d.scriptPath s.scriptPath
    renderedPath := setStr d.renderedPath s.renderedPath }

/-- the loop of every `Assign`: nil arguments are skipped (e.g. commit.go:67-72) -/
def assignAll {α : Type} (assign1 : α → α → α) : α → List (Option α) → α
  | x, [] => x
  | x, none :: l => assignAll assign1 x l
  | x, some y :: l => assignAll assign1 (assign1 x y) l

def Commit.assign : Commit → List (Option Commit) → Commit := assignAll Commit.assign1
def Meta.assign : Meta → List (Option Meta) → Meta := assignAll Meta.assign1
def Structure.assign : Structure → List (Option Structure) → Structure := assignAll Structure.assign1
def Stats.assign : Stats → List (Option Stats) → Stats := assignAll Stats.assign1
def Transform.assign : Transform → List (Option Transform) → Transform := assignAll Transform.assign1
def Readme.assign : Readme → List (Option Readme) → Readme := assignAll Readme.assign1
def Viz.assign : Viz → List (Option Viz) → Viz := assignAll Viz.assign1

/-- dataset.go:372-376 and alike: adopt the component if there is none yet, else merge -/
def assignComp {α : Type} (assign : α → List (Option α) → α) (dst src : Option α) : Option α :=
  match dst with
  | none => src
  | some x => some (assign x [src])

/-- dataset.go:358-427, with components as values (no sharing of pointers; see DocHeap.lean).
`Qri` and `NumVersions` are not assigned. -/
def Dataset.assign1 (d s : Dataset) : Dataset :=
  { d with
    body := setVal d.body s.body
    bodyBytes := setOpt d.bodyBytes s.bodyBytes
    bodyFile := setOpt d.bodyFile s.bodyFile
    bodyPath := setStr d.bodyPath s.bodyPath
    -- dataset.go:427 assigns the commit a second time
    commit := (assignComp Commit.assign d.commit s.commit).map fun c => c.assign [s.commit]
    id := if d.id = [] ∧ s.id ≠ [] then s.id else d.id
    meta_ := assignComp Meta.assign d.meta_ s.meta_
    name := setStr d.name s.name
    path := setStr d.path s.path
    peername := setStr d.peername s.peername
    previousPath := setStr d.previousPath s.previousPath
    profileID := setStr d.profileID s.profileID
    stats := assignComp Stats.assign d.stats s.stats
    structure_ := assignComp Structure.assign d.structure_ s.structure_
    transform := assignComp Transform.assign d.transform s.transform
    viz := assignComp Viz.assign d.viz s.viz
    readme := assignComp Readme.assign d.readme s.readme }

/-- dataset.go:352-429 `Assign` -/
def Dataset.assign : Dataset → List (Option Dataset) → Dataset := assignAll Dataset.assign1

/-! ### PathMap -/

/-- one `if present && !igMap[name] { componentPaths[name] = path }` -/
def putPath (ignore : List Bytes) (name : Bytes) (path : Option Bytes) (m : List (Bytes × Bytes)) : List (Bytes × Bytes) :=
  match path with
  | none => m
  | some p => if name ∈ ignore then m else mapSet m name p

/-- a path field that counts only when set -/
def nonEmpty (s : Bytes) : Option Bytes := if s = [] then none else some s

/-- dataset.go:126-166 `PathMap` of a non-nil dataset -/
def Dataset.pathMap (d : Dataset) (ignore : List Bytes) : List (Bytes × Bytes) :=
  putPath ignore b!"stats" (d.stats.map Stats.path) <|
  putPath ignore b!"viz" (d.viz.map Viz.path) <|
  putPath ignore b!"transform" (d.transform.map Transform.path) <|
  putPath ignore b!"structure" (d.structure_.map Structure.path) <|
  putPath ignore b!"readme" (d.readme.map Readme.path) <|
  putPath ignore b!"dataset" (nonEmpty d.path) <|
  putPath ignore b!"meta" (d.meta_.map Meta.path) <|
  putPath ignore b!"commit" (d.commit.map Commit.path) <|
  putPath ignore b!"body" (nonEmpty d.bodyPath) []

/-! ### Signing -/

/-- zero-padded decimal of at least `w` digits (package time `appendInt`) -/
def padNat (w n : Nat) : Bytes := List.replicate (w - (fmtNat n).length) 48 ++ fmtNat n

/-- the year, at least four digits, with a sign when negative -/
def fmtYear (y : Int) : Bytes := if y < 0 then 45 :: padNat 4 (-y).toNat else padNat 4 y.toNat

/-- `t.UTC().Format(time.RFC3339)`: `2006-01-02T15:04:05Z` -/
def rfc3339 (t : Time) : Bytes :=
  fmtYear t.year ++ 45 :: padNat 2 t.month ++ 45 :: padNat 2 t.day ++ 84 :: padNat 2 t.hour ++ 58 :: padNat 2 t.minute ++
    58 :: padNat 2 t.second ++ [90]

/-- `strings.Join(lines, "\n")` -/
def joinLines : List Bytes → Bytes
  | [] => []
  | [l] => l
  | l :: k :: ls => l ++ 10 :: joinLines (k :: ls)

/-- one optional line of the signing bytes -/
def sigLine (kind : Bytes) (v : Bytes) : List Bytes := if v = [] then [] else [componentTypePrefix kind v]

/-- dataset.go:185-213: the lines, in order -/
def Dataset.sigLines (d : Dataset) : List Bytes :=
  (if d.id = [] then [] else [b!"id:" ++ d.id]) ++
  sigLine kindBody d.bodyPath ++
  (match d.commit with
    | some c => if c.timestamp.isZero then [] else [componentTypePrefix kindCommit (rfc3339 c.timestamp)]
    | none => []) ++
  sigLine kindMeta ((d.meta_.map Meta.path).getD []) ++
  sigLine kindReadme ((d.readme.map Readme.path).getD []) ++
  sigLine kindStructure ((d.structure_.map Structure.path).getD []) ++
  sigLine kindTransform ((d.transform.map Transform.path).getD []) ++
  sigLine kindStats ((d.stats.map Stats.path).getD []) ++
  sigLine kindViz ((d.viz.map Viz.path).getD [])

/-- dataset.go:184-216 `SigningBytes` -/
def Dataset.signingBytes (d : Dataset) : Bytes := joinLines d.sigLines

/-- dataset.go:225-233 `SignableBytes` -/
def Dataset.signableBytes (d : Dataset) : Option Bytes :=
  match d.commit, d.structure_ with
  | some c, some s => some (rfc3339 c.timestamp ++ 10 :: s.checksum)
  | _, _ => none

end Verif.Doc
