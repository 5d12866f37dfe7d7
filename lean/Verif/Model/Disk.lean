import Verif.Model.Compare
import Verif.Model.Config
import Verif.Model.Detect
import Verif.Model.DocText
import Verif.Model.Files
/-
Files on disk: detection from a path (detect/detect.go:113-127), step files (stepfile/stepfile.go:26-35), test cases and golden
files of package dstest (dstest/dstest.go:78-330, dstest/golden.go).

Representation: a disk says what there is at a path.

Simplifications:
* `filepath.Join(dir, name)` and `fmt.Sprintf("%s/%s", dir, name)` are both the directory, a slash and the name; `Join` also
  cleans the path, which does not change what it names as long as there are no symbolic links and the path is not empty;
* `testCaseCache` (dstest.go:76, 255-257) is only ever written and is left out, as are log messages and texts of errors;
* the file that `ioutil.WriteFile` writes is complete or the function panics.
-/
set_option autoImplicit false
namespace Verif.Disk
open Verif.Doc

/-- what there is at a path: nothing, something that cannot be opened, a directory with the names of its entries and whether
they are directories, or a file with the bytes it delivers and whether an error follows instead of the end -/
inductive Node where
  | absent
  | denied
  | dir (entries : List (Bytes × Bool))
  | file (data : Bytes) (fails : Bool)
deriving DecidableEq

abbrev Disk := Bytes → Node

/-- a path in a directory -/
def inDir (dir name : Bytes) : Bytes := dir ++ 47 :: name

/-- `os.Open` and reading to the end: none if it cannot be opened, else the bytes and whether reading failed -/
def Node.open_ : Node → Option (Bytes × Bool)
  | .absent => none
  | .denied => none
  | .dir _ => some ([], true)
  | .file data fails => some (data, fails)

/-- errors of `ioutil.ReadFile`: with `os.IsNotExist`, or not -/
inductive ReadErr where
  | notExist
  | other
deriving DecidableEq

/-- `ioutil.ReadFile` -/
def Node.readFile : Node → Except ReadErr Bytes
  | .absent => .error .notExist
  | .file data false => .ok data
  | _ => .error .other

/-! ### Detection and step files -/

inductive FromErr where
  | opening
  | name
  | detect (e : Detect.Err)

/-- a file as a source: everything is delivered in one call or many (`cut` says where), then the end or an error -/
def source (cut : Bytes → List Bytes) (n : Node) : Option Detect.Src :=
  match n.open_ with
  | none => none
  | some (data, fails) => some { chunks := cut data, last := [], err := if fails then .other b!"read" else .eof }

/-- detect.go:113-127 `FromFile` -/
def fromFile (E : Detect.Env) (cut : Bytes → List Bytes) (disk : Disk) (path : Bytes) : Except FromErr Structure :=
  match source cut (disk path) with
  | none => .error .opening
  | some src =>
    match Names.formatFromFilename path with
    | none => .error .name
    | some (format, comp) =>
      match (Detect.fromReader E format comp src).1 with
      | .error e => .error (.detect e)
      | .ok st => .ok st

/-- stepfile.go:27-34 `ReadFile` -/
def readSteps (disk : Disk) (path : Bytes) : Option (List Config.Script) :=
  match (disk path).open_ with
  | none => none
  | some (_, true) => none
  | some (data, false) => some (Config.read data)

/-! ### Test cases (dstest/dstest.go) -/

/-- `filepath.Base`: the last element, without slashes after it -/
def base (path : Bytes) : Bytes :=
  if path = [] then b!"."
  else
    let p := (path.reverse.dropWhile (· = 47)).takeWhile (· ≠ 47)
    if p = [] then b!"/" else p.reverse

/-- data_format.go:43-51 `SupportedDataFormats` -/
def supported : List Names.DataFormat := [.cbor, .json, .csv, .xlsx, .ndjson]

/-- the name of the body file of a format -/
def bodyName (df : Names.DataFormat) : Bytes := b!"body." ++ df.string

/-- dstest.go:120-128 `BodyFilepath`: the path, none for `os.ErrNotExist` -/
def bodyFilepath (disk : Disk) (dir : Bytes) : Option Bytes :=
  (supported.find? fun df => !decide (disk (inDir dir (bodyName df)) = .absent)).map fun df => inDir dir (bodyName df)

/-- an optional part of a test case: not there (`os.ErrNotExist`), an error of reading, or data and the file name -/
inductive Part where
  | none
  | failed
  | found (name data : Bytes)
deriving DecidableEq

/-- dstest.go:293-330 `ReadInputTransformScript`, `ReadInputVizScript`, `ReadInputReadmeScript` with their file names -/
def readScript (disk : Disk) (dir name : Bytes) : Part :=
  match (disk (inDir dir name)).open_ with
  | Option.none => .none
  | some (_, true) => .failed
  | some (data, false) => .found name data

/-- dstest.go:275-290 `ReadBodyData` -/
def readBody (disk : Disk) (dir : Bytes) : List Names.DataFormat → Part
  | [] => .none
  | df :: l =>
    match (disk (inDir dir (bodyName df))).open_ with
    | Option.none => readBody disk dir l
    | some (_, true) => .failed
    | some (data, false) => .found (bodyName df) data

inductive ReadDs where
  | none
  | failed
  | found (d : Dataset)

/-- dstest.go:263-272 `ReadDataset` -/
def readDataset (F : FloatCodec) (disk : Disk) (dir name : Bytes) : ReadDs :=
  match (disk (inDir dir name)).readFile with
  | .error .notExist => .none
  | .error .other => .failed
  | .ok data =>
    match DocText.read (DocText.dataset F) data with
    | .error _ => .failed
    | .ok d => .found d

/-- dstest.go:35-62 `TestCase` -/
structure TestCase where
  path : Bytes
  name : Bytes
  bodyFilename : Bytes := []
  body : Option Bytes := none
  transformScriptFilename : Bytes := []
  transformScript : Option Bytes := none
  vizScriptFilename : Bytes := []
  vizScript : Option Bytes := none
  readmeScriptFilename : Bytes := []
  readmeScript : Option Bytes := none
  input : Dataset := {}
  expect : Option Dataset := none

/-- which step of `NewTestCaseFromDir` failed -/
inductive CaseErr where
  | input
  | body
  | transform
  | viz
  | readme
  | expect
  | noData
deriving DecidableEq

/-- a test case in the making: with whether any data was found, and the files -/
abbrev Making := TestCase × Bool × Files.World

/-- an optional part: if it is there, a new file in memory holds it -/
def optional (p : Part) (e : CaseErr) (memName : Bytes → Bytes) (set : TestCase → Bytes → Bytes → File → TestCase) : Making → Except CaseErr Making
  | (tc, found, w) =>
    match p with
    | .none => .ok (tc, found, w)
    | .failed => .error e
    | .found name data =>
      let (f, w) := Files.memfile w (memName name) data
      .ok (set tc name data f, true, w)

/-- dstest.go:194-195 -/
def setBody (tc : TestCase) (name data : Bytes) (f : File) : TestCase :=
  { tc with body := some data, bodyFilename := name, input := { tc.input with bodyFile := some f } }

/-- dstest.go:207-210 -/
def setTransform (tc : TestCase) (name data : Bytes) (f : File) : TestCase :=
  { tc with
    transformScript := some data, transformScriptFilename := name
    input := { tc.input with transform := some { tc.input.transform.getD {} with scriptFile := some f } } }

/-- dstest.go:222-225 -/
def setViz (tc : TestCase) (name data : Bytes) (f : File) : TestCase :=
  { tc with
    vizScript := some data, vizScriptFilename := name
    input := { tc.input with viz := some { tc.input.viz.getD {} with scriptFile := some f } } }

/-- dstest.go:237-240 -/
def setReadme (tc : TestCase) (name data : Bytes) (f : File) : TestCase :=
  { tc with
    readmeScript := some data, readmeScriptFilename := name
    input := { tc.input with readme := some { tc.input.readme.getD {} with scriptFile := some f } } }

/-- dstest.go:168-183: the input dataset, named after the directory -/
def startCase (F : FloatCodec) (disk : Disk) (dir : Bytes) (w : Files.World) : Except CaseErr Making :=
  let name := base dir
  match readDataset F disk dir b!"input.dataset.json" with
  | .none => .ok ({ path := dir, name, input := { name } }, false, w)
  | .failed => .error .input
  | .found d => .ok ({ path := dir, name, input := { d with name } }, true, w)

/-- dstest.go:243-256: the expected dataset, and whether anything was found -/
def endCase (F : FloatCodec) (disk : Disk) (dir : Bytes) : Making → Except CaseErr (TestCase × Files.World)
  | (tc, found, w) =>
    match readDataset F disk dir b!"expect.dataset.json" with
    | .none => if found then .ok (tc, w) else .error .noData
    | .failed => .error .expect
    | .found d => .ok ({ tc with expect := some d }, w)

/-- dstest.go:150-259 `NewTestCaseFromDir`: the files of the input dataset are new files in memory -/
def newTestCase (F : FloatCodec) (disk : Disk) (dir : Bytes) (w : Files.World) : Except CaseErr (TestCase × Files.World) := do
  let s ← startCase F disk dir w
  -- dstest.go:185-196
  let s ← optional (readBody disk dir supported) .body (47 :: ·) setBody s
  -- dstest.go:198-211
  let s ← optional (readScript disk dir b!"transform.star") .transform id setTransform s
  -- dstest.go:213-226
  let s ← optional (readScript disk dir b!"template.html") .viz id setViz s
  -- dstest.go:228-241
  let s ← optional (readScript disk dir b!"readme.md") .readme id setReadme s
  endCase F disk dir s

/-- dstest.go:139-145: the loop of `LoadTestCases` over the entries of the directory; the map as a list, in the order of the entries -/
def loadLoop (F : FloatCodec) (disk : Disk) (dir : Bytes) : List (Bytes × Bool) → Files.World → List (Bytes × TestCase) × Files.World
  | [], w => ([], w)
  | (name, isDir) :: l, w =>
    if isDir then
      match newTestCase F disk (inDir dir name) w with
      | .ok (tc, w) =>
        let r := loadLoop F disk dir l w
        ((name, tc) :: r.1, r.2)
      | .error _ => loadLoop F disk dir l w
    else loadLoop F disk dir l w

/-- dstest.go:131-147 `LoadTestCases`: none for an error of `ioutil.ReadDir` -/
def loadTestCases (F : FloatCodec) (disk : Disk) (dir : Bytes) (w : Files.World) : Option (List (Bytes × TestCase) × Files.World) :=
  match disk dir with
  | .dir l => some (loadLoop F disk dir l w)
  | _ => none

/-- dstest.go:79-81 `TestCase.BodyFile` -/
def TestCase.bodyFile (t : TestCase) (w : Files.World) : File × Files.World := Files.memfile w t.bodyFilename (t.body.getD [])

/-- dstest.go:84-109 `TransformScriptFile`, `VizScriptFile`, `ReadmeScriptFile`: from the name and the data -/
def scriptFile (name : Bytes) (data : Option Bytes) (w : Files.World) : Option File × Files.World :=
  match data with
  | none => (none, w)
  | some data => let (f, w) := Files.memfile w name data; (some f, w)

/-! ### Golden files (dstest/golden.go) -/

/-- golden.go:31-43 `LoadGoldenFile`: none if it ends the test -/
def loadGolden (F : FloatCodec) (disk : Disk) (path : Bytes) : Option Dataset :=
  match (disk path).readFile with
  | .error _ => none
  | .ok data => (DocText.read (DocText.dataset F) data).toOption

/-- `json.MarshalIndent(got, "", "  ")`: none for an error -/
def goldenText (F : FloatCodec) (d : Dataset) : Option Bytes :=
  (DocText.datasetVal d).bind fun v => if jsonOK v then some (encP F [] b!"  " 0 v) else none

/-- `ioutil.WriteFile`: the disk afterwards -/
def Disk.put (disk : Disk) (path data : Bytes) : Disk := fun p => if p = path then .file data false else disk p

/-- what becomes of a test: it goes on or is marked as failed, or it ends at once -/
inductive Verdict where
  | passed
  | failed
  | ended
  | panicked
deriving DecidableEq

/-- golden.go:47-58 `UpdateGoldenFileIfEnvVarSet`: the disk afterwards, none for a panic -/
def updateGolden (F : FloatCodec) (env : Bytes) (disk : Disk) (path : Bytes) (got : Dataset) : Option Disk :=
  if env = [] then some disk else (goldenText F got).map fun data => disk.put path data

/-- golden.go:20-28 `CompareGoldenDatasetAndUpdateIfEnvVarSet`; `env` is the value of `QRI_UPDATE_GOLDEN_FILES` -/
def checkGolden (F : FloatCodec) (env : Bytes) (disk : Disk) (path : Bytes) (got : Dataset) : Verdict × Disk :=
  match loadGolden F disk path with
  | none => (.ended, disk)
  | some expect =>
    if compareDatasets false (some expect) (some got) then (.passed, disk)
    else
      match updateGolden F env disk path got with
      | none => (.panicked, disk)
      | some disk => (.failed, disk)

end Verif.Disk
