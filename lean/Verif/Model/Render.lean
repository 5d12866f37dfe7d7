import Verif.Model.JsonBuf
import Verif.Model.Streams
import Verif.Model.DocJson
import Verif.Go.JsonParse
import Verif.Go.Strconv
/-
Model of dsviz/render.go: rendering a dataset's template, and the functions templates can call.

html/template is library code.  An execution is a sequence of calls of `bodyEntries` whose answers may influence what follows;
the other functions change nothing, so calls of them are not made visible.  A panic in a function called by a template is an
error of the template.
-/
set_option autoImplicit false
namespace Verif.Render
open Streams

/-! ### isType (render.go:99-132) -/

/-- none for the error about an unknown type name; maps with keys that are not strings are no `Val` -/
def isType (v : Val) (eq : Bytes) : Option Bool :=
  if eq = b!"string" then some (match v with | .str _ => true | _ => false)
  else if eq = b!"object" then some (match v with | .obj _ => true | _ => false)
  else if eq = b!"array" then some (match v with | .arr _ => true | _ => false)
  else if eq = b!"boolean" then some (match v with | .bool _ => true | _ => false)
  else if eq = b!"number" then some (match v with | .f64 _ => true | .gint _ => true | .int _ => true | _ => false)
  else none

/-! ### printByteInfo (render.go:233-283) -/

/-- Go's division of int64 truncates; it is used for positive numbers only -/
def printByteInfo (l : Int) : Bytes :=
  let (name, value) :=
    if 2 ^ 50 ≤ l then (b!"PB", l.tdiv (2 ^ 50))
    else if 2 ^ 40 ≤ l then (b!"TB", l.tdiv (2 ^ 40))
    else if 2 ^ 30 ≤ l then (b!"GB", l.tdiv (2 ^ 30))
    else if 2 ^ 20 ≤ l then (b!"MB", l.tdiv (2 ^ 20))
    else if 2 ^ 10 ≤ l then (b!"KB", l.tdiv (2 ^ 10))
    else (b!"byte", l)
  fmtInt value ++ b!" " ++ (if value ≠ 1 then name ++ b!"s" else name)

/-! ### title (render.go:71-76) -/

def title (ds : Doc.Dataset) : Bytes :=
  match ds.meta_ with
  | some m => if m.title ≠ [] then m.title else ds.peername ++ b!"/" ++ ds.name
  | none => ds.peername ++ b!"/" ++ ds.name

/-! ### vizDataset (render.go:134-142) -/

/-- none for an error.  (Marshaling also fills in kinds that are missing, here and in components; those fields are not observed here.) -/
def vizDataset (F : FloatCodec) (ds : Doc.Dataset) : Option (List (Bytes × Val)) :=
  match ds.enc with
  | none => none
  | some v =>
    if jsonOK v then
      match JsonStd.unmarshal F (enc F v) with
      | some (.obj m) => some m
      | some .null => some []
      | _ => none
    else none

/-! ### bodyEntries (render.go:144-196) -/

/-- entry readers over a file: `NewEntryReader`, with what the file has still to deliver if that fails; `ReadEntry`; and what
the file has still to deliver (readers may buffer) -/
structure Src (σ : Type) where
  openReader : Doc.Structure → Bytes → Except Bytes σ
  read : Doc.Structure → Reader σ
  unread : σ → Bytes

inductive Err where
  | noStructure | opening | topLevel
  | reading (text : Bytes)
deriving DecidableEq

/-- render.go:200-231 `readEntries` is `ReadAll` (dsio.go:143-187) but for the texts of errors; `paged` if there is a page -/
def readPage {σ : Type} (rd : Reader σ) (tl : TopLevel) (offset limit : Int) (n : Nat) (s : σ) : Option (Except (Nat × Bytes) Val × σ) :=
  if 0 ≤ offset ∧ 0 ≤ limit then (readAll (paged rd) tl n { offset, limit, inner := s }).map fun r => (r.1, r.2.inner)
  else readAll rd tl n s

/-- render.go:156-196 on a body file with the given bytes to deliver: the answer, and the bytes the dataset's body file has then.  Only
what passed through the tee is put back, and only without error.  At most `n` reads; none while running. -/
def bodyEntries {σ : Type} (E : Src σ) (st : Option Doc.Structure) (n : Nat) (offset limit : Int) (body : Bytes) : Option (Except Err Val × Bytes) :=
  match st with
  | none => some (.error .noStructure, body)
  | some st =>
    match E.openReader st body with
    | .error rest => some (.error .opening, rest)
    | .ok s =>
      match getTopLevelType st.schema with
      | none => some (.error .topLevel, E.unread s)
      | some tl =>
        (readPage (E.read st) tl offset limit n s).map fun r =>
          match r.1 with
          | .ok v => (.ok v, body.take (body.length - (E.unread r.2).length))
          | .error (_, t) => (.error (.reading t), E.unread r.2)

/-- render.go:144-148 `allBodyEntries` -/
def allBodyEntries {σ : Type} (E : Src σ) (st : Option Doc.Structure) (n : Nat) (body : Bytes) : Option (Except Err Val × Bytes) :=
  bodyEntries E st n 0 (-1) body

/-! ### Templates -/

/-- an execution: the text produced, an error, or a call of `bodyEntries` -/
inductive Tmpl where
  | done (text : Bytes)
  | fail
  | call (offset limit : Int) (k : Val → Tmpl)

/-- `Execute` with the body file: the text, none for an error, and the body file afterwards -/
def exec {σ : Type} (E : Src σ) (st : Option Doc.Structure) (n : Nat) : Tmpl → Bytes → Option (Option Bytes × Bytes)
  | .done text, body => some (some text, body)
  | .fail, body => some (none, body)
  | .call offset limit k, body =>
    match bodyEntries E st n offset limit body with
    | none => none
    | some (.error _, body) => some (none, body)
    | some (.ok v, body) => exec E st n (k v) body

/-- `template.Parse` and `Execute` on a dataset and its JSON tree; none if the text is no template -/
structure Lib where
  parse : Bytes → Option (Doc.Dataset → List (Bytes × Val) → Tmpl)

inductive RenderErr where
  | noViz | format | script | marshal | parsing | executing
deriving DecidableEq

inductive Out where
  | page (html : Bytes)
  | error (e : RenderErr)
  | panic
deriving DecidableEq

/-- the files of the dataset: what they have to deliver; a script may fail after its bytes -/
structure Files where
  script : Bytes
  scriptFails : Bool := false
  body : Bytes
deriving DecidableEq

/-- render.go:37-96 `renderHTML` -/
def renderHTML {σ : Type} (F : FloatCodec) (E : Src σ) (L : Lib) (n : Nat) (ds : Doc.Dataset) (viz : Doc.Viz) (fs : Files) : Option (Out × Files) :=
  if viz.scriptFile.isNone then some (.panic, fs)
  else if fs.scriptFails then some (.error .script, { fs with script := [] })
  else
    match vizDataset F ds with
    | none => some (.error .marshal, fs)
    | some m =>
      match L.parse fs.script with
      | none => some (.error .parsing, fs)
      | some t =>
        (exec E ds.structure_ n (t ds m) fs.body).map fun r =>
          (match r.1 with
            | none => .error .executing
            | some html => .page html,
           { fs with body := r.2 })

/-- render.go:23-31 `Render` -/
def render {σ : Type} (F : FloatCodec) (E : Src σ) (L : Lib) (n : Nat) (ds : Doc.Dataset) (fs : Files) : Option (Out × Files) :=
  match ds.viz with
  | none => some (.error .noViz, fs)
  | some viz => if viz.format ≠ b!"html" then some (.error .format, fs) else renderHTML F E L n ds viz fs

/-! ### JSON bodies -/

/-- dsio/json.go:28-60 and 70-126 with a buffer of the given size (256 KB by default), over a file that delivers all that fits -/
def jsonSrc (F : FloatCodec) (E : JsonBuf.Env) (size : Nat) : Src JsonBuf.Reader where
  openReader := fun st body =>
    match getTopLevelType st.schema with
    | none => .error body
    | some _ => .ok { st := JsonBuf.new size [] body }
  read := fun st r =>
    match JsonBuf.readEntry F E ((getTopLevelType st.schema).getD .array) r with
    | .entry e r => (.entry e, r)
    | .eof r => (.fail .eof, r)
    | .err _ r => (.fail (.other b!"json"), r)
    | .panic => (.fail (.other b!"panic"), r)
  unread := fun r => r.st.src

end Verif.Render
