import Verif.Model.Streams
import Verif.Model.Doc
/-
Model of preview/preview.go: `Create`.

Files are numbers (Verif/Model/Doc.lean); a world says what reading them delivers.  The local copy `p` that
`Create` fills (preview.go:58-59, 110-112) is not returned and not modelled.
-/
set_option autoImplicit false
namespace Verif.Preview
open Streams

/-- what reading a file delivers from now on: bytes, then end of file or, in a call that delivers nothing, an error -/
structure Content where
  text : Bytes
  fails : Bool := false
deriving DecidableEq

/-- open files, and the next unused number -/
structure World where
  content : Nat → Content
  next : Nat

/-- library code: entry readers of a structure over a file (dsio.go:47-75 `NewEntryReader`, none for an error), and how
many bytes of the file the reader has taken (it may buffer) after delivering a preview -/
structure Env (σ : Type) where
  F : FloatCodec
  openReader : Doc.Structure → Content → Option σ
  read : Doc.Structure → Reader σ
  used : Doc.Structure → Content → Nat

inductive Err where
  | nilDataset | emptyDataset | readme | convert
deriving DecidableEq

/-- outcome: an error, a run-time panic, or the dataset; `raw` is the text now in `Body` (a json.RawMessage, which `Val` does
not represent), if it was set -/
inductive Out where
  | error (e : Err)
  | panic
  | ok
deriving DecidableEq

structure Result where
  out : Out
  ds : Option Doc.Dataset
  raw : Option Bytes := none
  w : World

/-- preview.go:25 -/
def maxRows : Nat := 100
/-- preview.go:33 -/
def maxReadme : Nat := 997

/-- reading the first `n` bytes through a tee and putting them back in front of the rest, in a new file -/
def reopen (n : Nat) (f : Nat) (w : World) : Nat × World :=
  (w.next,
    { content := fun i =>
        if i = w.next then { text := (w.content f).text.take n ++ (w.content f).text.drop n, fails := (w.content f).fails }
        else if i = f then { text := (w.content f).text.drop n, fails := (w.content f).fails }
        else w.content i
      next := w.next + 1 })

/-- reading without putting back -/
def consume (n : Nat) (f : Nat) (w : World) : World :=
  { w with content := fun i => if i = f then { text := (w.content f).text.drop n, fails := (w.content f).fails } else w.content i }

/-- preview.go:61-78 -/
def readme (r : Doc.Readme) (w : World) : Option Doc.Readme × World :=
  match r.scriptFile with
  | none => (some r, w)
  | some f =>
    let c := w.content f
    if c.text.length < maxReadme ∧ c.fails then (none, consume maxReadme f w)
    else
      let content := c.text.take maxReadme
      let (g, w) := reopen maxReadme f w
      (some { r with text := if maxReadme ≤ content.length then content ++ b!"..." else content, scriptFile := some g }, w)

/-- dsio.go:191-230 `ConvertFile` to JSON with the schema of the body's structure; none for an error.  The paged reader gives
at most 100 entries, so the copy ends within 101 rounds. -/
def convertBody {σ : Type} (E : Env σ) (st : Doc.Structure) (c : Content) : Option Bytes :=
  match getTopLevelType st.schema with
  | none => none
  | some tl =>
    match E.openReader st c with
    | none => none
    | some s => (convert (E.read st) (jsonWriter E.F tl []) (fun t => some (Json.close tl [] t)) maxRows 0 false (maxRows + 1) s {}).join

/-- preview.go:80-104 -/
def body {σ : Type} (E : Env σ) (ds : Doc.Dataset) (w : World) : Result :=
  match ds.bodyFile with
  | none => { out := .ok, ds := some ds, w := w }
  | some f =>
    match ds.structure_ with
    | none => { out := .panic, ds := some ds, w := w }
    | some st =>
      match convertBody E st (w.content f) with
      | none => { out := .error .convert, ds := some ds, w := consume (E.used st (w.content f)) f w }
      | some data =>
        let (g, w') := reopen (E.used st (w.content f)) f w
        { out := .ok, ds := some { ds with bodyFile := some g }, raw := some data, w := w' }

/-- preview.go:47-115 `Create`: the dataset is changed in place and returned -/
def create {σ : Type} (E : Env σ) (ds : Option Doc.Dataset) (w : World) : Result :=
  match ds with
  | none => { out := .error .nilDataset, ds := none, w := w }
  | some ds =>
    if ds.isEmpty then { out := .error .emptyDataset, ds := some ds, w := w }
    else
      match ds.readme with
      | none => body E ds w
      | some r =>
        match readme r w with
        | (none, w) => { out := .error .readme, ds := some ds, w := w }
        | (some r, w) => body E { ds with readme := some r } w

end Verif.Preview
