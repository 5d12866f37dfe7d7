import Verif.Model.Doc
/-
Files of components: opening scripts, rendered versions and bodies, and inlining of scripts
(readme.go:75-147, viz.go:55-147, transform.go:69-125, dataset.go:288-343).

Representation:
* the files that exist are the cells of a list, an open file (`Doc.File`) is an index into it;
* a file is the bytes it still delivers, followed by the end or by an error;
* a resolver (`qfs.PathResolver`, qfs/qfs.go) is any function of the path and of the files there are: it
  answers with a file or nil, an error or nil, and may change the files in any way (open new ones, read old ones);
* a nil resolver is `none`.

Simplifications: contexts are not modelled (a resolver that heeds one is a resolver with other answers); errors of
resolvers are their texts; files are not closed (the package closes none either).
-/
namespace Verif.Files
open Verif.Doc

/-- a `qfs.File`: name, what is left to read, and whether an error follows instead of the end -/
structure FileState where
  name : Bytes
  rest : Bytes
  fails : Bool := false
deriving DecidableEq

/-- all files -/
abbrev World := List FileState

/-- what `resolver.Get` answers -/
structure Answer where
  file : Option File := none
  err : Option Bytes := none
  world : World
deriving DecidableEq

/-- `qfs.PathResolver` -/
abbrev Resolver := Bytes → World → Answer

/-- errors of opening and inlining: dataset.go:283 `ErrInlineBody`, dataset.go:285 `ErrNoResolver`, errors of the
resolver (as they are, or wrapped by dataset.go:331), errors of reading -/
inductive Err where
  | inlineBody
  | noResolver
  | get (text : Bytes)
  | reading
deriving DecidableEq

/-- `qfs.NewMemfileBytes`: a new file with these bytes -/
def memfile (w : World) (name data : Bytes) : File × World := (w.length, w ++ [{ name, rest := data }])

/-- `ioutil.ReadAll`: all bytes, whether reading failed, and the files afterwards -/
def readAll (w : World) (f : File) : Bytes × Bool × World :=
  match w[f]? with
  | none => ([], false, w)
  | some s => (s.rest, s.fails, w.set f { s with rest := [] })

/-- readme.go:99-115 `OpenScriptFile`: from the text, the script path and the current script file (the same code is
at viz.go:99-115 and transform.go:94-110, with other names of the memory file) -/
def openScript (mem text path : Bytes) (file : Option File) (get : Option Resolver) (w : World) :
    Option Err × Option File × World :=
  if text ≠ [] then
    let r := memfile w mem text
    (none, some r.1, r.2)
  else if path = [] then (none, file, w)
  else
    match get with
    | none => (some .noResolver, file, w)
    | some get =>
      let a := get path w
      (a.err.map .get, a.file, a.world)

/-- readme.go:75-94 `InlineScriptFile`: the error, then text, script path and script file afterwards (the same code
is at viz.go:56-75 and transform.go:69-89) -/
def inlineScript (mem text path : Bytes) (file : Option File) (get : Option Resolver) (w : World) :
    Option Err × Bytes × Bytes × Option File × World :=
  if get.isNone then (none, text, path, file, w)
  else
    match openScript mem text path file get w with
    | (some e, f, w) => (some e, text, path, f, w)
    | (none, none, w) => (none, text, path, none, w)
    | (none, some f, w) =>
      match readAll w f with
      | (_, true, w) => (some .reading, text, path, some f, w)
      | (data, false, w) => (none, data, [], some f, w)

/-- readme.go:123-134 `OpenRenderedFile` (viz.go:123-134 is the same) -/
def openRendered (path : Bytes) (file : Option File) (get : Option Resolver) (w : World) : Option Err × Option File × World :=
  if path = [] then (none, file, w)
  else
    match get with
    | none => (some .noResolver, file, w)
    | some get =>
      let a := get path w
      (a.err.map .get, a.file, a.world)

/-- readme.go:99-115 -/
def Readme.openScriptFile (r : Readme) (get : Option Resolver) (w : World) : Option Err × Readme × World :=
  let o := openScript b!"readme.md" r.text r.scriptPath r.scriptFile get w
  (o.1, { r with scriptFile := o.2.1 }, o.2.2)

/-- readme.go:75-94 -/
def Readme.inlineScriptFile (r : Readme) (get : Option Resolver) (w : World) : Option Err × Readme × World :=
  let o := inlineScript b!"readme.md" r.text r.scriptPath r.scriptFile get w
  (o.1, { r with text := o.2.1, scriptPath := o.2.2.1, scriptFile := o.2.2.2.1 }, o.2.2.2.2)

/-- readme.go:123-134 -/
def Readme.openRenderedFile (r : Readme) (get : Option Resolver) (w : World) : Option Err × Readme × World :=
  let o := openRendered r.renderedPath r.renderedFile get w
  (o.1, { r with renderedFile := o.2.1 }, o.2.2)

/-- viz.go:99-115 -/
def Viz.openScriptFile (v : Viz) (get : Option Resolver) (w : World) : Option Err × Viz × World :=
  let o := openScript b!"template.html" v.text v.scriptPath v.scriptFile get w
  (o.1, { v with scriptFile := o.2.1 }, o.2.2)

/-- viz.go:56-75 -/
def Viz.inlineScriptFile (v : Viz) (get : Option Resolver) (w : World) : Option Err × Viz × World :=
  let o := inlineScript b!"template.html" v.text v.scriptPath v.scriptFile get w
  (o.1, { v with text := o.2.1, scriptPath := o.2.2.1, scriptFile := o.2.2.2.1 }, o.2.2.2.2)

/-- viz.go:123-134 -/
def Viz.openRenderedFile (v : Viz) (get : Option Resolver) (w : World) : Option Err × Viz × World :=
  let o := openRendered v.renderedPath v.renderedFile get w
  (o.1, { v with renderedFile := o.2.1 }, o.2.2)

/-- transform.go:94-110 -/
def Transform.openScriptFile (q : Transform) (get : Option Resolver) (w : World) : Option Err × Transform × World :=
  let o := openScript b!"transform.star" q.text q.scriptPath q.scriptFile get w
  (o.1, { q with scriptFile := o.2.1 }, o.2.2)

/-- transform.go:69-89 -/
def Transform.inlineScriptFile (q : Transform) (get : Option Resolver) (w : World) : Option Err × Transform × World :=
  let o := inlineScript b!"transform.star" q.text q.scriptPath q.scriptFile get w
  (o.1, { q with text := o.2.1, scriptPath := o.2.2.1, scriptFile := o.2.2.2.1 }, o.2.2.2.2)

/-- dataset.go:331: the text of an error of the resolver is put behind the path -/
def wrapBody (path text : Bytes) : Bytes := b!"opening dataset.bodyPath '" ++ path ++ b!"': " ++ text

/-- dataset.go:295-334 `OpenBodyFile` -/
def Dataset.openBodyFile (d : Dataset) (get : Option Resolver) (w : World) : Option Err × Dataset × World :=
  if d.body ≠ .null then (some .inlineBody, d, w)
  else
    match d.bodyBytes with
    | some data =>
      let m := memfile w (if d.bodyPath = [] then b!"body" else d.bodyPath) data
      (none, { d with bodyFile := some m.1 }, m.2)
    | none =>
      if d.bodyPath = [] then (none, d, w)
      else
        match get with
        | none => (some .noResolver, d, w)
        | some get =>
          let a := get d.bodyPath w
          (a.err.map fun t => .get (wrapBody d.bodyPath t), { d with bodyFile := a.file }, a.world)

end Verif.Files
