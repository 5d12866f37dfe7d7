import Verif.Model.JsonBuf
/- dsio/fuzz.go: the entry point of the fuzzer. -/
set_option autoImplicit false
namespace Verif.Fuzz
open Json

/-- what a call does; `runsOn` is never reached (C91) -/
inductive Outcome where
  | returns (n : Nat)
  | panics
  | runsOn
deriving DecidableEq

/-- json.go:32: the size of the buffer of `NewJSONReader` -/
def bufferSize : Nat := 256 * 1024

/-- dsio/fuzz.go:11-29 `Fuzz` with a buffer of a given size.  `BaseSchemaObject` is of type "object" and the structure has no compression, so the
constructor succeeds; a `bytes.Reader` delivers all that fits.  No error of the reader but `io.EOF` has the text "EOF". -/
def run (F : FloatCodec) (E : JsonBuf.Env) (size : Nat) (data : Bytes) : Outcome :=
  match (JsonBuf.readAll F E .object size [] data).2 with
  | .eof => .returns 1
  | .err _ => .returns 0
  | .panic => .panics
  | .outOfCalls => .runsOn

/-- dsio/fuzz.go:11-29 `Fuzz` -/
def fuzz (F : FloatCodec) (E : JsonBuf.Env) (data : Bytes) : Outcome := run F E bufferSize data

end Verif.Fuzz
