import Verif.Go.ParseInt
import Verif.Model.Disk
import Verif.Model.Formats
import Verif.Model.Generate
/-
The command dsgen (generate/dsgen/main.go).

Representation: what is printed on the standard output when the command succeeds, as one text; the texts of errors are left out.

Simplifications:
* writing to the standard output never fails;
* the help text of package flag, and that of the command, are not spelled out.
-/
set_option autoImplicit false
namespace Verif.Dsgen
open Verif.Doc

/-! ### Arguments: package flag with the one flag that main.go:26-30 declares -/

/-- arguments parsed: the number of rows and what follows the flags; or the help is printed; or it is an error -/
inductive Flags where
  | args (rows : Int) (rest : List Bytes)
  | help
  | bad
deriving DecidableEq

/-- flag `parseOne`: name and value of `name=value`; the first byte belongs to the name -/
def cutValue : Bytes → Bytes × Option Bytes
  | [] => ([], none)
  | c :: s => (c :: s.takeWhile (· ≠ 61), if (61 : UInt8) ∈ s then some ((s.dropWhile (· ≠ 61)).drop 1) else none)

/-- flag `Parse` -/
def parseFlags (rows : Int) : List Bytes → Flags
  | [] => .args rows []
  | s :: rest =>
    if s.length < 2 ∨ s.head? ≠ some 45 then .args rows (s :: rest)
    else if s = b!"--" then .args rows rest
    else
      let name := if (s.drop 1).head? = some 45 then s.drop 2 else s.drop 1
      if name.head? = some 45 ∨ name.head? = some 61 then .bad
      else
        if (cutValue name).1 ≠ b!"rows" then if (cutValue name).1 = b!"help" ∨ (cutValue name).1 = b!"h" then .help else .bad
        else
          match (cutValue name).2 with
          | some v =>
            match parseInt0 v with
            | none => .bad
            | some i => parseFlags i rest
          | none =>
            match rest with
            | [] => .bad
            | v :: rest =>
              match parseInt0 v with
              | none => .bad
              | some i => parseFlags i rest

/-! ### Rows for a structure -/

/-- how a run ends: with this on the standard output; with a message and exit status 1; with a crash; with a message of package flag -/
inductive Run where
  | printed (out : Bytes)
  | failed
  | panics
  | usage
deriving DecidableEq

/-- main.go:73-79: the loop; errors of `WriteEntry` are dropped.  None for a panic. -/
def loop {ρ : Type} (E : Formats.Env) (S : Generate.Source ρ) : Nat → Generate.Gen ρ → Formats.WState → Option Formats.WState
  | 0, _, w => some w
  | n + 1, g, w =>
    match Generate.readEntry S g with
    | none => none
    | some (e, g) => loop E S n g (Formats.writer E e w).2

/-- main.go:53-83 `generateFile` -/
def generateFile {ρ : Type} (E : Formats.Env) (S : Generate.Source ρ) (seed : ρ) (disk : Disk.Disk) (path : Bytes) (lines : Int) : Run :=
  match (disk path).readFile with
  | .error _ => .failed
  | .ok data =>
    match DocText.read (DocText.structure_ E.L.F) data with
    | .error _ => .failed
    | .ok st =>
      match Generate.newTabular E.order { random := seed } (st.schema.getD []) with
      | .error _ => .failed
      | .ok g =>
        match Formats.newCSVWriter E st with
        | .err => .failed
        | .panics => .panics
        | .ok (w, z) =>
          match loop E S lines.toNat g w with
          | none => .panics
          | some w => .printed (z (Formats.close E w))

/-! ### Fixed rows -/

/-- main.go:86 -/
def filler : Bytes := List.replicate 908 48

/-- main.go:88 -/
def fixedHeader : List Bytes := [b!"uuid", b!"ingest", b!"occurred", b!"raw_data"]

/-- main.go:91-103: the cells of a row -/
def fixedRow (diffStart : Int) (i : Nat) : List Bytes :=
  if 0 < diffStart ∧ diffStart < i then
    [fmtNat i ++ b!"-" ++ fmtNat i ++ b!"-BA882B47-B26A-4E29-BFB4-XXXXXXXXXXXX", fmtNat i ++ fmtNat i ++ b!"-01-01 00:00:01.000 UTC",
      b!"2000-" ++ fmtNat i ++ fmtNat i ++ b!"-01 00:00:02.000 UTC", fmtNat i ++ fmtNat i ++ filler]
  else
    [fmtNat i ++ b!"-BA882B47-B26A-4E29-BFB4-XXXXXXXXXXXX", fmtNat i ++ b!"-01-01 00:00:01.000 UTC",
      b!"2000-" ++ fmtNat i ++ b!"-01 00:00:02.000 UTC", fmtNat i ++ filler]

/-- main.go:90-105: the loop from `i` on; errors of `Write` are dropped -/
def fixedLoop (diffStart : Int) (i : Nat) : Nat → Bytes → Bytes
  | 0, out => out
  | n + 1, out => fixedLoop diffStart (i + 1) n (CsvIO.writeRecord {} (fixedRow diffStart i) out).2

/-- main.go:85-109 `writeFixedFile` -/
def writeFixed (lines diffStart : Int) : Bytes := fixedLoop diffStart 0 lines.toNat (CsvIO.writeRecord {} fixedHeader []).2

/-- main.go:32-51 `main` -/
def main {ρ : Type} (E : Formats.Env) (S : Generate.Source ρ) (seed : ρ) (disk : Disk.Disk) (args : List Bytes) : Run :=
  match parseFlags 1000 args with
  | .help => .usage
  | .bad => .usage
  | .args _ [] => .failed
  | .args rows (a :: _) => if a = b!"fixed" then .printed (writeFixed rows 0) else generateFile E S seed disk a rows

end Verif.Dsgen
