import Verif.Go.Utf8
/-
Model of Go's `encoding/csv` (external library, documented behaviour): Reader and Writer as the
repository uses them (no comments, no CRLF output).

The reader works line by line.  The ends of lines are normalised independently of everything else, so the
model normalises the whole text first and then reads from one stream in which a line ends at a line feed or
at the end of the text.
-/
set_option autoImplicit false
namespace Verif.Csv

/-- `validDelim` -/
def validDelim (r : Nat) : Bool := r ≠ 0 && r ≠ 34 && r ≠ 13 && r ≠ 10 && decide (ValidRune r) && r ≠ runeError

/-- `unicode.IsSpace` -/
def isSpace (r : Nat) : Bool :=
  (9 ≤ r && r ≤ 13) || r = 32 || r = 0x85 || r = 0xA0 || r = 0x1680 || (0x2000 ≤ r && r ≤ 0x200A) || r = 0x2028 ||
    r = 0x2029 || r = 0x202F || r = 0x205F || r = 0x3000

/-! ### Writer -/

/-- whether `sep` occurs in `s` -/
def occurs (sep : Bytes) : Bytes → Bool
  | [] => sep.isEmpty
  | c :: s => sep.isPrefixOf (c :: s) || occurs sep s

/-- `fieldNeedsQuotes` -/
def needsQuotes (sep : Bytes) (field : Bytes) : Bool :=
  if field = [] then false
  else if field = b!"\\." then true
  else if occurs sep field || field.any (fun c => c = 34 || c = 13 || c = 10) then true
  else isSpace (utf8Dec field).1

/-- the text of a field between quotes -/
def dbl : Bytes → Bytes
  | [] => []
  | c :: s => if c = 34 then 34 :: 34 :: dbl s else c :: dbl s

def fieldText (sep : Bytes) (f : Bytes) : Bytes := if needsQuotes sep f then 34 :: (dbl f ++ [34]) else f

/-- fields with separators between them -/
def joined (sep : Bytes) : List Bytes → Bytes
  | [] => []
  | [f] => fieldText sep f
  | f :: fs => fieldText sep f ++ sep ++ joined sep fs

/-- `Write`: one record -/
def recordText (sep : Bytes) (fs : List Bytes) : Bytes := joined sep fs ++ [10]

/-! ### Reader -/

/-- `readLine`, for all lines at once: CR LF becomes LF, and a CR at the very end of the text is dropped -/
def norm : Bytes → Bytes
  | [] => []
  | c :: s => if c = 13 ∧ (s = [] ∨ s.head? = some 10) then norm s else c :: norm s

inductive Err where
  | eof | bareQuote | quote | fieldCount | invalidDelim
deriving DecidableEq

/-- what is left after the current line -/
def dropLine : Bytes → Bytes
  | [] => []
  | c :: s => if c = 10 then s else dropLine s

/-- how a field ended: at a separator (with what follows it), at the end of the line (with what follows that), or
with an error -/
inductive End where
  | more (rest : Bytes)
  | done (rest : Bytes)
  | err (e : Err) (rest : Bytes)
deriving DecidableEq

/-- a field that does not begin with a quote -/
def bare (sep : Bytes) : Bytes → Bytes × End
  | [] => ([], .done [])
  | c :: s =>
    if c = 10 then ([], .done s)
    else if sep.isPrefixOf (c :: s) then ([], .more ((c :: s).drop sep.length))
    else (c :: (bare sep s).1, (bare sep s).2)

/-- the rest of a quoted field -/
def quoted (sep : Bytes) (lazy : Bool) : Bytes → Bytes × End
  | [] => ([], if lazy then .done [] else .err .quote [])
  | c :: s =>
    if c ≠ 34 then (c :: (quoted sep lazy s).1, (quoted sep lazy s).2)
    else match s with
      | [] => ([], .done [])
      | d :: t =>
        if d = 34 then (34 :: (quoted sep lazy t).1, (quoted sep lazy t).2)
        else if sep.isPrefixOf (d :: t) then ([], .more ((d :: t).drop sep.length))
        else if d = 10 then ([], .done t)
        else if lazy then (34 :: (quoted sep lazy (d :: t)).1, (quoted sep lazy (d :: t)).2)
        else ([], .err .quote (dropLine (d :: t)))

/-- one field; a quote inside a bare field is an error unless quotes are lazy, and ends the line -/
def field (sep : Bytes) (lazy : Bool) (s : Bytes) : Bytes × End :=
  match s with
  | 34 :: t => quoted sep lazy t
  | s =>
    if !lazy && (bare sep s).1.contains 34 then ([], .err .bareQuote (dropLine s)) else bare sep s

/-- leading white space of the line, for `TrimLeadingSpace`; the first argument bounds the number of code points -/
def trimF : Nat → Bytes → Bytes
  | 0, s => s
  | _ + 1, [] => []
  | n + 1, c :: s =>
    if c = 10 then c :: s
    else if isSpace (utf8Dec (c :: s)).1 then trimF n ((c :: s).drop (utf8Dec (c :: s)).2)
    else c :: s

def lead (trim : Bool) (s : Bytes) : Bytes := if trim then trimF s.length s else s

/-- the fields of a record, the error, and what is left -/
def fields (sep : Bytes) (trim lazy : Bool) : Nat → Bytes → List Bytes × Option Err × Bytes
  | 0, s => ([], none, s)
  | n + 1, s =>
    match field sep lazy (lead trim s) with
    | (f, .more r) => (f :: (fields sep trim lazy n r).1, (fields sep trim lazy n r).2)
    | (f, .done r) => ([f], none, r)
    | (_, .err e r) => ([], some e, r)

/-- empty lines are skipped -/
def skipBlank : Bytes → Bytes
  | 10 :: s => skipBlank s
  | s => s

structure Cfg where
  comma : Nat := 44
  lazy : Bool := false
  trim : Bool := false

/-- text still to be read, and `FieldsPerRecord` -/
structure RState where
  rest : Bytes
  fpr : Int := 0
deriving DecidableEq

/-- `Read`: a record or an error -/
def read (c : Cfg) (st : RState) : Except Err (List Bytes) × RState :=
  if !validDelim c.comma then (.error .invalidDelim, st)
  else match skipBlank st.rest with
    | [] => (.error .eof, { st with rest := [] })
    | s =>
      let r := fields (utf8Enc c.comma) c.trim c.lazy (s.length + 1) s
      let fpr := if st.fpr = 0 then (r.1.length : Int) else st.fpr
      (match r.2.1 with
       | some e => .error e
       | none => if 0 < st.fpr ∧ (r.1.length : Int) ≠ st.fpr then .error .fieldCount else .ok r.1,
       { rest := r.2.2, fpr := fpr })

end Verif.Csv
