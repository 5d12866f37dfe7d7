import Verif.Go.Val
import Verif.Go.Strconv
/-
Names and their codecs: data_format.go, compression/compression.go, kind.go, the file names of
structure.go and detect/detect.go, abstract column names (structure.go) and spreadsheet column letters
(dsio/xlsx.go).
-/
set_option autoImplicit false
namespace Verif.Names

/-! ### Data formats (data_format.go) -/

/-- data_format.go:17-37 -/
inductive DataFormat where
  | unknown | csv | json | ndjson | cbor | xml | xlsx
deriving DecidableEq

/-- data_format.go:54-70 `String`; values outside the enumeration are not represented -/
def DataFormat.string : DataFormat → Bytes
  | .unknown => []
  | .csv => b!"csv"
  | .json => b!"json"
  | .xml => b!"xml"
  | .xlsx => b!"xlsx"
  | .cbor => b!"cbor"
  | .ndjson => b!"ndjson"

/-- data_format.go:75-91: the table of accepted spellings -/
def formatTable : List (Bytes × DataFormat) :=
  [([], .unknown), (b!".csv", .csv), (b!"csv", .csv), (b!".json", .json), (b!"json", .json), (b!".xml", .xml), (b!"xml", .xml),
   (b!".xlsx", .xlsx), (b!"xlsx", .xlsx), (b!"cbor", .cbor), (b!".cbor", .cbor), (b!".ndjson", .ndjson), (b!"ndjson", .ndjson),
   (b!".jsonl", .ndjson), (b!"jsonl", .ndjson)]

/-- data_format.go:74-98 `ParseDataFormatString`; none for an error -/
def parseDataFormat (s : Bytes) : Option DataFormat := (formatTable.find? fun e => e.1 = s).map (·.2)

/-- data_format.go:101-106 `MarshalJSON`; none for an error -/
def DataFormat.marshal (f : DataFormat) : Option Val := if f = .unknown then none else some (.str f.string)

/-- `json.Unmarshal` into a string: null leaves it empty -/
def jsonString : Val → Option Bytes
  | .str s => some s
  | .null => some []
  | _ => none

/-- data_format.go:109-122 `UnmarshalJSON` -/
def DataFormat.unmarshal (v : Val) : Option DataFormat := (jsonString v).bind parseDataFormat

/-! ### Compression formats (compression/compression.go) -/

/-- compression.go:13-20 -/
inductive Compression where
  | none | zstd | gzip
deriving DecidableEq

/-- the string a `Format` is -/
def Compression.string : Compression → Bytes
  | .none => []
  | .zstd => b!"zst"
  | .gzip => b!"gzip"

/-- compression.go:38-55 `ParseFormat`; none for an error -/
def parseCompression (s : Bytes) : Option Compression :=
  ([(b!"gzip", Compression.gzip), (b!"gz", .gzip), (b!"zst", .zstd), (b!"zstd", .zstd)].find? fun e => e.1 = s).map (·.2)

/-! ### Kinds (kind.go) -/

/-- kind.go:46-51 `Valid` -/
def kindValid (k : Bytes) : Bool := 4 ≤ k.length

/-- kind.go:54-56 `Type`; none for a panic -/
def kindType (k : Bytes) : Option Bytes := if 2 ≤ k.length then some (k.take 2) else none

/-- kind.go:59-61 `Version`; none for a panic -/
def kindVersion (k : Bytes) : Option Bytes := if 3 ≤ k.length then some (k.drop 3) else none

/-- kind.go:65-72 `UnmarshalJSON` -/
def kindUnmarshal (v : Val) : Option Bytes := (jsonString v).bind fun k => if kindValid k then some k else none

/-- kind.go:77-79 `ComponentTypePrefix` -/
def componentTypePrefix (k s : Bytes) : Option Bytes := (kindType k).map fun t => t ++ 58 :: s

/-- kind.go:11-30 -/
def kinds : List Bytes := [b!"ds:0", b!"bd:0", b!"md:0", b!"st:0", b!"tf:0", b!"cm:0", b!"vz:0", b!"rm:0", b!"sa:0"]

/-! ### File names -/

/-- structure.go:136-144 `AddFileFormatExtensions` for a structure with these two fields -/
def addExtensions (format compression filename : Bytes) : Bytes :=
  let f := if format ≠ [] then filename ++ 46 :: format else filename
  if compression ≠ [] then f ++ 46 :: compression else f

/-- structure.go:130-132 `BodyFilename` -/
def bodyFilename (format compression : Bytes) : Bytes := addExtensions format compression b!"body"

/-- `filepath.Ext` on the reversed path, with what was passed so far -/
def extAux : Bytes → Bytes → Bytes
  | [], _ => []
  | c :: r, acc => if c = 47 then [] else if c = 46 then 46 :: acc else extAux r (c :: acc)

/-- `filepath.Ext`: from the last dot on, if it comes after the last slash -/
def ext (path : Bytes) : Bytes := extAux path.reverse []

/-- `strings.TrimPrefix(s, ".")` -/
def trimDot : Bytes → Bytes
  | 46 :: s => s
  | s => s

/-- `strings.TrimSuffix` -/
def trimSuffix (s suf : Bytes) : Bytes := if suf.isSuffixOf s then s.take (s.length - suf.length) else s

/-- detect.go:153-172: format of an extension; none for an error -/
def formatOfExt (e : Bytes) : Option DataFormat :=
  ([(b!".cbor", DataFormat.cbor), (b!".json", .json), (b!".csv", .csv), (b!".xml", .xml), (b!".xlsx", .xlsx), (b!".jsonl", .ndjson),
    (b!".ndjson", .ndjson)].find? fun x => x.1 = e).map (·.2)

/-- detect.go:143-173 `FormatFromFilename`; none for an error -/
def formatFromFilename (path : Bytes) : Option (DataFormat × Compression) :=
  match parseCompression (trimDot (ext path)) with
  | some c => (formatOfExt (ext (trimSuffix path (ext path)))).map fun f => (f, c)
  | none => (formatOfExt (ext path)).map fun f => (f, .none)

/-! ### Abstract column names (structure.go:334-364) -/

/-- structure.go:352-355: the base 26 digits, least significant first (`fuel` bounds the rounds) -/
def digits26 : Nat → Nat → List Nat
  | 0, _ => []
  | f + 1, d => if d = 0 then [] else (d % 26) :: digits26 f (d / 26)

def lower (n : Nat) : UInt8 := UInt8.ofNat (97 + n)

/-- structure.go:356-362: digits most significant first; the last one is printed differently -/
def letters26 : List Nat → Bytes
  | [] => []
  | [c] => [lower c]
  | c :: cs => (if 0 < c then lower (c - 1) else lower c) :: letters26 cs

/-- structure.go:346-364 `base26`; negative numbers (which panic) are left out -/
def base26 (d : Nat) : Bytes := if d = 0 then b!"a" else letters26 (digits26 d d).reverse

/-! ### Spreadsheet column letters (dsio/xlsx.go:268-340) -/

/-- xlsx.go:275-283 `largestLesserExponent`; no overflow of `exp`, that is for `num` below 26^12 -/
def largestLesserAux : Nat → Nat → Nat → Nat → Nat
  | 0, _, prev, _ => prev
  | f + 1, num, prev, exp => if exp ≤ num then largestLesserAux f num exp (exp * 26) else prev

def largestLesserExponent (num : Nat) : Nat := largestLesserAux (num + 1) num 1 26

/-- xlsx.go:333-338: the loop of `intToBase26` -/
def intToBase26Aux : Nat → Nat → Nat → List Nat
  | 0, _, _ => []
  | f + 1, x, d => if d = 0 then [] else (x / d) :: intToBase26Aux f (x % d) (d / 26)

/-- xlsx.go:326-340 `intToBase26` -/
def intToBase26 (x : Nat) : List Nat := intToBase26Aux (largestLesserExponent x + 1) x (largestLesserExponent x)

/-- xlsx.go:313-322: the loop from index `i` down to 1 -/
def smooshAux : Nat → List Nat → List Nat
  | 0, l => l
  | i + 1, l =>
    let part := l.getD (i + 1) 0
    let greater := l.getD i 0
    smooshAux i (if part = 0 ∧ 0 < greater then (l.set i (greater - 1)).set (i + 1) 26 else l)

/-- xlsx.go:309-324 `smooshBase26Slice` -/
def smoosh (l : List Nat) : List Nat := smooshAux (l.length - 2) l

/-- xlsx.go:287-307 `formatColumnName` -/
def formatColumnName : List Nat → Bytes
  | [] => []
  | [p] => [UInt8.ofNat (p + 65)]
  | p :: ps => (if 0 < p then [UInt8.ofNat (p + 64)] else []) ++ formatColumnName ps

/-- xlsx.go:268-271 `ColIndexToLetters` -/
def colIndexToLetters (x : Nat) : Bytes := formatColumnName (smoosh (intToBase26 x))

end Verif.Names
