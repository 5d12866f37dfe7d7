# A formal model of qri-io/dataset in Lean 4

The Go source in `/repo` is modelled function by function in Lean 4 under
`lean/Verif/`.  Each model definition cites the Go file and lines it models and
says where it simplifies.  Properties are listed in `properties.jsonl`; each one
is proved about the model as theorems named in `MANIFEST.json`.

## Layout

* `Verif/Go/*`     – the bits of Go's data model that are shared: byte strings,
  `interface{}` trees, `strconv` integers, text helpers.
* `Verif/Model/*`  – the model.  Total, computable functions.
* `Verif/Spec/*`   – larger specifications, independent of the model (e.g. the JSON grammar).
* `Verif/Lemmas/*` – helper lemmas about the model.
* `Verif/Props/*`  – the property theorems, each with its own small specification
  and a concrete `example` that meets its hypotheses.

## Trusted base

* Lean's kernel and the axioms `propext`, `Classical.choice`, `Quot.sound` (no
  others: no `sorry`, no own axioms, no `native_decide`, no `bv_decide`).
* The reading of the Go source recorded in the model's comments.  The Go code is
  not executed; the correspondence model ↔ source is by inspection.
* External code is modelled by its documented behaviour: `encoding/json`
  (struct tags, `omitempty`, sorted map keys, string escaping), `encoding/csv`,
  `bufio.Reader` (Peek/Discard/ReadByte/Read), `strings.Split`, `strings.Join`,
  `strconv` integers, the canonical mode of the `ugorji` CBOR encoder,
  `path/filepath.Ext`, `math/rand` (an arbitrary stream of numbers).
* Floating point: a float64 is represented by its 64 bits.  Text conversion of floats
  is a parameter with explicit hypotheses in most theorems; `Go/FloatText` models the library's and C82 discharges the hypotheses for it.  Arithmetic is modelled on the bits
  (`Go/Ieee`), rounding to nearest even; `Lemmas/IeeeRound` proves that it is correctly rounded and has the standard's exceptional cases.
* Not modelled: network/file system resolvers, SHA-256, gzip/zstd codecs,
  HTML templates, JSON-schema validation rules (a parameter), spreadsheets' zip
  container, the top-k sketch library.

## Properties: what is modelled and how it is proved

* C01 – `SigningBytes` as bytes; split the output at newlines, lines decode to a unique
  component; timestamps formatted digit by digit. Negation witness with a newline.
* C02 – each `Assign` as a fold over optional arguments; generic "last non-empty" spec
  per field, induction over the argument list.
* C03 – heap model (addresses ↦ components); frame theorem for one source, witness for two.
* C04 – JSON tree of a transform; relational theorem over two secret maps.
* C05 – record equalities and frame statement against an independent field list.
* C06, C07 – JSON-tree marshal/unmarshal with Go's field matching; inverse theorems and
  witnesses of loss.  The text layer of encoding/json below the tree (escaping, and the replacement
  of invalid UTF-8) is not part of these statements (C74 has it); base64 of `[]byte` and RFC 3339 times are modelled and
  proved inverse.  Members repeated for a pointer, map or slice field are outside the model.
* C08 – association-list map; membership characterisation.
* C09 – byte-level file names, `filepath.Ext`; case analysis over formats, any base name.
* C10, C11 – digit arithmetic; injectivity by `omega`-style reasoning, collision witnesses.
* C12, C13, C14, C49, C53 – readers and writers as arbitrary state machines (not only terminating
  ones); relations "delivers these entries then this error" and "accepts these entries"; both directions
  of each loop's outcome.  C53 composes the JSON and CBOR round trips through `convert`.  Chains of conversions between
  JSON, newline-delimited JSON, CBOR and CSV are in `Props/ConvertChain`: a body *holds* values if its reader
  drains to them, and every conversion keeps that.
* C15 – producer/consumer transition system over an unbuffered channel; invariant by
  induction over reachable states; reachable stuck state as witness.  Channel operations are atomic; the
  unsynchronised flag `done` may be read stale (a parameter of the transition system).
* C16, C17 – JSON writer and reader over bytes; round-trip by induction on values.
* C18 – `bufio.Reader` (fill, Peek, Discard) and the reader's buffer handling are modelled explicitly, with the source
  delivering arbitrary portions; simulation of a reader that stops at errors (`Spec/JsonClean`) at every alignment, and of the
  reader of the plain text when everything fits; panics are modelled, with a witness for every size.  Slices got by `append`
  have an arbitrary capacity.
* C19 – concrete input as a witness, plus positive theorem on writer output (C16).
* C20, C21, C22 – CBOR bytes; round trip by induction on values; fuel/termination lemma; witnesses.
* C23 – line framing on bytes.  `json.Unmarshal` into an empty interface is modelled on bytes (`Go/JsonParse`:
  literals, numbers as float64 through the float codec, strings with escapes and replacement of invalid UTF-8,
  nesting limit 10000), and proved to invert the encoder up to `jnorm`.
* C24, C25, C57, C58 – CSV cells over byte strings.  `encoding/csv` is modelled on bytes (`Go/Csv`): writer with
  quoting, reader with quotes (also lazy), blank lines, field counts.  Ends of lines are normalised for the whole
  text first, which is the same because the library does it line by line.  Closed form of read-after-write through
  the carriage return repair.  For spreadsheets only the calls of `SetCellValue` and the rows handed over by the
  library are seen.  Nil maps and slices (JSON null in an object or array column) are not told apart from empty ones.
* C26 – byte-level transducer with arbitrary read sizes.
* C27 – invariant over read histories.
* C28, C29 – accumulators as a fold (`Model/Stats`); every statistic is proved to be a function of the values of its
  column.  The number of bins, hyperloglog's estimate and go-topk's counts are a parameter (`Lib`).  Values of the
  types int32 and float32, which no reader of this code delivers, are not modelled.
* C30, C31, C61–C63 – the sketch over any arithmetic (`Model/Sketch`), once with float64 on bits (`Go/Ieee`: addition,
  multiplication, division, square root, conversion of integers, rounding to nearest even) and once with real numbers.
  Counts, extrema and everything before bins are merged is proved for float64; order, range and mean of merged bins
  hold only in real arithmetic, with witnesses of the violations in float64.  Fused multiply-add, which Go may use on
  some architectures, is not modelled; payloads of NaN are not either.  Counts inserted are positive.  Saving and
  loading is also modelled on bytes (`Model/SketchText`), with the parts of `fmt.Fscanln` for ints and floats in `Go/Scan`
  (any notation of Go numbers, binary exponents of decimal digits); lines of floats are split off before they are scanned.
* C32, C33, C56 – schema trees; going through a map is an arbitrary permutation of its members; closed form of
  a column by key.  Problem and error messages are constructors, not text.
* C34, C35, C36, C59, C60 – detection (`Model/Detect`).  A body is what successive reads deliver, with how it ends.
  How many reads CSV detection makes (buffering) and what the carriage return repair delivers are parameters of
  `Env`; so are float parsing and `CreateVarNameFromString`.  `BaseSchemaArray` is one map shared by all structures;
  the model copies it.  Bodies are not decompressed before detection, as in the code.  CSV rows are defined through the
  library reader of `Go/Csv` (with lazy quotes and leading space trimmed); it is proved that it never fails there.
* C37 – `strings.Split` on a list of bytes; an iff.
* C38 – the callback loop over an arbitrary reader (`Model/Validate`), with the JSON writer and `json.Unmarshal` on bytes; iffs
  for the outcomes in terms of the groups of 5000 entries; witnesses for positions and counts.  The jsonschema package is a parameter.
* C64, C65 – loops and decision tables; C64 in terms of the records `Go/Csv` delivers.
* C39 – regular expression matcher vs. direct specification.
* C40 – `Model/Preview` over file contents and any entry reader, with the JSON writer on bytes; what is shown is determined by a
  relation on runs of reader and writer (`Shown`), proved functional; end to end for JSON arrays.
* C41–C45, C54 – byte-level codecs; decision tables; strconv's float text is a parameter.  C42 orders floats by their
  IEEE bits.  C43 models strconv's two kinds of integer errors.
* C55 – typed values as trees that remember which containers are behind pointers; `reflect.DeepEqual` on them.
* C46 – components as JSON trees (`Model/DocJson`), written and read back on bytes, compared member by member (`Model/Diff`);
  gojsondiff's `Compare` is modelled from its documentation, its source is not in the repository; printing is a parameter.
* C47 – the generator over an arbitrary random source, a state machine (`Model/Generate`); the source promises only that `Intn` stays below
  its bound and `NormFloat64` is finite.  A scripted source shows that every row allowed by the specification occurs.
* C66 – `NewFromSample` (`Model/SketchSample`): the tables `d` and `b` are columns computed from each other; backtracking is shown to give a
  decomposition into nonempty parts in any arithmetic (`Back`, `Parts`).  Over real numbers Welford's method gives sums of squared distances
  to means (`welford_step`), the table is a lower bound for every decomposition (`entry_lower`) and attained (`entry_back`), and every
  assignment to centres can be made one by intervals at no higher cost (`clusters`, induction over the sorted centres).
* C67 – files of components (`Model/Files`): files are cells of a list, a resolver is any function of path and files.  The three components
  share one specification (`Scripted`, `OpenSpec`, `InlineSpec`), from which the facts about sequences of calls are derived.
* C68 – comparisons (`Model/Compare`): `deepEq` is shown to be deep equality of NaN-free data (`deepEq_iff`); the comparisons of dstest are
  modelled on values and on the store of C03 (`Heap.compareDatasets`), and the latter is shown to refine the former without side effects.
* C69 – structures to readers and writers (`Model/Formats`): one state type for the readers of all formats and one for the writers; codecs and
  the spreadsheet library are parameters, losslessness is a hypothesis.  Conditions are spelled out on the strings of the structure (`isJSON`,
  `TopIs`, `Packable`, ...); `Fits` collects the conditions of the round trips C16, C20, C23 and C25, which are lifted to files.
* C70 – typed values from JSON (`Model/ValsJson`): the grammar of RFC 8259 is written down once more, complete (`Spec/JsonTree`: invalid UTF-8,
  surrogates, numbers of any size, repeated keys), over trees that keep numbers and strings as written.  The model of the scanner of
  `encoding/json` is proved to accept exactly this grammar (`checkValid_iff`), and so is the decoder used by the NDJSON reader
  (`unmarshal_iff`, giving C23_lines); both were only trusted before.  What a tree is worth (`typed`, `typedTop`) is defined on trees.
* C71 – hashes (`Model/Hash`): SHA-256, multihash and base58 are library code, written out in `Go/Sha256` because they are short; the examples
  check them against the hashes in hash_test.go and structure_test.go.  Texts of structures have their members in the order of the
  struct, unlike the trees of `DocJson`, so the text is modelled here; that it tells structures apart is proved through the JSON
  reader (`text_inj`).
* C72 – durations of periodicities (`Model/Accrual`): compared with a reading of ISO 8601 intervals.
* C73 – CBOR byte strings and the buffer (`Model/CborBuf`): the same reader on the memory of its `bufio.Reader`, byte strings being
  places in it.  `Lemmas/CborBuf` relates it to `Model/Cbor` for any kind of states closed under the three primitives
  (`Keeps`); used once for all states and once for the states in which the whole body is in the buffer.  Models that use
  `Model/Cbor` inside (streams, conversion, formats) treat byte strings as copies; by C73 that is right for values without them.
* C74 – documents as text (`Model/DocText`): the tree of a text with the texts of its strings and numbers (`Go/JsonTreeParse`,
  proved to accept exactly the grammar in `Lemmas/JsonTreeParse`), from which each struct field takes its members in turn.  Writing
  goes through `Val` with members in the order of the struct fields.  C04, C06 and C07 are about trees; C74 carries them to bytes.
* C75 – methods of values (`Model/ValsAccess`): a panic is an error with the method's name and the type; `Keys` goes through a map in
  an order that is a parameter.  A value with a key is `Keyed`, since Go's `ObjectValue` only wraps.
* C76 – time zones (`Model/TimeText`): a `Time` is a date and clock time in Greenwich; reading a text with an offset shifts it.  The
  specification (`Spec/Instant`) counts days by the Gregorian rule and so does not share the day arithmetic of the model.  That a Go
  time remembers its location is left out of the components; `encTimeIn` says how such a time is written.
* C77 – emptiness and bare references (`Model/Doc`, `Model/DocJson`).
* C78 – independence of the stored form (`Model/Streams`, `Model/Formats`, `Model/Stats`, `Model/Validate`, `Model/Preview`): no new
  model; two readers are compared by the values they give.
* C79 – detection and reading together (`Model/Detect`, `Model/Formats`, `Model/Csv`): no new model.
* C80 – array and object cells (`Model/Vals` with the JSON decoder of `Go/JsonParse`): the library functions of `Vals.Lib` are fixed by the hypothesis `Std`.
* C74, trees against text (`Props/DocAgree`): `Means` relates trees of text to JSON trees (strings that read as times must be written without escapes, as
  times are read from the raw text); the tree-level decoders of `Model/DocJson` agree with those of `Model/DocText` wherever they do not say `outside`.
* C81 – `strconv`'s float text (`Go/FloatText`): the scanner of `readFloat` byte by byte (underscores, hexadecimal, clamped exponents), exact fractions
  rounded once; the shortest digits by search.  `Spec/FloatValue` gives floats and texts their values as rationals, in which the theorems are stated.
* C82 – the parameters `FloatCodec`, `CsvIO.Lib` and `Vals.Lib` filled with these functions (`goF`, `goCsv`, `goVals`).
* C83 – the texts written for strings, bytes and cells (`Go/JsonText`, `Go/Base64`, `Go/Csv`) against descriptions by tables and numbers: base64 as digits of one number,
  escapes as a table of 39 characters, quoting by occurrence and by the list of white space in UTF-8.
* C84, C85 – files on disk (`Model/Disk`): golden files, test cases from directories, detection and step files from a path.  A disk is a function from paths to
  nothing, something that cannot be opened, directories and files (with an error after some bytes); `filepath.Join` is modelled without cleaning paths, the cache of test
  cases is left out (it is never read).  C84 composes C68 (comparison), C74 (text of documents) and `Lemmas/Indented` (indented text has the same tree).
* C86 – the command `dsgen` (`Model/Dsgen`, `Go/ParseInt`): `flag.Parse` with the one flag and `strconv.ParseInt(s, 0, 64)` are modelled byte for byte; what is
  printed as help or error is one outcome each, standard output takes every byte.  Rows compose the theorems about random values (`Props/Generate`), about writers and readers for a structure (C69) and about CSV texts.
* C87 – data items of RFC 8949 (`Spec/CborItem`): an `Item` is a data item with its choices of encoding, `Item.encoded` its bytes, `Item.Means` what it stands for
  (tags as remarks, undefined as null, keys texts; values of short floats from IEEE 754 over ℚ).  `Item.Plain` leaves out tags and two-byte simple values, after which
  the reader is out of step; what it does with these is stated on its own.
* C88 – JSON of others (`Spec/JsonMeaning`): `Tree.Means` says what a text of the grammar (`Spec/JsonTree`) stands for: strings with pairs of surrogates, integers of any
  size, objects as maps with each member and nothing else.  `Tree.All` states conditions on all numbers and strings, `ask` puts question marks for surrogates,
  `Lax` is the wider dialect of strings.
* C89 – newline-delimited JSON of others (`Spec/JsonSays`): `Tree.Says N S` says what a text stands for, given what numbers (`N`) and strings (`S`) stand for;
  `FloatSays` takes numbers as floats, `StrReads` takes lone surrogates as U+FFFD.
* C90 – CSV of others (`Spec/CsvText`): `Doubled`, `Cell`, `Row`, `Break` and `Rows` are the grammar of RFC 4180 with the ends of lines of all systems and empty lines.
* C91 – `Fuzz` (`Model/Fuzz`): the buffered JSON reader with a buffer of 262144 bytes; `Lemmas/JsonBufTotal` shows that the buffered reader ends on every text.
* C92 – `EntryBuffer` (`Model/EntryBuffer`): calls in any order; the answers are those of a queue of values (`Props/EntryBuffer`, `fifo`, `strictFifo`, `lateFifo`, and `Props/EntryBufferObj`, `keyedFifo`, `lateKeyed`, and `Props/EntryBufferCsv`, where how much text has left the CSV writer's buffer early is a parameter), by a simulation whose relation says which text is pending.
* C48 – rendering (`Model/Render`): a body file is the bytes it has still to deliver, an entry reader knows what it has not yet taken from
  the file, and what the tee saw is put back.  A template is a tree of calls of `bodyEntries` branching on the answers, so theorems about
  templates are inductions over that tree.  JSON bodies use the buffered reader of C18: a text that fits the buffer is taken at the first
  read (`Lemmas/JsonBufSrc`).  Compressed bodies and other formats are covered by the theorems over every entry reader only.
* C50 – field-update function; frame theorem; witness.
* C51 – induction on the recursion bound: every read consumes input.
* C52 – induction on the grammar with an arbitrary cut position. For the buffered reader (`Lemmas/JsonBufCut`): after a cut text nothing is left but whitespace and letters of a literal, and from there no bracket is found any more; `Lemmas/JsonBufRest` shows that what is unread only gets shorter from the front.
