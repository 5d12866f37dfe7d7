{"id": "C01", "title": "Signing bytes pin down every signed component", "statement": "If two datasets produce identical SigningBytes and none of their identifiers or component paths contain a newline, then they have the same ID, body path, commit timestamp (to the second), and the same path for every component present (meta, readme, structure, transform, stats, viz). A signature therefore cannot be replayed on a dataset with a different component. Without the newline restriction this is false.", "quantifier": "for every pair of datasets", "why_tests_cant": "injectivity over all pairs of datasets; tests compare a handful of fixed outputs", "anchors": ["dataset.go:SigningBytes", "dataset.go:SignableBytes", "kind.go:ComponentTypePrefix"]}
{"id": "C02", "title": "Assign is last-non-empty-wins merging", "statement": "After x.Assign(a1..an) every assignable field of a commit, meta, structure, stats, transform, readme, viz or dataset equals the last non-empty value among x, a1..an (the dataset ID instead keeps the first non-empty value; map-valued transform fields merge key by key), nil arguments are skipped, assigning in two calls equals assigning in one, and assigning the same value twice changes nothing more.", "quantifier": "for every receiver and every finite list of (possibly nil) arguments", "why_tests_cant": "an algebraic law over argument lists of every length and every combination of empty and set fields", "anchors": ["dataset.go:Assign", "commit.go:Assign", "meta.go:Assign", "structure.go:Assign", "stats.go:Assign", "transform.go:Assign", "readme.go:Assign", "viz.go:Assign"]}
{"id": "C03", "title": "Assign must not modify the datasets it copies from", "statement": "Dataset.Assign with one source, or with any number of sources when the receiver already has all its components, leaves every dataset that shares no component with the receiver unchanged; and when receiver and sources share nothing the receiver ends up with exactly the field-wise merge. In general the sources are not safe: with two sources (or two calls) and a nil component in the receiver, the component pointer of the first source is adopted and then written through, so the first source is modified, and repeating a source breaks last-wins.", "quantifier": "for every heap of components, receiver and list of sources", "why_tests_cant": "aliasing between arbitrary object graphs; tests look only at the receiver", "anchors": ["dataset.go:Assign"]}
{"id": "C04", "title": "Secrets never leave in a serialized transform", "statement": "The JSON form of a transform never contains a secret: changing the contents of the secrets map never changes the output, and the output has no secrets member.", "quantifier": "for every transform and every two non-nil secret maps", "why_tests_cant": "non-interference is a relation between all pairs of runs", "anchors": ["transform.go:MarshalJSON", "transform.go:MarshalJSONObject", "transform.go:IsEmpty"]}
{"id": "C05", "title": "Dropping transient and derived values is exact and idempotent", "statement": "DropTransientValues and DropDerivedValues reset precisely the documented fields of a dataset and its components, leave every other field untouched, commute, and a second call has no effect.", "quantifier": "for every dataset with any combination of nil and set components", "why_tests_cant": "frame condition over all fields and component combinations", "anchors": ["dataset.go:DropTransientValues", "dataset.go:DropDerivedValues", "structure.go:DropDerivedValues", "transform.go:DropTransientValues", "readme.go:DropDerivedValues", "viz.go:DropDerivedValues", "commit.go:DropDerivedValues", "meta.go:DropDerivedValues", "stats.go:DropDerivedValues"]}
{"id": "C06", "title": "Component JSON round trip", "statement": "Serializing a commit, stats, readme, viz, transform, structure or dataset document to JSON and parsing the result gives the same document up to the documented defaults (kind string filled in, transient fields dropped). The places where information is really lost (structure with path and no schema, transform secrets, readme/viz path) are exactly characterised.", "quantifier": "for every component value", "why_tests_cant": "an inverse law over all values; unit tests list few documents and miss the lossy corners", "anchors": ["commit.go:MarshalJSON", "commit.go:UnmarshalJSON", "structure.go:MarshalJSON", "structure.go:UnmarshalJSON", "stats.go:MarshalJSON", "readme.go:MarshalJSON", "viz.go:MarshalJSON", "transform.go:MarshalJSON", "dataset.go:MarshalJSON", "dataset.go:UnmarshalJSON"]}
{"id": "C07", "title": "Meta JSON round trip keeps standard fields and arbitrary metadata", "statement": "Serializing a meta and parsing it back preserves every standard field, and preserves the arbitrary metadata except for reserved names; it is false in general: a meta with keywords gains an arbitrary \"keywords\" entry, arbitrary entries named data, image, length, timestamp or keyword are lost, and a meta holding only a path and arbitrary entries loses the entries.", "quantifier": "for every meta value including its arbitrary key/value map", "why_tests_cant": "needs all interactions of arbitrary keys with field names", "anchors": ["meta.go:MarshalJSON", "meta.go:UnmarshalJSON", "meta.go:IsEmpty"]}
{"id": "C08", "title": "PathMap lists exactly the present components", "statement": "PathMap of a dataset has the keys \"dataset\" and \"body\" iff the respective path is non-empty and not ignored, the key of a component iff the component is present and not ignored, each mapped to that component's own path, and nothing else.", "quantifier": "for every dataset and ignore list", "why_tests_cant": "set equality over all datasets and ignore lists", "anchors": ["dataset.go:PathMap"]}
{"id": "C09", "title": "Body file name and format detection are inverse", "statement": "For every structure whose format and compression the package recognises, in any accepted spelling, the file name it proposes for any base name is detected as exactly that format and compression; conversely every detected name is some base name with those extensions added, so proposed names of different formats never coincide. A structure without a format gets a body name nothing is detected from.", "quantifier": "for every structure with a supported format, and every base file name", "why_tests_cant": "all names including ones with extra dots and slashes", "anchors": ["structure.go:BodyFilename", "detect/detect.go:FormatFromFilename", "data_format.go:ParseDataFormatString"]}
{"id": "C10", "title": "Generated column names", "statement": "Generated abstract column names are non-empty words of lower case letters for every column, and pairwise distinct for the first 702 columns. Beyond they are not: column 676 and column 702 both become \"aaa\", and so on for the 26 columns from every multiple of 676.", "quantifier": "for every pair of column indexes below 702", "why_tests_cant": "injectivity over all pairs; the unit test samples a few indexes", "anchors": ["structure.go:AbstractColumnName", "structure.go:base26"]}
{"id": "C11", "title": "Spreadsheet column letters", "statement": "For every column index a spreadsheet can have (below 17576) the column reference written is the one upper case word whose bijective base-26 value is that column, and distinct columns get distinct references; the first index where it breaks is 17576, which is named \"ZA\".", "quantifier": "for every column index below 17576", "why_tests_cant": "unit tests sample a few indexes", "anchors": ["dsio/xlsx.go:ColIndexToLetters", "dsio/xlsx.go:intToBase26", "dsio/xlsx.go:smooshBase26Slice", "dsio/xlsx.go:formatColumnName"]}
{"id": "C12", "title": "Paged reading is exactly the requested window", "statement": "Reading entries through a paged reader with offset o and limit l yields exactly entries o..o+l of the underlying reader in order and then end-of-file (no limit when negative), errors of the underlying reader surface unchanged, and no more than o+l entries are consumed. A negative offset skips nothing.", "quantifier": "for every underlying entry sequence with any error position, offset and limit", "why_tests_cant": "all lengths and error positions", "anchors": ["dsio/streams.go:PagedReader.ReadEntry"]}
{"id": "C13", "title": "Copy transfers every entry in order or reports an error", "statement": "Copy reports success only if the reader reached end-of-file and the writer accepted every entry, and then the writer received exactly the reader's entries in order; on an error the writer received exactly the entries read before it. EachEntry calls its function on exactly the entries in order, numbered from 0; unlike Copy it takes any error reading 'EOF', also one of the function, for the end.", "quantifier": "for every reader behaviour and every writer behaviour", "why_tests_cant": "all failure positions", "anchors": ["dsio/streams.go:Copy", "dsio/entry.go:EachEntry"]}
{"id": "C14", "title": "ConvertFile reports failures", "statement": "ConvertFile returns success only when the whole input was converted. False of the code: an error raised while copying is dropped and truncated output is returned as success.", "quantifier": "for every input and failing position", "why_tests_cant": "requires fault positions tests do not inject", "anchors": ["dsio/dsio.go:ConvertFile", "dsio/streams.go:Copy"]}
{"id": "C15", "title": "In-memory reader delivers every value once and in order under every schedule", "statement": "An identity (in-memory) reader backed by a producer goroutine delivers the container's values once each, in order (maps in any order), for every interleaving of producer and consumer; end-of-file is only reported after every value was delivered, every run is finite, and the first as many reads as there are values never hang. It is not free of hangs: for every container some interleaving leaves the last ReadEntry, and some a Close after the last value, blocked for ever.", "quantifier": "for every container and every interleaving of producer and consumer steps", "why_tests_cant": "goroutine schedules cannot be enumerated by tests", "anchors": ["dsio/identity.go:IdentityReader.ReadEntry", "dsio/identity.go:iterateMap", "dsio/identity.go:iterateSlice", "dsio/identity.go:Close"]}
{"id": "C16", "title": "JSON body round trip", "statement": "Writing any sequence of entries with the JSON writer and reading the bytes back with the JSON reader returns the same entries in the same order followed by end-of-file, for arrays and for objects with distinct non-empty keys.", "quantifier": "for every sequence of entries built from null, booleans, 64-bit integers, valid UTF-8 strings, floats whose text has a fraction or exponent, nested arrays and objects, and every whitespace indent", "why_tests_cant": "an inverse law over unbounded nested values", "anchors": ["dsio/json.go:JSONWriter.WriteEntry", "dsio/json.go:JSONWriter.Close", "dsio/json.go:JSONReader.ReadEntry"]}
{"id": "C17", "title": "JSON writer always emits one well-formed container", "statement": "After any sequence of successful writes and a close, the output is a syntactically valid JSON array (or object) whose elements are the encodings of the written entries; rejected entries contribute nothing. False when the first write is the one rejected: the output is then well-formed only if nothing at all is accepted, otherwise it starts \"[,\".", "quantifier": "for every sequence of write attempts including failing ones", "why_tests_cant": "all failure patterns", "anchors": ["dsio/json.go:JSONWriter.WriteEntry", "dsio/json.go:JSONWriter.Close", "dsio/json.go:JSONWriter.valBytes"]}
{"id": "C18", "title": "JSON reading and how bytes arrive", "statement": "For every buffer size and every way the source portions its bytes, a JSON reader delivers the same entries up to the first error of the text, and the end of the body if there is no error; so every well-formed document, and everything a JSON writer wrote of supported values, comes back in full at every alignment. If the whole text is in the buffer with four bytes to spare, malformed texts too are read exactly as from memory, errors included. Violations, for malformed texts only: for every buffer size there is a text on which the reader panics where a larger buffer reports an error; a cut-off escape panics or stands for a question mark depending on the size; a misspelt word in a nested array makes the entries delivered depend on the size.", "quantifier": "for every input, buffer size and sequence of read sizes", "why_tests_cant": "all alignments of tokens with buffer boundaries", "anchors": ["dsio/json.go:NewJSONReaderSize", "dsio/json.go:currentBuffer", "dsio/json.go:extendBuffer", "dsio/json.go:readString", "dsio/json.go:readLiteralToken", "dsio/json.go:readNumber"]}
{"id": "C19", "title": "JSON reader never silently loses data", "statement": "If a JSON reader reports clean end-of-file then everything in the container was delivered. True of every well-formed document whose integers fit 64 bits, surrogate pair escapes aside. False in general: an error in the first element of a nested array is swallowed and the rest of the body disappears, and surrogate pair escapes turn into question marks.", "quantifier": "for every byte input", "why_tests_cant": "universal over malformed and extreme inputs", "anchors": ["dsio/json.go:readArray", "dsio/json.go:JSONReader.ReadEntry"]}
{"id": "C20", "title": "CBOR body round trip", "statement": "Encoding entries with the CBOR writer and decoding with the CBOR reader returns the same entries (contents of byte strings as they are when read; they share the reader's buffer, see C73). Holds for null, booleans, non-negative integers, negative integers down to -24, 64-bit floats, strings and byte strings up to 4096 bytes, arrays and maps; false for integers below -24 and longer strings, which are written but rejected by the reader. Rejected writes leave no trace in the output.", "quantifier": "for every sequence of entries in the stated value domain", "why_tests_cant": "inverse law over unbounded nested values", "anchors": ["dsio/cbor.go:CBORReader.ReadEntry", "dsio/cbor.go:CBORWriter.WriteEntry", "dsio/cbor.go:readValue"]}
{"id": "C21", "title": "CBOR reading is total and makes progress", "statement": "For every byte sequence the CBOR reader terminates with entries and then end-of-file, an error or a crash, and consumes at least one byte for each entry it returns; nesting depth is bounded by the input length; a body of the other container kind yields no entries. A crash is possible: ten bytes declaring a huge nested array suffice.", "quantifier": "for every byte sequence", "why_tests_cant": "termination on all inputs", "anchors": ["dsio/cbor.go:readValue", "dsio/cbor.go:readArray", "dsio/cbor.go:readMap"]}
{"id": "C22", "title": "A truncated CBOR body is reported as an error", "statement": "If the body is cut short, reading reports an error other than end-of-file. False: declared lengths are never enforced at the top level, so cutting at (or inside) any element is reported as clean end-of-file.", "quantifier": "for every encoded body and every cut position", "why_tests_cant": "all crash/cut positions", "anchors": ["dsio/cbor.go:CBORReader.ReadEntry", "dsio/cbor.go:readTopLevel", "dsio/cbor.go:readBytes"]}
{"id": "C23", "title": "Newline-delimited JSON round trip and framing", "statement": "Every entry without infinities or NaNs is written as exactly one line of newline-delimited JSON. Reading back returns the entries in order, numbered from 0, and unchanged if they are made of null, booleans, floats that print faithfully, strings of valid UTF-8, arrays and maps nested up to 10000 deep. Integers come back as floats, deeper values cannot be read back, a line is read exactly if it is one JSON text of RFC 8259 nested at most 10000 deep with numbers in the range of float64, and gives the value it denotes; a bad line is skipped over with an error, and a final line without newline is silently dropped.", "quantifier": "for every list of entries", "why_tests_cant": "all values, including strings with newlines", "anchors": ["dsio/ndjson.go:NDJSONReader.ReadEntry", "dsio/ndjson.go:NDJSONWriter.WriteEntry"]}
{"id": "C24", "title": "CSV cell typing", "statement": "Decoding a CSV row converts each cell to the declared column type exactly when the text is a valid literal of that type and otherwise returns the text unchanged; row length and cell order are preserved; rows longer than the schema keep all cells as text. A column has the first of its declared types; opening fails exactly for schemas that describe no columns and panics exactly when a column declares an empty list of types.", "quantifier": "for every row and column schema", "why_tests_cant": "all row/schema length combinations and literals", "anchors": ["dsio/csv.go:CSVReader.decode", "vals/type.go:Parse"]}
{"id": "C25", "title": "CSV row round trip", "statement": "Rows of the table's width made of integers, booleans, nulls in null columns, faithfully printing floats, arrays and objects of JSON data, and strings that are no literals of their column's type, written as CSV and read back with the schema, return the same rows in order, with or without header, for every usable separator and all read sizes, provided no row is a single empty cell and no string contains a carriage return. What is read back from other rows is given exactly: rows without text are lost, line ends in cells become line feeds, a header without text costs the first row. A row of another width, and an unusable separator, are errors; an unreadable header costs another row.", "quantifier": "for every row and schema", "why_tests_cant": "inverse law over all strings including quotes, separators and newlines", "anchors": ["dsio/csv.go:CSVWriter.WriteEntry", "dsio/csv.go:CSVReader.ReadEntry", "dsio/csv.go:encode"]}
{"id": "C26", "title": "Carriage-return repair is transparent", "statement": "Reading through the carriage-return replacing reader yields the source bytes with a newline inserted after each lone carriage return as long as no read ends in a carriage return, and text without lone carriage returns unchanged for all caller buffer sizes. At most such newlines are ever inserted. For every buffer size there is an input whose lone carriage return, in the last slot of the buffer, is left unrepaired.", "quantifier": "for every input and every sequence of read sizes", "why_tests_cant": "all alignments of carriage returns with read boundaries", "anchors": ["dsio/replacecr/replace_cr.go:Read"]}
{"id": "C27", "title": "Tracked reader counts bytes exactly", "statement": "After any sequence of reads the tracked count equals the number of bytes handed to the caller, including partial reads with errors.", "quantifier": "for every underlying reader behaviour and sequence of read sizes", "why_tests_cant": "invariant over all read histories", "anchors": ["dsio/tracked_reader.go"]}
{"id": "C28", "title": "Numeric column statistics", "statement": "Calculating statistics never panics (with at least one bin asked for) and depends only on the values of the entries up to the end; a failure of the reader is returned. For a column that begins with a number, of the numbers in it, whatever integer or float types are mixed: count is their number; mean is their float64 sum divided by their number, for whole numbers with sums up to 2^53 the float64 nearest to the true mean; min and max are the extrema; with at most 32 different values the histogram lists exactly these, in order, with their numbers of occurrences, and one more than the maximum, and the median is the first value for which all smaller ones and half its own occurrences are at least half; with more, the frequencies without sign still add up to the count. Violations: min is never above 2^63 and max never below -2^63, a median of 2^63 is left out, the median of 1, 1, 1, 2 is 2, merged bins have negative frequencies, and closing twice divides the mean twice.", "quantifier": "for every sequence of rows", "why_tests_cant": "invariant over histories of any length", "anchors": ["dsstats/stats.go:numericAcc", "dsstats/stats.go:CalculateFromEntryReader", "dsstats/stats.go:Close"]}
{"id": "C29", "title": "Column statistics are those of the columns", "statement": "If the first row is an array, the statistics reported are, column by column for every column any row has, those of the values of that column alone; if it is an object, key by key in order of keys, those of the values under that key alone, with the key; otherwise there is one statistic for all values. Nested arrays and objects are described in the same way. The type of a statistic is fixed by the first value of its column and later values of other types have no influence. Booleans: count, trueCount and falseCount are exact. Nulls are counted. Strings: count and extrema of the lengths are exact and each string the counter delivers is reported with its count, long ones under names that never collide. The order in which Go goes through maps makes no difference. Violations: a column that begins with a null reports only nulls; statistics of nested members called key or type are overwritten; names of long strings can be cut inside a character.", "quantifier": "for every sequence of rows of varying width and kind", "why_tests_cant": "invariants over histories; all orders of map iteration", "anchors": ["dsstats/stats.go:objectAcc", "dsstats/stats.go:arrayAcc", "dsstats/stats.go:stringAcc", "dsstats/stats.go:boolAcc", "dsstats/stats.go:nullAcc", "dsstats/stats.go:newAccumulator", "dsstats/stats.go:ToMap"]}
{"id": "C30", "title": "Histogram sketch conserves mass, order, extrema and size", "statement": "New refuses zero bins; otherwise no insertion ever panics and there are at most as many bins as asked for. In float64 arithmetic, up to 2^53 values: the counter and the weights of the bins both add up exactly to the number of values inserted (also by Merge), the extrema are those of the values, each value has its own bin with its exact number of occurrences, in order, while there are no more different values than bins, and the bins merged are the closest neighbours. But for rounding, bins stay sorted and within the extrema and keep the mean. Violations: rounding can put a merged bin below the minimum or overflow to infinity, a NaN destroys the order, the counter stops at 2^53, and Merge forgets the other sketch's extrema.", "quantifier": "for every sequence of insertions and number of bins", "why_tests_cant": "invariant over unbounded histories", "anchors": ["dsstats/histosketch/histosketch.go:New", "dsstats/histosketch/histosketch.go:AddMany", "dsstats/histosketch/histosketch.go:Merge"]}
{"id": "C31", "title": "Saving and loading a histogram sketch", "statement": "A sketch loaded from the bytes it was saved as has the same bins and extrema (a NaN comes back as some NaN), and room for exactly the bins it has; bytes after it are not looked at. Its counter is the sum of the signed weights, which is the original count exactly if no bins have been merged: otherwise it is too low, and Quantile may panic on a loaded sketch. Adding to a loaded empty sketch panics. Saved data that is cut is an error and never a panic, unless only the end of the greatest value is missing: if what is left of its text is a number, the data loads without error with this number as the greatest value. Data cut after some lines leaves the sketch loaded into with the bins of these lines, their sum as its counter, and its own old extrema; so does a line with more than two numbers. With more than two numbers on the last line everything is loaded, yet there is an error. A number of bins below -1 or of 2^44 and more is a panic.", "quantifier": "for every sketch reached by insertions, every cut of its bytes, every sketch loaded into", "why_tests_cant": "requires sketches past capacity, and cuts at every byte", "anchors": ["dsstats/histosketch/histosketch.go:MarshalBinary", "dsstats/histosketch/histosketch.go:UnmarshalBinary"]}
{"id": "C32", "title": "Column extraction from a schema is deterministic", "statement": "The columns (titles, types, descriptions, validation), problems and errors got from a tabular JSON schema do not depend on map iteration order; there is one column per schema item, made of the item's members by key; untitled columns get the generated name of their position; problems list exactly the items that are no objects, lack a title or lack a type.", "quantifier": "for every schema and every map iteration order", "why_tests_cant": "iteration order is random; tests see one order per run", "anchors": ["tabular/tabular.go:ColumnsFromJSONSchema"]}
{"id": "C33", "title": "Column title checks", "statement": "Machine-title validation succeeds iff all titles are non-empty valid identifiers and pairwise distinct; it reports exactly the positions of invalid titles and of repetitions of an earlier title. A schema without any titles gives columns that pass, but a generated title can be one another column was given.", "quantifier": "for every column list", "why_tests_cant": "all pairs of titles", "anchors": ["tabular/tabular.go:ValidMachineTitles"]}
{"id": "C34", "title": "Structure detection preserves what the user set and the body stream", "statement": "Detecting a structure never changes a field the user already set, fills format, compression and schema if they are missing and the format configuration if it is missing and of the detected format, and leaves the body readable from the beginning with identical bytes, name and end. A complete structure is returned without looking at the body. Detection fails exactly if something is missing and there is no body, its name says no format, or its contents are not understood; the structure is then unchanged, but what was read of the body is lost. Detecting again changes nothing. The bytes are looked at as they are, so a compressed JSON or CBOR body without a schema is always refused.", "quantifier": "for every dataset and body", "why_tests_cant": "frame condition over all fields", "anchors": ["detect/detect.go:Structure"]}
{"id": "C35", "title": "JSON top-level type detection", "statement": "Detection reports array or object according to the first byte that is no white space, and an error for any other byte, provided the first read is not shorter than the buffer of 100 bytes and white space only; in that case every text is an error, so arrival matters. The byte count returned is the number of bytes taken from the source.", "quantifier": "for every input and chunking", "why_tests_cant": "all chunkings", "anchors": ["detect/json.go:JSONSchema"]}
{"id": "C36", "title": "CBOR detection agrees with the CBOR reader", "statement": "CBOR schema detection yields an array (object) schema exactly for inputs whose first byte has the major type array (map), however the bytes arrive; the CBOR reader opens exactly those of them whose first byte is followed by the announced bytes of length, as what was detected. So everything that opens is detected, but reserved or cut lengths are detected although they do not open.", "quantifier": "for every first byte / body", "why_tests_cant": "all header bytes", "anchors": ["detect/cbor.go:CBORSchema", "dsio/cbor.go:readTopLevel"]}
{"id": "C37", "title": "Step file round trip", "statement": "Writing transform steps and reading them back gives the same scripts iff the list is non-empty, no script contains the separator and no script but the last ends with a newline plus three dashes; reading any file and writing its steps gives the file back byte for byte.", "quantifier": "for every list of scripts", "why_tests_cant": "iff over all strings including overlaps with the separator", "anchors": ["stepfile/stepfile.go:Read", "stepfile/stepfile.go:Write"]}
{"id": "C38", "title": "Batched body validation sees every row exactly once", "statement": "Validating a body ends well exactly when the schema can be used, the reader delivers its entries up to an end of file, and every group of 5000 consecutive entries can be written as one JSON document; the problems are those of the groups' documents, each checked on its own, in order. So for rules that look at rows one by one every row is checked exactly once, and if they do not mention row numbers the problems are those of validating the body at once. Otherwise this is false: positions are relative to the batch, rules about the number of rows are applied to batches, keys repeated in different batches go unnoticed, and an empty body is never validated. Read, write and parse errors end validation and drop the problems found before.", "quantifier": "for every reader, schema validator and body length", "why_tests_cant": "bodies longer than 5000 rows with any boundary", "anchors": ["validate/data.go:EntryReader", "validate/data.go:flushBatch", "dsio/entry_buffer.go"]}
{"id": "C39", "title": "Dataset name validity", "statement": "A name is valid iff it starts with an ASCII letter followed by at most 143 letters, digits or underscores.", "quantifier": "for every byte string", "why_tests_cant": "language equality", "anchors": ["validate/validate.go:ValidName"]}
{"id": "C40", "title": "Preview is bounded and marks truncation", "statement": "The preview of a body is the JSON text of the entries its reader delivers, up to the hundredth, the first that cannot be read or the first that cannot be written; so a damaged body previews the rows before the damage without an error, and a well-formed JSON array gives a text that reads back as its first hundred elements; a well-formed JSON object gives a text that reads back as its first hundred members, in the order of the text, and a member with an empty key or a key that appeared before ends the preview there. A readme with an open script file is shown whole if shorter than 997 bytes and otherwise as its first 997 bytes and an ellipsis, also when it has exactly 997 bytes and nothing was cut. Both files still read as before after success; readme text and bodies already in the dataset are neither read nor bounded. The dataset given is changed in place, also on errors; nothing but the readme's text, the two files and the body changes. A body file without a structure panics; nil and empty datasets, among them one with nothing but an open body file, are refused.", "quantifier": "for every dataset, reader and file content", "why_tests_cant": "all body and readme lengths, and readers failing anywhere", "anchors": ["preview/preview.go:Create", "dsio/dsio.go:ConvertFile"]}
{"id": "C41", "title": "Integer and boolean literals round trip through text", "statement": "Rendering an integer, boolean, string or number cell to text and parsing it with its type gives the value back, and exactly values of the type's Go type can be rendered. Parsed booleans, strings and numbers can be rendered again; parsed integers never can.", "quantifier": "for every 64-bit integer, boolean, string and float that prints faithfully", "why_tests_cant": "all values at the range limits", "anchors": ["vals/type.go:Parse", "vals/type.go:ValueToString"]}
{"id": "C42", "title": "Typed comparison is a total preorder", "statement": "Comparing encoded strings, integers or numbers (empty texts included) reports exactly which value comes first, so it is reflexive, antisymmetric in sign and transitive, and sorting is well defined. Not so with NaN, which compares as less than itself; other types are never compared.", "quantifier": "for every three encoded values", "why_tests_cant": "order laws quantify over triples", "anchors": ["vals/compare.go:CompareTypeBytes"]}
{"id": "C43", "title": "Type sniffing is sound", "statement": "When the type of a text cell is guessed as number or boolean, parsing the text as that type succeeds; guessed as integer, parsing succeeds exactly unless the digits exceed the 64-bit range; guessed as null, parsing always fails. The text of every 64-bit integer is guessed as integer.", "quantifier": "for every byte string", "why_tests_cant": "all strings", "anchors": ["vals/type.go:ParseType", "vals/type.go:Parse"]}
{"id": "C44", "title": "Enumerations and their names are inverse", "statement": "Parsing the printed name of a data format, value type or compression format gives it back, as text and as JSON, and unknown names are rejected. Exceptions: the byte type prints as nothing, and the unknown format and type have no JSON form that reads back.", "quantifier": "for every enumeration value and every string", "why_tests_cant": "every string must be rejected except the known names", "anchors": ["data_format.go:ParseDataFormatString", "vals/type.go:TypeFromString", "compression/compression.go:ParseFormat"]}
{"id": "C45", "title": "Format options round trip", "statement": "Format options converted to a map and parsed back are the same options, except that CSV options with a separator never parse back. A CSV options map is accepted iff its flags are absent, null or booleans and its separator is absent, null or one byte of text, and each option then is the one given.", "quantifier": "for every options value", "why_tests_cant": "all option combinations", "anchors": ["data_format_config.go:NewCSVOptions", "data_format_config.go:CSVOptions.Map", "data_format_config.go:NewJSONOptions", "data_format_config.go:NewXLSXOptions"]}
{"id": "C46", "title": "Dataset diff reports a change iff a component changed", "statement": "For structure, transform, metadata and visualisation, a diff lists each field whose value differs as a JSON reader sees it (numbers as float64, invalid UTF-8 replaced), once; a missing component counts as an empty one, and script paths present in both transforms do not count. Equal paths of two characters or more hide every difference except in structures, while different paths of equal components are themselves a difference (but for visualisations). Bodies, readmes, commits and stats are never compared; dereferenced bodies are, but arrays fail. The result holds every component compared, also unchanged ones; the summary, in any style, is that of the first kind in the order structure, data, transform, meta, viz that has one, and the one line summary is empty exactly if nothing differs.", "quantifier": "for every pair of datasets", "why_tests_cant": "pairs of datasets", "anchors": ["dsdiff/dsdiff.go:DiffDatasets", "dsdiff/dsdiff.go:DiffStructure", "dsdiff/dsdiff.go:DiffTransform", "dsdiff/dsdiff.go:DiffMeta", "dsdiff/dsdiff.go:DiffViz", "dsdiff/dsdiff.go:DiffJSON", "dsdiff/dsdiff.go:MapDiffsToString", "dsdiff/dsdiff.go:SummarizeToString"]}
{"id": "C47", "title": "Generated rows fit their columns", "statement": "A generator can be made for exactly the schemas listing columns. Whatever the random source returns, reading from it never ends or fails: the n-th entry has index n and one value per column, for the column's first type: text of letters and digits shorter than the maximum, non-negative integers, finite numbers, true (never false), empty objects and arrays, null, and any of these scalars for unknown types; and every sequence of such rows can occur. It panics exactly if a column has no type names (or, for strings, if the maximum is not positive). Written as CSV with at least two columns of known types it reads back with the same values; a single column loses empty strings.", "quantifier": "for every random source, schema and number of reads", "why_tests_cant": "all random streams", "anchors": ["generate/value.go", "generate/tabular.go:NewTabularGenerator", "generate/tabular.go:ReadEntry", "generate/dsgen/main.go:generateFile"]}
{"id": "C48", "title": "What templates get, and what rendering leaves", "statement": "Rendering needs a viz component of format html and a script; the script stays available. Templates get the dataset as a JSON reader sees it. For every entry reader, asking for a page with non-negative offset and limit gives exactly the entries of that page, and any negative argument gives the whole body. Afterwards the body file has only the bytes the reader took for that, and after an error not even those. For a JSON body that fits the reader's buffer this means: for every template, however often and in whatever order it asks, all pages come from the same body and the body is unchanged afterwards, unless it asks for no entries from offset 0, which loses every body; and for every buffer size there is a larger valid body of which a page leaves just a beginning that can no longer be read. Human readable sizes use the largest unit not exceeding the value, up to petabytes. Type names string, object, array, boolean and number tell exactly the values of these types; other names are errors. The title is the meta title, or else peername/name.", "quantifier": "for every entry reader, template, body, page and number", "why_tests_cant": "all bodies, all sequences of calls by templates", "anchors": ["dsviz/render.go:Render", "dsviz/render.go:bodyEntries", "dsviz/render.go:readEntries", "dsviz/render.go:vizDataset", "dsviz/render.go:printByteInfo", "dsviz/render.go:isType"]}
{"id": "C49", "title": "Reading a whole body", "statement": "ReadAll returns exactly the entries of the reader in order for arrays and the last value of each key for objects; it fails iff the reader fails.", "quantifier": "for every reader behaviour", "why_tests_cant": "all error positions", "anchors": ["dsio/dsio.go:ReadAll", "dsio/dsio.go:ReadAllArray", "dsio/dsio.go:ReadAllObject"]}
{"id": "C50", "title": "Setting metadata by key", "statement": "Setting a metadata key changes exactly the field that key names and a later lookup returns the value. The keys that name a field are exactly the spellings of its name in small and capital letters (for k and i also the Kelvin sign and the capital I with a dot) between any amount of Unicode white space; every other key is kept as arbitrary metadata. A rejected value does not leave the metadata unchanged: a string field becomes empty, a list of strings absent, a license loses everything but a readable new type, citations and contributors become the elements before the first unreadable one followed by gaps; only citations and contributors that are no arrays change nothing.", "quantifier": "for every meta, key and value", "why_tests_cant": "frame condition over all keys", "anchors": ["meta.go:Set", "meta.go:SetArbitrary", "meta.go:Decode"]}
{"id": "C51", "title": "JSON reading is total", "statement": "On every byte input, well-formed or not, repeatedly asking a JSON reader for entries ends with end-of-file or an error after at most one entry per input byte; there is no endless loop or unbounded recursion. This holds for every size of the buffer and every way the bytes arrive, except that a malformed text longer than the buffer may end in a panic (C18).", "quantifier": "for every byte string, both container kinds, every buffer size and read sizes", "why_tests_cant": "all malformed inputs", "anchors": ["dsio/json.go:JSONReader.ReadEntry", "dsio/json.go:readValue", "dsio/json.go:readObject", "dsio/json.go:readArray"]}
{"id": "C52", "title": "A truncated JSON body is noticed", "statement": "If a JSON body of RFC 8259 whose integers fit 64 bits and whose other numbers are floating point numbers is cut anywhere before its closing bracket, reading it does not end in a clean end-of-file: it ends in an error or, if a string that reaches past the end of the buffer is cut open, possibly in a panic (C18), whatever the size of the buffer and the way the bytes arrive. There is no panic if the text arrives at once, or has at most 4096 bytes, and leaves four bytes of the buffer free. With a number that does not fit, a cut may go unnoticed.", "quantifier": "for every JSON document, every cut position, every buffer size and read sizes", "why_tests_cant": "all documents and all cut positions", "anchors": ["dsio/json.go:JSONReader.ReadEntry", "dsio/json.go:readArray", "dsio/json.go:readObject", "dsio/json.go:readString"]}
{"id": "C53", "title": "Converting a body between formats keeps the data", "statement": "Converting a JSON body written by the JSON writer to CBOR, or a CBOR body to JSON, with ConvertFile gives a body that reads back as the same values in the same order (object members in key order). Converting a body of rows between any two of JSON, newline-delimited JSON, CBOR and CSV, whoever wrote it, gives a body that reads back as the same values in the same order, provided the target format carries them; so does every chain of such conversions.", "quantifier": "for every list of entries with values the formats carry, and every chain of formats", "why_tests_cant": "composition of codecs over unbounded nested values, unboundedly often", "anchors": ["dsio/dsio.go:ConvertFile", "dsio/streams.go:Copy", "dsio/json.go:JSONReader.ReadEntry", "dsio/cbor.go:CBORWriter.WriteEntry", "dsio/ndjson.go:NDJSONReader.ReadEntry", "dsio/csv.go:CSVWriter.WriteEntry"]}
{"id": "C54", "title": "Kinds can be taken apart", "statement": "A kind accepted from JSON has a two byte type and a non-empty version that can be taken from it without a crash; accepted are exactly strings of four bytes or more, so the separator is not checked. A component type prefix put before a word gives back type and word. The package's own kinds have pairwise different types.", "quantifier": "for every string", "why_tests_cant": "every string", "anchors": ["kind.go:Valid", "kind.go:Type", "kind.go:Version", "kind.go:UnmarshalJSON", "kind.go:ComponentTypePrefix"]}
{"id": "C55", "title": "Decoded data as typed values", "statement": "Decoded data converts to a typed value iff no raw bytes are in it, and two separately converted pieces of data are Equal iff they are the same data, element by element and member by member (integers of any Go type alike, NaN unequal to itself). False across constructors: an array held directly never equals the same array behind a pointer.", "quantifier": "for every pair of decoded values", "why_tests_cant": "all nesting depths and pairs", "anchors": ["vals/coding.go:ConvertDecoded", "vals/compare.go:Equal"]}
{"id": "C56", "title": "Column types as JSON", "statement": "Column types written as JSON and read back are the same types; only the empty list of types cannot be written, and a schema gives such a column iff its type is a list without strings. Read as column types are exactly null, a string, or a list of strings and nulls, null counting as an empty name.", "quantifier": "for every list of types and every JSON value", "why_tests_cant": "all lists and values", "anchors": ["tabular/tabular.go:ColType.MarshalJSON", "tabular/tabular.go:ColType.UnmarshalJSON", "tabular/tabular.go:ColType.HasType", "tabular/tabular.go:ColumnsFromJSONSchema"]}
{"id": "C57", "title": "Reading CSV ends", "statement": "On every text, whatever the errors on the way, each call of a CSV reader takes at least one byte or reports the end; the end is reported after at most as many calls as there are bytes, and from then on always.", "quantifier": "for every byte string and every schema and option", "why_tests_cant": "termination on all malformed inputs", "anchors": ["dsio/csv.go:CSVReader.ReadEntry"]}
{"id": "C58", "title": "Spreadsheet cells", "statement": "The spreadsheet writer puts cell j of the i-th accepted row at column letters j, row i+1, with the text the CSV writer would use, sets nothing else, and no two cells share an address (up to 17576 columns). It refuses exactly entries that are no rows or hold byte strings or values without JSON text, which then leave no trace. Rows handed over by the library are delivered in order, numbered, and typed, so rows that fit their columns come back.", "quantifier": "for every list of entries", "why_tests_cant": "all tables", "anchors": ["dsio/xlsx.go:XLSXWriter.WriteEntry", "dsio/xlsx.go:encodeStrings", "dsio/xlsx.go:axis", "dsio/xlsx.go:XLSXReader.ReadEntry", "dsio/xlsx.go:decode"]}
{"id": "C59", "title": "CSV detection", "statement": "CSV detection fails exactly on texts without rows. Otherwise the schema has one column per cell of the first row; the type of a column is the most frequent type of its cells, of equally frequent ones the first in the order of types, over the rows as wide as the first, up to and including the 2001st such row, and over the first row itself unless that can be a header. It can be a header exactly if every cell, without surrounding space, is not empty, no number and neither true nor false; then it gives the titles and the header option is set, otherwise titles are field_1, field_2, and so on. The option for rows of varying width is set exactly if an examined row has another width than the first. The schema always opens, with a type per column, and the options parse. The rows of a written text are the records written, without blank ones. Detection drops spaces after a separator while the reader keeps them, so detected integers can be read as text.", "quantifier": "for every byte string", "why_tests_cant": "all tables and all distributions of types over rows", "anchors": ["detect/determineFields.go:CSVSchema", "detect/determineFields.go:possibleCsvHeaderRow", "detect/determineFields.go:getKeys"]}
{"id": "C60", "title": "Schema of rows in memory", "statement": "The schema made for an array of rows is accepted as tabular, without problems, and describes the first row: as many columns as values, titled col_0, col_1, and so on, which pass the title check, and typed number, boolean, null, or string by the value; later rows have no influence. Empty arrays, objects, and arrays that begin with something else than an array are errors; any other value gives an empty schema without an error, from which no columns can be read.", "quantifier": "for every value", "why_tests_cant": "all rows", "anchors": ["detect/detect.go:TabularSchemaFromTabularData", "detect/detect.go:goDataType"]}
{"id": "C61", "title": "Estimated number of values up to a point", "statement": "While there are no more different values than bins, Sum(p) is exactly the number of values not above p (float64, up to 2^53 values). After merging, but for rounding, it is still between zero and the number of values. Violation: it is not monotone; it falls just above an exact bin followed by a merged one.", "quantifier": "for every sequence of insertions and every p", "why_tests_cant": "exact statement over unbounded histories", "anchors": ["dsstats/histosketch/histosketch.go:Sum"]}
{"id": "C62", "title": "Quantiles and the median", "statement": "While there are no more different values than bins, Quantile(p) for 0 <= p <= 1 is one of the values: the first for which all smaller values and half its own occurrences are more than p times the number of values, or else the greatest (float64, up to 2^51 values). Median asks for 0.4999999; up to 2^22 values that is the first value for which all smaller values and half its own occurrences are at least half of the values. After merging, but for rounding, quantiles lie between the extrema. Violation: this is not the documented quantile; the median of three ones and a two is reported as 2.", "quantifier": "for every sequence of insertions and every p", "why_tests_cant": "exact statement over unbounded histories", "anchors": ["dsstats/histosketch/histosketch.go:Quantile", "dsstats/histosketch/histosketch.go:Median"]}
{"id": "C63", "title": "AddMany is Add so many times", "statement": "But for rounding, adding a value k times in a row by Add leaves the same sketch as AddMany with count k, in every reachable sketch, also when bins are merged on the way. Violation: in float64 arithmetic the two can differ, because a merged bin's mean is rounded once or several times.", "quantifier": "for every sequence of insertions, value and count", "why_tests_cant": "relates executions of different lengths", "anchors": ["dsstats/histosketch/histosketch.go:Add", "dsstats/histosketch/histosketch.go:AddMany"]}
{"id": "C64", "title": "Row length check of CSV texts", "statement": "CheckCsvRowLengths passes exactly the texts that read as CSV records up to the end, at least one, all with as many fields as the first; otherwise it reports the first record that cannot be read or has another length, whichever comes first, numbering records (not lines) from 0. A table written as CSV passes exactly when its rows that are not written as blank lines have one length and there is one.", "quantifier": "for every byte string", "why_tests_cant": "all texts with quotes, blank lines and spaces", "anchors": ["validate/csv.go:CheckCsvRowLengths"]}
{"id": "C65", "title": "Validity of dataset components", "statement": "A dataset is valid exactly when it is nil, or has a commit with a title of at most 100 bytes and its structure, if present, names a known format and has a schema; the first problem in the order commit, format, schema is reported.", "quantifier": "for every dataset", "why_tests_cant": "all combinations of absent components", "anchors": ["validate/dataset.go:Dataset", "validate/dataset.go:Commit", "validate/dataset.go:Structure", "validate/dataset.go:Schema"]}
{"id": "C66", "title": "A sketch made from a whole sample has the best centroids", "statement": "NewFromSample gives a sketch for every sample with a value and every number of centroids from 1 on, and panics otherwise, in any arithmetic. If the centroids are not more than the values, the sorted sample is cut into exactly that many parts, none empty; every centroid is the mean of its part with the number of its values, marked as merged if there is more than one (even if they are all equal), and the counts add up to the size of the sample. But for rounding, and unless the sum of squares reaches the greatest number (float64 then puts together what is far apart, with a witness), no choice of as many centres and no assignment of values to centres has a smaller sum of squared distances. If the centroids are more than the values, the sketch is the one got by adding the sorted values one by one to a new sketch, so every value has its own centroid with the number of its occurrences. The extrema are those of the sample; a NaN in the sample becomes the minimum.", "quantifier": "for every sample, number of centroids, choice of centres and assignment of values", "why_tests_cant": "optimality is over all sets of centres and all assignments: uncountably many", "anchors": ["dsstats/histosketch/histosketch.go:NewFromSample"]}
{"id": "C67", "title": "Opening and inlining files of components", "statement": "OpenScriptFile of a readme, viz or transform opens a new file with exactly the text if there is text (the resolver is not asked), does nothing if there is neither text nor script path, and otherwise takes file and error of the resolver, or fails if there is none; it never changes text or script path. InlineScriptFile makes the bytes of that file the text and drops the script path; afterwards, if there was at least one byte, opening with any resolver or none gives the same bytes, and inlining again changes nothing. A failing InlineScriptFile keeps text and script path but the file is read; without resolver it does nothing and reports nothing. An empty script file is lost: neither text nor script path is left (a readme that had nothing else becomes empty). OpenRenderedFile likewise. OpenBodyFile fails if the body is a value, opens body bytes (even none) as a file named by the body path or 'body', and otherwise asks the resolver, with the path put before its errors.", "quantifier": "for every component, resolver (any function, also one that answers with a file and an error), set of files and order of calls", "why_tests_cant": "resolvers and states of open files are arbitrary", "anchors": ["readme.go:OpenScriptFile", "readme.go:InlineScriptFile", "readme.go:OpenRenderedFile", "viz.go:OpenScriptFile", "viz.go:InlineScriptFile", "viz.go:OpenRenderedFile", "transform.go:OpenScriptFile", "transform.go:InlineScriptFile", "dataset.go:OpenBodyFile"]}
{"id": "C68", "title": "Comparing components and datasets", "statement": "ShallowCompare of two readmes, vizs or transforms is true exactly if both are nil or all exported fields but Path agree, where the data in maps is compared deeply, floats as numbers; it is symmetric and transitive, and reflexive (on copies) for components without NaN. dstest.CompareCommits, CompareStructures and CompareMetas report no difference exactly if all exported fields agree, nil being the empty component; CompareDatasets exactly if all exported fields but Qri and NumVersions agree (against its comment). With OptDropTransientValues, transient values are dropped of the first argument only (against its comment): a dataset with a name, body, path, peername or profile is never equal to itself. CompareDatasets changes no dataset or component it is given.", "quantifier": "for every pair of components or datasets, with pointers shared in any way", "why_tests_cant": "fields hold arbitrary trees of data", "anchors": ["readme.go:ShallowCompare", "viz.go:ShallowCompare", "transform.go:ShallowCompare", "dstest/compare.go:CompareDatasets", "dstest/compare.go:CompareCommits", "dstest/compare.go:CompareMetas", "dstest/compare.go:CompareStructures"]}
{"id": "C69", "title": "Readers and writers for a structure, compression and converting files", "statement": "NewEntryWriter gives a writer exactly for: CBOR and JSON with a schema of type array or object; NDJSON (also spelled jsonl) with any schema; CSV with a schema that describes columns; these with compression none, gzip/gz or zst/zstd; and xlsx without compression, with columns and a sheet name that is a string if there is one. NewEntryReader likewise, if the source unpacks, except that NDJSON needs type array, and xlsx needs a source that opens and has the sheet, while a sheet name that is no string counts as none. Formats with a leading dot count; all others are refused. Both panic exactly if columns are described and one has an empty list of types (CSV, or xlsx without compression). So whatever was written can be opened again except NDJSON without type array, and whatever can be read can be written except xlsx with a bad sheet name. Compression is invisible if the codec is lossless: same writer, same reader on the unpacked bytes. A body that fits the format (CBOR: without byte strings, see C73) comes back from what the writer wrote, in every format but xlsx and under every compression. ConvertFile (also indented, also of a window) from any readable file gives a file that reads back as the same values (same members for objects); it reports an error exactly if there is no writer or no reader. NewEntryBuffer works exactly if both work on an empty source: never with gzip, never for xlsx.", "quantifier": "for every structure, source, body, pair of formats, lossless codec, window and size of reads", "why_tests_cant": "structures, schemas and configurations combine freely", "anchors": ["dsio/dsio.go:NewEntryReader", "dsio/dsio.go:NewEntryWriter", "dsio/dsio.go:ConvertFile", "dsio/entry_buffer.go:NewEntryBuffer", "compression/compression.go:Compressor", "compression/compression.go:Decompressor", "dsio/xlsx.go:NewXLSXReader", "dsio/xlsx.go:NewXLSXWriter", "dsio/csv.go:NewCSVReader", "dsio/csv.go:NewCSVWriter", "dsio/ndjson.go:NewNDJSONReader", "dsio/ndjson.go:NewNDJSONWriter"]}
{"id": "C70", "title": "JSON text as typed values", "statement": "vals.UnmarshalJSON reads a text exactly if it is one JSON text (RFC 8259) nested at most 10000 deep whose values can be typed, and then gives exactly its value: null, booleans, strings with their escapes, arrays and objects element by element, of repeated keys the last one (the others need not even be readable). A number without fraction and exponent is an integer and must be an int64, one with a fraction or exponent is a float64. Known violations, all included exactly: numbers outside the range of float32 are refused, so are numbers with a fraction or exponent whose whole part is 2^64 or more; at the top, whitespace around a number or boolean makes it an error and around null makes it the empty string, and before an array or object only spaces and line feeds are allowed. Arrays and objects read this way never equal (vals.Equal) those converted from decoded data.", "quantifier": "for every byte string and every nesting", "why_tests_cant": "texts nest without bound", "anchors": ["vals/coding.go:UnmarshalJSON", "vals/coding.go:unmarshalObject", "vals/coding.go:unmarshalArray", "vals/type.go:ParseType", "vals/compare.go:Equal"]}
{"id": "C71", "title": "Hashes of bytes and structures", "statement": "HashBytes never fails and gives Qm followed by 44 digits of base 58; it stands for the SHA-256 multihash of the bytes, so two byte strings hash alike exactly if their digests are equal. Structure.Hash fails exactly if the structure is written as an object and a map in it holds a number that is not finite. Two structures hash alike exactly if they survive JSON alike (unless SHA-256 collides): as references with the same path, or with the same fields but for a kind left out and maps without entries. Known violation, included: a structure with a path but neither encoding nor schema hashes like the bare reference, whatever its format, length or checksum. Abstract keeps format, its configuration, encoding and strictness, nothing else (so never the schema, against its comment). RequiresTabularSchema holds exactly for the names csv and xlsx, not for .csv and .xlsx, which are read as tables all the same.", "quantifier": "for all byte strings and all structures", "why_tests_cant": "a hash can be compared with a stored one only for the texts one thinks of", "anchors": ["hash.go:HashBytes", "hash.go:JSONHash", "structure.go:Structure.Hash", "structure.go:Structure.MarshalJSON", "structure.go:Structure.Abstract", "structure.go:Structure.RequiresTabularSchema", "structure.go:NewStructureRef"]}
{"id": "C72", "title": "Durations of periodicities", "statement": "AccuralDuration gives 0 for every text except nineteen; each of those is an ISO 8601 repeating interval with one component, and the duration is the one it says (years of 365 days, months of 30), except for R/P2M (300 days), R/P3M (365/7 days), R/P4M (365/4 days), R/P3.5D (4 days), R/P0.33W and R/P0.33M (exact thirds). So longer periods may get shorter durations.", "quantifier": "for every string", "why_tests_cant": "strings outside the table are never tried", "anchors": ["meta.go:AccuralDuration"]}
{"id": "C73", "title": "Byte strings read from CBOR share the reader's buffer", "statement": "The CBOR reader returns byte strings of definite length as slices of its 4096-byte buffer; everything else is copied. However the body arrives, the entries, keys, values, nesting, lengths of byte strings and the final error are those of the encoded body, and bodies without byte strings read exactly. The contents of byte strings are right: for entries that are byte strings themselves, until the next read; for a body that fits the buffer and arrives at once, always, as long as nothing unreadable is left over at its end. Otherwise they are overwritten: a byte string followed by a text of 4096 times a character turns into that many such characters once the text is read, whatever the read sizes, even within one row, so before the caller sees it; with a source of single bytes [h'aa',h'bb'] reads as [h'bb',h'bb'].", "quantifier": "for every body and every sequence of read sizes", "why_tests_cant": "tests compare small bodies in memory, where the buffer is never refilled", "anchors": ["dsio/cbor.go:readBytes", "dsio/cbor.go:readLengthPrefixedBytes", "dsio/cbor.go:readValue", "dsio/cbor.go:ReadEntry"]}
{"id": "C74", "title": "Documents as JSON text", "statement": "A dataset (or commit, structure, stats, transform, meta, readme, viz) whose strings are valid UTF-8, whose values survive JSON and nest at most 9996 levels is written as a JSON text which, with any whitespace around it, reads back as the same document up to the losses of C06 and C07; two such datasets with the same text differ only in those losses. A text is read exactly when it is a JSON value nested at most 10000 levels that fits the type. Names may be escaped or in any letter case, unknown members are ignored and the order of members does not matter, except that meta keeps unknown members under the name as spelled. Of several members for a text field the last string counts and null is skipped, a member of another type makes the whole unreadable; the last body counts, null included; a component that comes twice is replaced, while maps (schema, format configuration, transform configuration, secrets, syntaxes) that come twice are merged name by name, from the last null on. Null is the empty document. A string is a reference. Writing fails exactly for commits dated outside years 0 to 9999 and for infinite or NaN numbers in parts not written as references. Secrets do not show in the text. Reading a JSON tree as in C06 and C07 gives what reading a text that means the tree gives, and where the tree has a value of the wrong type the text is not read.", "quantifier": "for every document, every text, every list of members, every spelling of names and every float formatting that parses back", "why_tests_cant": "tests compare a few fixed documents; repeated members, escapes in names and deep nesting do not occur in them", "anchors": ["dataset.go:MarshalJSON", "dataset.go:UnmarshalJSON", "dataset.go:UnmarshalDataset", "commit.go:MarshalJSON", "commit.go:UnmarshalJSON", "structure.go:MarshalJSON", "structure.go:UnmarshalJSON", "transform.go:MarshalJSON", "transform.go:UnmarshalJSON", "meta.go:MarshalJSONObject", "meta.go:UnmarshalJSON", "stats.go:UnmarshalJSON", "readme.go:UnmarshalJSON", "viz.go:UnmarshalJSON"]}
{"id": "C75", "title": "Methods of values, keyed values and their JSON text", "statement": "A method of a value answers exactly if it is meant for the type of the value (Number also for integers) and otherwise panics naming the method and the type; Index panics exactly outside the range. Through the methods alone every value made from decoded data can be taken apart into data equal to the original except that whole numbers are ints, whatever order Keys has; a missing key gives nil. String gives the contents of strings; of two other values it gives the same exactly if they have the same type and are not different booleans or objects of different size. A key given to a value counts for Equal exactly for arrays and objects. The JSON text of a value exists exactly if there is no infinity or NaN in it and is read back as the value with pointers gone, invalid UTF-8 replaced and floats printed without fraction turned into integers, which are then not Equal to the original.", "quantifier": "for every value, every method, every key order, every float formatting that gives JSON numbers", "why_tests_cant": "tests call each method once on values it is meant for", "anchors": ["vals/value.go:Len", "vals/value.go:Index", "vals/value.go:Keys", "vals/value.go:MapIndex", "vals/value.go:Number", "vals/value.go:String", "vals/object_value.go:NewObjectValue", "vals/value.go:ValueError", "vals/compare.go:Equal", "vals/coding.go:UnmarshalJSON"]}
{"id": "C76", "title": "Timestamps with time zones", "statement": "A commit's timestamp text is read as t iff the text says that clocks a given offset ahead of Greenwich show a certain date and time, and t is the date and time in Greenwich of that instant, counted in seconds and nanoseconds on the Gregorian calendar; so two texts are read as the same timestamp exactly if they say the same instant, and datasets whose commits were read from them are signed alike. A timestamp held in a zone is written as what clocks there show and is read back as the same instant; it is refused exactly if the year there is not from 0 to 9999, even when the year in Greenwich is.", "quantifier": "for every text, every date of the calendar in any year, every offset below a day", "why_tests_cant": "tests hold a few timestamps in UTC", "anchors": ["commit.go:UnmarshalJSON", "commit.go:MarshalJSONObject", "dataset.go:SigningBytes"]}
{"id": "C77", "title": "Empty components, bare references and kinds", "statement": "IsEmpty holds of a component exactly if everything but its path and kind is unset, except that it overlooks the arbitrary entries of a meta, open files, and the open body and number of versions of a dataset. A component is written as the bare string p exactly if p is not empty, is its path, and IsEmpty holds (a structure already if encoding and schema are unset); such a string is read as the component with that path and nothing else, so what IsEmpty overlooks is lost. Everything else is read back with the kind it had or, lacking one, the kind of its component; a meta always with the kind of metas.", "quantifier": "for every component and dataset", "why_tests_cant": "tests check one or two filled fields", "anchors": ["commit.go:IsEmpty", "meta.go:IsEmpty", "structure.go:IsEmpty", "stats.go:IsEmpty", "transform.go:IsEmpty", "readme.go:IsEmpty", "viz.go:IsEmpty", "dataset.go:IsEmpty", "kind.go:Kind"]}
{"id": "C78", "title": "What is computed from a body does not depend on how it is stored", "statement": "If two array bodies give the same values in the same order and end alike, then their statistics, the problems validation finds in them, what reading the whole of them gives, every window of them converted to JSON, and the preview of a dataset with them are the same, whatever the formats and compressions. So all of these stay the same when a body is converted to another structure that can hold it. For object bodies the order of the members does not matter to what is read as a whole.", "quantifier": "for every two readers, every structure and body, every window", "why_tests_cant": "tests compute statistics, validation and previews from one stored form of a body each", "anchors": ["dsstats/stats.go:CalculateFromEntryReader", "validate/data.go:EntryReader", "dsio/dsio.go:ReadAll", "dsio/dsio.go:ConvertFile", "preview/preview.go:Create"]}
{"id": "C79", "title": "Bodies that can be read are detected as what they are", "statement": "If a JSON body without compression can be read to its end with some structure, then the structure detected from a file of that name and content alone opens the same reader (unless the first read of the file gives less than 100 bytes of white space only). The same holds for newline-delimited JSON and for CBOR bodies that are not empty, except that a CBOR body that ends within the number of its entries may be detected as the other kind of empty body; an empty CBOR body is read as one without entries and is not detected. So a body converted to these formats needs no structure to be read again. A CSV body written with commas is detected with the types of its columns and read back as the rows that were written, if its first record looks like a header exactly if it is one and the text of every cell looks like its type.", "quantifier": "for every structure, body, table and way in which bytes arrive", "why_tests_cant": "tests detect the structure of a few files and do not read them with what was found", "anchors": ["detect/detect.go:Structure", "detect/detect.go:FromReader", "detect/json.go:JSONSchema", "detect/cbor.go:CBORSchema", "detect/determineFields.go:CSVSchema", "dsio/dsio.go:NewEntryReader", "dsio/dsio.go:ConvertFile"]}
{"id": "C80", "title": "Array and object cells hold JSON", "statement": "A cell declared as array or object parses exactly if its text is JSON for an array or an object (nested at most 10000 deep, numbers in range, white space around it allowed), and the value is what the text means; which of the two was declared plays no role. An array or object rendered to text under either type parses under either type to what JSON keeps of it; other values are rendered without an error and do not parse. A text is guessed to be an array or object exactly if it starts with the bracket or brace after spaces and line feeds; if such a text parses, it parses to the kind that was guessed, and texts that parse are guessed unless a tab or carriage return precedes the bracket.", "quantifier": "for every byte string and value", "why_tests_cant": "all texts, with white space and nesting", "anchors": ["vals/type.go:ParseJSON", "vals/type.go:JSONArrayOrObject", "vals/type.go:Parse", "vals/type.go:ValueToString", "vals/type.go:ParseType"]}
{"id": "C81", "title": "Floats as text", "statement": "A decimal text of at most 9000 bytes read as a float64 gives a finite number with the sign of the text such that no finite float is nearer to the number written, ties going to the even one; it is refused as out of range exactly if that number is 2^1024-2^970 or more in absolute value. Hexadecimal texts (exponent below 100000) are read as the nearest float likewise. Texts without underscores are accepted only if they are a decimal (optional sign, digits with an optional point and at least one digit, optional exponent), a hexadecimal text or a name of an infinity or of NaN in any case; all names are accepted. Outside hexadecimal texts underscores are accepted exactly between two digits and then mean nothing. Every finite float written by any of the formats used (JSON, CSV cells, vals numbers) reads back as the same float, bit for bit; infinities too, and NaNs as the usual NaN. No decimal text for a float has fewer significant digits than the one written, and none with as few is nearer to it.", "quantifier": "for every byte string and every float64", "why_tests_cant": "all 2^64 floats and all texts", "anchors": ["dsio/json.go:readNumber", "dsio/csv.go:encode", "vals/type.go:ParseNumber", "vals/type.go:Number.String"]}
{"id": "C82", "title": "Numbers in JSON and CSV bodies and in guessed cells", "statement": "A finite float64 written into a JSON body keeps its kind exactly if it is not a whole number or is at least 1e21 in absolute value, and then reads back as the same float. Other whole numbers below 2^63 come back as an integer whose nearest float is the number; below 2^53 the integer is the number, above it need not be (2^60 comes back as an integer that is 24 greater). Whole numbers from 2^63 on and below 1e21 make the body unreadable. NDJSON bodies and documents keep exactly the finite floats; CSV number cells and printed vals cells keep every float but unusual NaNs. A decimal cell beginning with a digit or a minus sign is guessed to be text exactly if it is too large for a float32; the texts of all int64 are guessed to be integers; texts guessed to be numbers parse as numbers and contain no space. Generated CSV bodies read back with the library's float text.", "quantifier": "for every float64 and every text", "why_tests_cant": "all 2^64 floats, including whole numbers beyond 2^53", "anchors": ["dsio/json.go:readNumber", "dsio/json.go:WriteEntry", "dsio/csv.go:encode", "dsio/csv.go:decode", "vals/type.go:ParseType", "vals/type.go:ValueToString"]}
{"id": "C83", "title": "Texts of strings, bytes and cells", "statement": "In JSON text a string is written character by character: as it is, but for quotes, backslashes, control characters, &, <, > and U+2028/U+2029, which have the fixed escapes of a table; a byte that is no part of a UTF-8 character is written \\ufffd. Bytes are written as base64 digits whose number is that of the bytes, filled up to groups of four. A text is read as bytes exactly if, line ends aside, it consists of base64 digits filled up with at most two equal signs; bits left over are ignored. The JSON text of every value, and every body the JSON writer writes whatever it is given, contains no control character and no &, < or >, apart from the indentation and its line feeds. A CSV record consists of the cells with separators between them; exactly the cells that contain a separator, quote or line end, begin with Unicode white space, or are backslash-dot are in quotes, inner quotes doubled.", "quantifier": "for every string, byte string, value, entry sequence and record", "why_tests_cant": "all byte strings, valid UTF-8 or not", "anchors": ["dsio/json.go:WriteEntry", "dsio/json.go:valBytes", "dsio/csv.go:WriteEntry", "transform.go:MarshalJSONObject"]}
{"id": "C84", "title": "Golden files", "statement": "A check of a dataset against a golden file passes exactly if the file can be read, parses as a dataset, and agrees with the given one. A check that passes, or is run without the update variable, changes no file; no check changes any other file. A check that fails with the variable set rewrites the file with the indented text of the dataset, and the next check of the same dataset then passes exactly if every component of it is a bare path or has its kind set and nothing JSON drops: no secrets, no empty maps or lists, no path beside other fields in readmes and vizs, no structure with a path but without encoding and schema. For other datasets no update ever makes the check pass.", "quantifier": "for every disk, file, variable and dataset of valid text and depth", "why_tests_cant": "all datasets that JSON text can carry, with any golden file before", "anchors": ["dstest/golden.go:CompareGoldenDatasetAndUpdateIfEnvVarSet", "dstest/golden.go:LoadGoldenFile", "dstest/golden.go:UpdateGoldenFileIfEnvVarSet", "dstest/compare.go:CompareDatasets"]}
{"id": "C85", "title": "Files on disk", "statement": "A directory is loaded as a test case exactly if its dataset files are absent or parse, its body and scripts cannot be opened or can be read to the end, and at least one of them is there. The test case and its input dataset are named after the directory, it has the bytes of the body of the first format in the order CBOR, JSON, CSV, XLSX, NDJSON, and the input dataset holds body and scripts as files that deliver these bytes, in components made if missing, and is else as it was read. Loading all test cases finds exactly the subdirectories that load. BodyFilepath names the file the body is read from if whatever is there can be opened, and can name another file otherwise. Detection from a path finds what detection from a body of that name finds; a JSON body under its usual name is recognised and read by the detected structure. A step file is read exactly if it can be read to the end, and steps written to it come back exactly if the separator does not come about in another place.", "quantifier": "for every disk, directory and path", "why_tests_cant": "all contents of directories, with unreadable files and directories in place of files", "anchors": ["dstest/dstest.go:NewTestCaseFromDir", "dstest/dstest.go:LoadTestCases", "dstest/dstest.go:BodyFilepath", "dstest/dstest.go:ReadBodyData", "dstest/dstest.go:ReadDataset", "detect/detect.go:FromFile", "stepfile/stepfile.go:ReadFile"]}
{"id": "C86", "title": "The command that makes random data", "statement": "The arguments of dsgen begin with flags, each -rows or --rows with an integer as in Go programs that fits 64 bits, the last of which counts; they end at the first argument that is no flag. So called as its help says, with the flag after the name of the file or the word fixed, it makes 1000 rows whatever number is given. For a file it prints rows exactly if the file holds a structure whose schema describes columns, all with a type, and whose compression is known; it crashes exactly if a column has an empty list of types, and else reports an error. What is printed reads back, with the same structure, as the number of rows asked for, with values of the types of the columns, if there are two or more columns of known types, no title has a carriage return, and the separator can be used; with a separator that cannot be used nothing is printed and no error reported. Fixed rows read back as a table of as many rows of four strings, the first all different; asked for differences from a row on, exactly the rows after that one differ, in all cells. A fixed row never has the 1000 bytes the help promises, but 997 and four for each digit of its number.", "quantifier": "for every list of arguments, disk, random source and number of rows", "why_tests_cant": "all argument lists and numbers, and unbounded numbers of rows", "anchors": ["generate/dsgen/main.go:main", "generate/dsgen/main.go:generateFile", "generate/dsgen/main.go:writeFixedFile"]}
{"id": "C87", "title": "CBOR that others wrote", "statement": "The CBOR reader takes each data item in every encoding RFC 8949 allows: heads of any width, definite and indefinite lengths, strings in chunks. Of the valid items without tags and two-byte simple values it reads as what they stand for exactly those in which unsigned integers are below 2^63, negative integers have one-byte heads, strings and their chunks have at most 4096 bytes, arrays of definite length at most 2^44 elements, keys are texts of definite length, simple values are false, true, null or undefined, and floats have 64 bits or are zero; all others are rejected or read as something else, and no others. A body reads as the values its items stand for, in order and up to the end, exactly if all its items are such. A tag is read as null and what follows its first byte as further items, so one item becomes several; two-byte simple values likewise. A float of 16 or 32 bits is read as its bits times 2^-1074. The writer writes each value as a valid item with shortest heads and definite lengths that stands for this value only, and it reads back exactly if it is one of those of C20.", "quantifier": "for every data item in every encoding, every sequence of further bytes, every value", "why_tests_cant": "unbounded nesting, numbers of items and choices of encoding; tests use the few texts of the RFC's appendix", "anchors": ["dsio/cbor.go:readValue", "dsio/cbor.go:readTopLevel", "dsio/cbor.go:readArray", "dsio/cbor.go:readMap", "dsio/cbor.go:readStringKey", "dsio/cbor.go:getVarLenInt", "dsio/cbor.go:readFloatBytes", "dsio/cbor.go:Close"]}
{"id": "C88", "title": "JSON that others wrote", "statement": "Whatever the size of the buffer and the portions in which the bytes arrive, a JSON array or object (RFC 8259, any whitespace, any bytes after it) whose inner objects have no two equal keys is delivered as what it stands for, in order and up to the end, exactly if its numbers without fraction and exponent are 64-bit integers, its other numbers are below the midpoint between the greatest float64 and 2^1024, and no string and no key, at any depth, has an escaped surrogate. If only the numbers fit, everything is delivered, but each escape of a surrogate as a question mark, so a character outside the basic multilingual plane that is escaped comes as two question marks and keys may become equal. Beyond JSON, an escaped byte of two hexadecimal digits is this byte, escapes with wrong digits are question marks, other escaped characters and control characters stand for themselves.", "quantifier": "for every JSON text, buffer size and portions", "why_tests_cant": "unbounded nesting, lengths and portions; tests use few documents, none with surrogates", "anchors": ["dsio/json.go:ReadEntry", "dsio/json.go:readValue", "dsio/json.go:readNumber", "dsio/json.go:readString", "dsio/json.go:unquoteJSONString", "dsio/json.go:readObject", "dsio/json.go:readArray", "dsio/json.go:readKeyValuePair"]}
{"id": "C89", "title": "Newline-delimited JSON that others wrote", "statement": "A line that holds one JSON text (RFC 8259, whitespace around it, nested at most 10000 deep) is delivered as the value it stands for, surrogate pairs included and every number as a nearest float64, if its numbers are below the midpoint between the greatest float64 and 2^1024, its strings are valid UTF-8, surrogates come in pairs and no object repeats a key; surrogates that are not in pairs become U+FFFD each. One number out of range makes the whole line an error, and reading goes on behind it. A body of such lines is delivered in order, numbered, up to the end; what stands behind the last newline, a complete line without newline included, is lost without an error.", "quantifier": "for every JSON text and every body of lines", "why_tests_cant": "unbounded nesting and lengths; tests read a few lines, none with surrogates or without a last newline", "anchors": ["dsio/ndjson.go:ReadEntry"]}
{"id": "C90", "title": "CSV that others wrote", "statement": "A text of rows as RFC 4180 has them, with any usable separator, cells quoted or not, lines ending in LF, CR LF or CR, mixed as may be, empty lines between, and an end of the last line or none, is delivered row by row in order up to the end, the first row counting as the header if one is configured, lazy quotes or not, with every end of line inside a cell turned into LF; rows must have the same length unless the options allow any. Without lone carriage returns this is so however the bytes are asked for; with them, if no read ends in a carriage return, for example if the buffer is large enough. Every table can be written so, and no text can be read as two tables.", "quantifier": "for every such text, separator, options and read sizes", "why_tests_cant": "unbounded cells, rows and lengths", "anchors": ["dsio/csv.go:ReadEntry", "dsio/csv.go:NewCSVReader", "dsio/csv.go:decode", "dsio/replacecr/replace_cr.go:Read"]}
{"id": "C91", "title": "The entry point of the fuzzer", "statement": "Fuzz comes to an end on every input: it returns 0 or 1, or panics. It returns 1 for every JSON object (RFC 8259) whose integers fit 64 bits and whose other numbers are floating point numbers, of any length, with whitespace before it and anything behind it; 0 for every input whose first byte other than whitespace is no opening brace. For every such object cut off anywhere it does not return 1, and it returns 0 if no more than 262140 bytes are left. It does not panic on up to 262140 bytes, but an object cut off after 262145 bytes makes it panic.", "quantifier": "for every input", "why_tests_cant": "unbounded inputs; a fuzzer tries a few, and stops at short ones", "anchors": ["dsio/fuzz.go:Fuzz", "dsio/json.go:ReadEntry", "dsio/json.go:NewJSONReader"]}
{"id": "C92", "title": "Entry buffers are queues", "statement": "However calls of WriteEntry and ReadEntry of an EntryBuffer are mixed, its entries come out once each, numbered from 0 or with their keys (CSV: without numbers), and in the order they were written, except for CBOR objects and for CSV bodies that are read too early. For newline-delimited JSON they come out as soon as they are written, reading an empty buffer answers end of file and does no harm, closing changes nothing, and Bytes gives an end of the text still to be delivered. For JSON arrays and objects they come out as soon as they are written as well, but reading an empty buffer fails with an error that is not end of file, without harm; once closed, end of file follows the last entry, once, and errors after that; a refused first value of an array is read as null; a key written before is refused without harm. For CBOR nothing comes out before closing, end of file being answered instead; after closing the entries come out, those of objects in the order of their keys, and then end of file every time; empty keys and keys written before are refused without harm. For CSV up to 4092 bytes of text nothing comes out before closing, end of file being answered instead and values that are no arrays refused, without harm; after closing the rows come out, and then end of file every time. With more text reading before closing can cut a row in two.", "quantifier": "for every sequence of calls (JSON, CBOR and CSV: with nothing but reading after closing) and all writable values (JSON objects: with keys that are not empty; CSV: rows of the schema's types as in C25)", "why_tests_cant": "unboundedly many interleavings of calls", "anchors": ["dsio/entry_buffer.go:NewEntryBuffer", "dsio/entry_buffer.go:ReadEntry", "dsio/entry_buffer.go:WriteEntry", "dsio/entry_buffer.go:Close", "dsio/entry_buffer.go:Bytes"]}
