import Verif.Go.Bytes
import Verif.Go.Val
import Verif.Go.Strconv
import Verif.Go.Utf8
import Verif.Go.JsonText
import Verif.Model.Cbor
import Verif.Lemmas.Cbor
import Verif.Props.Cbor
import Verif.Model.Json
import Verif.Spec.JsonGrammar
import Verif.Spec.JsonValues
import Verif.Lemmas.Json
import Verif.Lemmas.JsonEnc
import Verif.Lemmas.JsonTotal
import Verif.Lemmas.JsonTop
import Verif.Lemmas.JsonTrunc
import Verif.Lemmas.JsonMain
import Verif.Props.Json
import Verif.Lemmas.Map
import Verif.Model.Doc
import Verif.Model.DocHeap
import Verif.Lemmas.Sign
import Verif.Props.Sign
import Verif.Props.Assign
import Verif.Props.Heap
import Verif.Props.Drop
import Verif.Go.Base64
import Verif.Model.TimeText
import Verif.Model.DocJson
import Verif.Model.MetaSet
import Verif.Lemmas.DocJson
import Verif.Lemmas.DocJsonRt
import Verif.Props.DocJson
import Verif.Props.MetaSet
import Verif.Model.Streams
import Verif.Props.Streams
import Verif.Props.Convert
import Verif.Go.Float
import Verif.Go.Regex
import Verif.Model.Names
import Verif.Model.Vals
import Verif.Model.Config
import Verif.Props.Names
import Verif.Props.Vals
import Verif.Props.Config
import Verif.Model.Identity
import Verif.Props.Identity
import Verif.Go.JsonParse
import Verif.Lemmas.JsonParse
import Verif.Model.Ndjson
import Verif.Props.Ndjson
import Verif.Model.ReplaceCr
import Verif.Props.ReplaceCr
import Verif.Lemmas.MapPerm
import Verif.Model.Tabular
import Verif.Props.Tabular
import Verif.Go.Csv
import Verif.Lemmas.Csv
import Verif.Lemmas.JsonLines
import Verif.Model.Csv
import Verif.Props.Csv
import Verif.Model.Detect
import Verif.Props.Detect
import Verif.Go.Ieee
import Verif.Lemmas.Ieee
import Verif.Model.Sketch
import Verif.Lemmas.Sketch
import Verif.Lemmas.Quantile
import Verif.Lemmas.IeeeQuantile
import Verif.Lemmas.RealQuantile
import Verif.Lemmas.AddMany
import Verif.Props.Sketch
import Verif.Model.Stats
import Verif.Lemmas.IeeeDiv
import Verif.Lemmas.Stats
import Verif.Props.Stats
import Verif.Props.StatsLeaf
import Verif.Model.JsonBuf
import Verif.Spec.JsonClean
import Verif.Lemmas.JsonBuf
import Verif.Lemmas.JsonBufRead
import Verif.Lemmas.JsonBufMain
import Verif.Lemmas.JsonBufTop
import Verif.Props.JsonBuf
import Verif.Lemmas.IeeeRound
import Verif.Model.Validate
import Verif.Props.Validate
import Verif.Model.Preview
import Verif.Props.Preview
import Verif.Model.Diff
import Verif.Props.Diff
import Verif.Model.Generate
import Verif.Props.Generate
import Verif.Lemmas.JsonBufSrc
import Verif.Model.Render
import Verif.Props.Render
import Verif.Model.SketchSample
import Verif.Lemmas.SketchSample
import Verif.Props.SketchSample
import Verif.Model.Files
import Verif.Props.Files
import Verif.Model.Compare
import Verif.Props.Compare
import Verif.Model.Formats
import Verif.Props.Formats
import Verif.Model.ValsJson
import Verif.Spec.JsonTree
import Verif.Lemmas.JsonTree
import Verif.Lemmas.JsonDecode
import Verif.Props.ValsJson
import Verif.Go.Sha256
import Verif.Model.Hash
import Verif.Props.Hash
import Verif.Model.Accrual
import Verif.Props.Accrual
import Verif.Model.CborBuf
import Verif.Lemmas.CborBuf
import Verif.Props.CborBuf
import Verif.Go.JsonTreeParse
import Verif.Lemmas.JsonTreeParse
import Verif.Model.DocText
import Verif.Lemmas.DocText
import Verif.Lemmas.DocTextRt
import Verif.Lemmas.DocTextDepth
import Verif.Props.DocText
import Verif.Model.ValsAccess
import Verif.Props.ValsAccess
import Verif.Spec.Instant
import Verif.Lemmas.Zoned
import Verif.Props.Zoned
import Verif.Props.Empty
import Verif.Props.Storage
import Verif.Props.Recognised
import Verif.Props.ValsCells
import Verif.Props.DocAgree
import Verif.Go.FloatText
import Verif.Spec.FloatText
import Verif.Spec.FloatValue
import Verif.Lemmas.FloatDigits
import Verif.Lemmas.FloatRead
import Verif.Lemmas.FloatWrite
import Verif.Lemmas.FloatWhole
import Verif.Props.FloatText
import Verif.Props.FloatUse
import Verif.Props.FloatSyntax
import Verif.Props.TextForms
import Verif.Props.MetaKeys
import Verif.Props.Golden
import Verif.Props.Disk
import Verif.Props.DsgenArgs
import Verif.Props.Dsgen
import Verif.Props.CborItem
import Verif.Props.CborWritten
import Verif.Props.SketchText
import Verif.Props.JsonOthers
import Verif.Props.SketchLine
import Verif.Props.NdjsonOthers
import Verif.Props.CsvOthers
import Verif.Props.Fuzz
import Verif.Props.JsonCut
import Verif.Model.EntryBuffer
import Verif.Props.EntryBuffer
import Verif.Props.EntryBufferObj
import Verif.Props.EntryBufferCsv
import Verif.Props.ConvertChain
