import Verif.Model.Formats
import Verif.Props.Convert
import Verif.Props.Csv
import Verif.Props.Ndjson
import Verif.Props.Names
import Verif.Props.CborBuf
/-
C69: readers and writers for a structure, compression, converting files.
-/
set_option autoImplicit false
namespace Verif.Formats
open Verif.Streams Verif.Doc
open CsvIO (Opened)

/-! ### What a structure says, in plain terms -/

/-- the spellings of the formats -/
def isCBOR (st : Structure) : Prop := st.format = b!"cbor" ∨ st.format = b!".cbor"
def isJSON (st : Structure) : Prop := st.format = b!"json" ∨ st.format = b!".json"
def isCSV (st : Structure) : Prop := st.format = b!"csv" ∨ st.format = b!".csv"
def isXLSX (st : Structure) : Prop := st.format = b!"xlsx" ∨ st.format = b!".xlsx"
def isNDJSON (st : Structure) : Prop :=
  st.format = b!"ndjson" ∨ st.format = b!".ndjson" ∨ st.format = b!"jsonl" ∨ st.format = b!".jsonl"

/-- the schema says that the top level has this type -/
def TopIs (st : Structure) (t : Bytes) : Prop := ∃ m, st.schema = some m ∧ mapGet m b!"type" = some (.str t)

def Top (st : Structure) : Prop := TopIs st b!"array" ∨ TopIs st b!"object"

/-- the schema describes columns, and each has a type -/
def Columns (E : Env) (st : Structure) : Prop :=
  ∃ cols ps, Tabular.fromSchema E.order (st.schema.getD []) = .ok (cols, ps) ∧ ∀ c ∈ cols, c.type ≠ []

/-- the schema describes columns, and one has an empty list of types -/
def Untyped (E : Env) (st : Structure) : Prop :=
  ∃ cols ps, Tabular.fromSchema E.order (st.schema.getD []) = .ok (cols, ps) ∧ ∃ c ∈ cols, c.type = []

def isGzip (st : Structure) : Prop := st.compression = b!"gzip" ∨ st.compression = b!"gz"
def isZstd (st : Structure) : Prop := st.compression = b!"zst" ∨ st.compression = b!"zstd"

/-- the structure names a known compression, or none -/
def Packable (st : Structure) : Prop := st.compression = [] ∨ isGzip st ∨ isZstd st

/-- the source unpacks to this text -/
def Unpacks (E : Env) (st : Structure) (src text : Bytes) : Prop :=
  (st.compression = [] ∧ text = src) ∨ (isGzip st ∧ E.unpack .gzip src = some text) ∨ (isZstd st ∧ E.unpack .zstd src = some text)

/-- the format configuration has no sheet name, or a string for one -/
def SheetNamed (st : Structure) : Prop := ∀ m v, st.formatConfig = some m → mapGet m b!"sheetName" = some v → v = .null ∨ ∃ s, v = .str s

/-! ### Helpers -/

theorem dataFormat_cases (st : Structure) :
    (dataFormat st = .cbor ↔ isCBOR st) ∧ (dataFormat st = .json ↔ isJSON st) ∧ (dataFormat st = .csv ↔ isCSV st) ∧
    (dataFormat st = .xlsx ↔ isXLSX st) ∧ (dataFormat st = .ndjson ↔ isNDJSON st) := by
  have key : ∀ f, f ≠ .unknown → (dataFormat st = f ↔
      (st.format = f.string ∨ st.format = 46 :: f.string ∨ (f = .ndjson ∧ (st.format = b!"jsonl" ∨ st.format = b!".jsonl")))) := by
    intro f hf
    have h := Names.C44_format_spellings st.format f
    simp only [hf, ne_eq, not_false_eq_true, true_and] at h
    rw [← h]
    unfold dataFormat
    cases hp : Names.parseDataFormat st.format with
    | none => simp [Ne.symm hf]
    | some g => simp
  refine ⟨?_, ?_, ?_, ?_, ?_⟩
  all_goals
    rw [key _ (by decide)]
    simp [isCBOR, isJSON, isCSV, isXLSX, isNDJSON, Names.DataFormat.string]

theorem getTop (st : Structure) (tl : TopLevel) :
    getTopLevelType st.schema = some tl ↔ TopIs st (match tl with | .array => b!"array" | .object => b!"object") := by
  unfold getTopLevelType TopIs
  cases st.schema with
  | none => simp
  | some m =>
    simp only [Option.some.injEq, exists_eq_left']
    split
    · rename_i t ht
      rw [ht]
      simp only [Option.some.injEq, Val.str.injEq]
      by_cases h1 : t = b!"array"
      · subst h1; cases tl <;> simp
      · by_cases h2 : t = b!"object"
        · subst h2; cases tl <;> simp
        · cases tl <;> simp [h1, h2]
    · rename_i h
      simp only [reduceCtorEq, false_iff]
      intro h'; exact h _ h'

theorem compression_cases (st : Structure) :
    (st.compression = [] ∧ ¬ isGzip st ∧ ¬ isZstd st) ∨
    (st.compression ≠ [] ∧ isGzip st ∧ ¬ isZstd st ∧ Names.parseCompression st.compression = some .gzip) ∨
    (st.compression ≠ [] ∧ ¬ isGzip st ∧ isZstd st ∧ Names.parseCompression st.compression = some .zstd) ∨
    (st.compression ≠ [] ∧ ¬ isGzip st ∧ ¬ isZstd st ∧ Names.parseCompression st.compression = none) := by
  unfold isGzip isZstd
  generalize st.compression = c
  by_cases h0 : c = []
  · subst h0; simp
  by_cases h1 : c = b!"gzip"
  · subst h1; right; left; decide
  by_cases h2 : c = b!"gz"
  · subst h2; right; left; decide
  by_cases h3 : c = b!"zst"
  · subst h3; right; right; left; decide
  by_cases h4 : c = b!"zstd"
  · subst h4; right; right; left; decide
  refine .inr (.inr (.inr ⟨h0, by simp [h1, h2], by simp [h3, h4], ?_⟩))
  simp [Names.parseCompression, Ne.symm h1, Ne.symm h2, Ne.symm h3, Ne.symm h4]

theorem decompress_iff (E : Env) (st : Structure) (src text : Bytes) : decompress E st src = some text ↔ Unpacks E st src text := by
  unfold decompress Unpacks
  rcases compression_cases st with h | h | h | h <;> simp [h, eq_comm]

theorem compressor_iff (E : Env) (st : Structure) : (∃ z, compressor E st = some z) ↔ Packable st := by
  unfold compressor Packable
  rcases compression_cases st with h | h | h | h <;> simp [h]

theorem openColumns_ok (E : Env) (st : Structure) :
    (∃ p, CsvIO.openColumns E.order (st.schema.getD []) = .ok p) ↔ Columns E st := by
  obtain ⟨h1, h2, h3⟩ := CsvIO.C24_open E.order (st.schema.getD [])
  unfold Columns
  constructor
  · rintro ⟨⟨cols, ts⟩, h⟩
    obtain ⟨ps, hf, ht⟩ := (h3 cols ts).1 h
    refine ⟨cols, ps, hf, ?_⟩
    intro c hc hct
    have : (c.type.head?) ∈ ts.map some := by rw [← ht]; exact List.mem_map_of_mem (f := fun (x : Tabular.Column) => x.type.head?) hc
    rw [hct] at this
    simp at this
  · rintro ⟨cols, ps, hf, ht⟩
    cases ho : CsvIO.openColumns E.order (st.schema.getD []) with
    | ok p => exact ⟨p, rfl⟩
    | err => obtain ⟨e, he⟩ := h1.1 ho; rw [hf] at he; cases he
    | panics =>
      obtain ⟨c, p, he, x, hx, hxt⟩ := h2.1 ho
      rw [hf] at he
      simp only [Except.ok.injEq, Prod.mk.injEq] at he
      rw [← he.1] at hx
      exact absurd hxt (ht x hx)

theorem openColumns_panics (E : Env) (st : Structure) :
    CsvIO.openColumns E.order (st.schema.getD []) = .panics ↔ Untyped E st := (CsvIO.C24_open E.order (st.schema.getD [])).2.1

theorem mapGet_vals (m : List (Bytes × Val)) (k : Bytes) :
    mapGet (m.map fun kv => (kv.1, Config.OptVal.val kv.2)) k = (mapGet m k).map .val := by
  induction m with
  | nil => rfl
  | cons kv m ih =>
    simp only [List.map_cons, mapGet]
    split
    · rfl
    · exact ih

theorem sheet_iff (st : Structure) : (∃ s, Config.newXLSXOptions (config st) = some s) ↔ SheetNamed st := by
  unfold Config.newXLSXOptions config SheetNamed
  cases st.formatConfig with
  | none => simp
  | some m =>
    have hq : ∀ P : List (Bytes × Val) → Val → Prop, (∀ m' v, some m = some m' → mapGet m' b!"sheetName" = some v → P m' v) ↔
        ∀ v, mapGet m b!"sheetName" = some v → P m v :=
      fun P => ⟨fun h v => h m v rfl, fun h m' v e => by cases e; exact h v⟩
    rw [hq (fun _ v => v = .null ∨ ∃ s, v = .str s)]
    simp only [Option.map_some, Config.optGet, mapGet_vals]
    cases mapGet m b!"sheetName" with
    | none => simp
    | some v => cases v <;> simp

/-! ### Which structures can be read and written -/

theorem top_iff (st : Structure) : (∃ tl, getTopLevelType st.schema = some tl) ↔ Top st := by
  unfold Top
  constructor
  · rintro ⟨tl, h⟩
    have := (getTop st tl).1 h
    cases tl
    · exact .inl this
    · exact .inr this
  · rintro (h | h)
    · exact ⟨.array, (getTop st .array).2 h⟩
    · exact ⟨.object, (getTop st .object).2 h⟩

theorem schema_of_top {st : Structure} {tl : TopLevel} (h : getTopLevelType st.schema = some tl) : ∃ m, st.schema = some m := by
  cases hs : st.schema with
  | none => rw [hs] at h; cases h
  | some m => exact ⟨m, rfl⟩

theorem newCBORWriter_ok (E : Env) (st : Structure) (w : NewWriter) : newCBORWriter E st = .ok w ↔
    ∃ tl z, getTopLevelType st.schema = some tl ∧ compressor E st = some z ∧ w = (.cbor tl {}, z) := by
  unfold newCBORWriter
  cases hs : st.schema with
  | none => simp [getTopLevelType]
  | some m =>
    cases getTopLevelType (some m) <;> cases compressor E st <;> simp [eq_comm]

theorem newJSONWriter_ok (E : Env) (indent : Bytes) (st : Structure) (w : NewWriter) : newJSONWriter E indent st = .ok w ↔
    ∃ tl z, getTopLevelType st.schema = some tl ∧ compressor E st = some z ∧ w = (.json tl indent {}, z) := by
  unfold newJSONWriter
  cases hs : st.schema with
  | none => simp [getTopLevelType]
  | some m =>
    cases getTopLevelType (some m) <;> cases compressor E st <;> simp [eq_comm]

theorem newNDJSONWriter_ok (E : Env) (st : Structure) (w : NewWriter) : newNDJSONWriter E st = .ok w ↔
    st.schema ≠ none ∧ ∃ z, compressor E st = some z ∧ w = (.ndjson [], z) := by
  unfold newNDJSONWriter
  cases hs : st.schema with
  | none => simp
  | some m => cases compressor E st <;> simp [eq_comm]

theorem newCSVWriter_ok (E : Env) (st : Structure) (w : NewWriter) : newCSVWriter E st = .ok w ↔
    ∃ cols types z, CsvIO.openColumns E.order (st.schema.getD []) = .ok (cols, types) ∧ compressor E st = some z ∧
      w = (.csv (CsvIO.options (config st)) (CsvIO.header (CsvIO.options (config st)) cols), z) := by
  unfold newCSVWriter
  cases CsvIO.openColumns E.order (st.schema.getD []) with
  | err => simp
  | panics => simp
  | ok p => obtain ⟨cols, types⟩ := p; cases compressor E st <;> simp [eq_comm]

theorem newXLSXWriter_ok (E : Env) (st : Structure) (w : NewWriter) : newXLSXWriter E st = .ok w ↔
    st.compression = [] ∧ ∃ p name, CsvIO.openColumns E.order (st.schema.getD []) = .ok p ∧ Config.newXLSXOptions (config st) = some name ∧
      w = (.xlsx (sheetName name) {}, id) := by
  unfold newXLSXWriter
  by_cases hc : st.compression = []
  · simp only [hc, ne_eq, not_true_eq_false, if_false, true_and]
    cases CsvIO.openColumns E.order (st.schema.getD []) with
    | err => simp
    | panics => simp
    | ok p => cases Config.newXLSXOptions (config st) <;> simp [eq_comm]
  · simp [hc]

/-- **C69**: the structures for which there is a writer -/
theorem C69_writer (E : Env) (st : Structure) : (∃ w, newEntryWriter E st = .ok w) ↔
    ((isCBOR st ∨ isJSON st) ∧ Top st ∧ Packable st) ∨ (isNDJSON st ∧ st.schema ≠ none ∧ Packable st) ∨
    (isCSV st ∧ Columns E st ∧ Packable st) ∨ (isXLSX st ∧ Columns E st ∧ st.compression = [] ∧ SheetNamed st) := by
  obtain ⟨h1, h2, h3, h4, h5⟩ := dataFormat_cases st
  rw [← h1, ← h2, ← h3, ← h4, ← h5, ← top_iff, ← compressor_iff E, ← openColumns_ok E, ← sheet_iff]
  unfold newEntryWriter
  cases dataFormat st <;>
    simp only [newCBORWriter_ok, newJSONWriter_ok, newNDJSONWriter_ok, newCSVWriter_ok, newXLSXWriter_ok, reduceCtorEq, false_and, true_and, or_false,
      false_or, or_true, exists_false]
  · constructor
    · rintro ⟨w, cols, types, z, a, b, _⟩; exact ⟨⟨_, a⟩, z, b⟩
    · rintro ⟨⟨⟨cols, types⟩, a⟩, z, b⟩; exact ⟨_, cols, types, z, a, b, rfl⟩
  · constructor
    · rintro ⟨w, tl, z, a, b, _⟩; exact ⟨⟨_, a⟩, z, b⟩
    · rintro ⟨⟨tl, a⟩, z, b⟩; exact ⟨_, tl, z, a, b, rfl⟩
  · constructor
    · rintro ⟨w, a, z, b, _⟩; exact ⟨a, z, b⟩
    · rintro ⟨a, z, b⟩; exact ⟨_, a, z, b, rfl⟩
  · constructor
    · rintro ⟨w, tl, z, a, b, _⟩; exact ⟨⟨_, a⟩, z, b⟩
    · rintro ⟨⟨tl, a⟩, z, b⟩; exact ⟨_, tl, z, a, b, rfl⟩
  · constructor
    · rintro ⟨w, a, p, s, b, c, _⟩; exact ⟨⟨p, b⟩, a, s, c⟩
    · rintro ⟨⟨p, b⟩, a, s, c⟩; exact ⟨_, a, p, s, b, c, rfl⟩

theorem newCBORReader_ok (E : Env) (st : Structure) (src : Bytes) (r : RState) : newCBORReader E st src = .ok r ↔
    ∃ tl text, getTopLevelType st.schema = some tl ∧ decompress E st src = some text ∧ r = .cbor tl { inp := text } := by
  unfold newCBORReader
  cases hs : st.schema with
  | none => simp [getTopLevelType]
  | some m => cases getTopLevelType (some m) <;> cases decompress E st src <;> simp [eq_comm]

theorem newJSONReader_ok (E : Env) (st : Structure) (src : Bytes) (r : RState) : newJSONReader E st src = .ok r ↔
    ∃ tl text, getTopLevelType st.schema = some tl ∧ decompress E st src = some text ∧ r = .json tl { rest := text } := by
  unfold newJSONReader
  cases hs : st.schema with
  | none => simp [getTopLevelType]
  | some m => cases getTopLevelType (some m) <;> cases decompress E st src <;> simp [eq_comm]

theorem newNDJSONReader_ok (E : Env) (st : Structure) (src : Bytes) (r : RState) : newNDJSONReader E st src = .ok r ↔
    ∃ text, getTopLevelType st.schema = some .array ∧ decompress E st src = some text ∧ r = .ndjson { rest := text } := by
  unfold newNDJSONReader
  cases hs : st.schema with
  | none => simp [getTopLevelType]
  | some m =>
    cases getTopLevelType (some m) with
    | none => simp
    | some tl => cases tl <;> cases decompress E st src <;> simp [eq_comm]

theorem newCSVReader_ok (E : Env) (st : Structure) (src : Bytes) (r : RState) : newCSVReader E st src = .ok r ↔
    ∃ cols types text, CsvIO.openColumns E.order (st.schema.getD []) = .ok (cols, types) ∧ decompress E st src = some text ∧
      r = .csv (CsvIO.options (config st)) types (CsvIO.start (CsvIO.options (config st)) (ReplaceCr.reads true (E.reads text) text).1) := by
  unfold newCSVReader
  cases CsvIO.openColumns E.order (st.schema.getD []) with
  | err => simp
  | panics => simp
  | ok p => obtain ⟨cols, types⟩ := p; cases decompress E st src <;> simp [eq_comm]

theorem newXLSXReader_ok (E : Env) (st : Structure) (src : Bytes) (r : RState) : newXLSXReader E st src = .ok r ↔
    st.compression = [] ∧ ∃ cols types sheets rows, CsvIO.openColumns E.order (st.schema.getD []) = .ok (cols, types) ∧
      E.openBook src = some sheets ∧ sheets (sheetName ((Config.newXLSXOptions (config st)).getD [])) = some rows ∧ r = .xlsx types { rows := rows } := by
  unfold newXLSXReader
  by_cases hc : st.compression = []
  · simp only [hc, ne_eq, not_true_eq_false, if_false, true_and]
    cases CsvIO.openColumns E.order (st.schema.getD []) with
    | err => simp
    | panics => simp
    | ok p =>
      obtain ⟨cols, types⟩ := p
      cases E.openBook src with
      | none => simp
      | some sheets =>
        simp only [Opened.ok.injEq, Prod.mk.injEq, Option.some.injEq, exists_and_left, exists_eq_left']
        cases sheets (sheetName ((Config.newXLSXOptions (config st)).getD [])) with
        | none => simp
        | some rows => simp [eq_comm]
  · simp [hc]

/-- the sheet that is read: the one named by the configuration, or Sheet1 -/
def Sheet (st : Structure) (name : Bytes) : Prop :=
  (∃ m, st.formatConfig = some m ∧ mapGet m b!"sheetName" = some (.str name) ∧ name ≠ []) ∨
  (name = b!"Sheet1" ∧ ∀ m s, st.formatConfig = some m → mapGet m b!"sheetName" = some (.str s) → s = [])

theorem sheet_read (st : Structure) (name : Bytes) : sheetName ((Config.newXLSXOptions (config st)).getD []) = name ↔ Sheet st name := by
  unfold Config.newXLSXOptions config Sheet
  cases st.formatConfig with
  | none => simp [sheetName, eq_comm]
  | some m =>
    have hq : ∀ P : Bytes → Prop, (∀ m' s, some m = some m' → mapGet m' b!"sheetName" = some (.str s) → P s) ↔
        ∀ s, mapGet m b!"sheetName" = some (.str s) → P s :=
      fun P => ⟨fun h v => h m v rfl, fun h m' v e => by cases e; exact h v⟩
    rw [hq (fun s => s = [])]
    simp only [Option.map_some, Config.optGet, mapGet_vals, Option.some.injEq, exists_eq_left']
    cases mapGet m b!"sheetName" with
    | none => simp [sheetName, eq_comm]
    | some v =>
      cases v with
      | str s =>
        by_cases hs : s = []
        · subst hs
          simp only [Option.map_some, Option.getD_some, sheetName, if_true, Option.some.injEq, Val.str.injEq]
          constructor
          · rintro rfl; exact .inr ⟨rfl, fun s h => h.symm⟩
          · rintro (⟨h, h'⟩ | ⟨h, _⟩)
            · exact absurd h.symm h'
            · exact h.symm
        · simp only [Option.map_some, Option.getD_some, sheetName, hs, if_false, Option.some.injEq, Val.str.injEq]
          constructor
          · rintro rfl; exact .inl ⟨rfl, hs⟩
          · rintro (⟨h, h'⟩ | ⟨_, h⟩)
            · exact h
            · exact absurd (h s rfl) hs
      | _ => simp [sheetName, eq_comm]

/-- **C69**: the structures and sources for which there is a reader -/
theorem C69_reader (E : Env) (st : Structure) (src : Bytes) : (∃ r, newEntryReader E st src = .ok r) ↔
    ((isCBOR st ∨ isJSON st) ∧ Top st ∧ ∃ text, Unpacks E st src text) ∨ (isNDJSON st ∧ TopIs st b!"array" ∧ ∃ text, Unpacks E st src text) ∨
    (isCSV st ∧ Columns E st ∧ ∃ text, Unpacks E st src text) ∨
    (isXLSX st ∧ Columns E st ∧ st.compression = [] ∧ ∃ sheets name rows, E.openBook src = some sheets ∧ Sheet st name ∧ sheets name = some rows) := by
  obtain ⟨h1, h2, h3, h4, h5⟩ := dataFormat_cases st
  have ht := getTop st .array
  simp only at ht
  simp only [← decompress_iff, ← sheet_read]
  rw [← h1, ← h2, ← h3, ← h4, ← h5, ← top_iff, ← openColumns_ok E, ← ht]
  unfold newEntryReader
  cases dataFormat st <;>
    simp only [newCBORReader_ok, newJSONReader_ok, newNDJSONReader_ok, newCSVReader_ok, newXLSXReader_ok, reduceCtorEq, false_and, true_and, or_false,
      false_or, or_true, exists_false]
  · constructor
    · rintro ⟨w, cols, types, z, a, b, _⟩; exact ⟨⟨_, a⟩, z, b⟩
    · rintro ⟨⟨⟨cols, types⟩, a⟩, z, b⟩; exact ⟨_, cols, types, z, a, b, rfl⟩
  · constructor
    · rintro ⟨w, tl, z, a, b, _⟩; exact ⟨⟨_, a⟩, z, b⟩
    · rintro ⟨⟨tl, a⟩, z, b⟩; exact ⟨_, tl, z, a, b, rfl⟩
  · constructor
    · rintro ⟨w, z, a, b, _⟩; exact ⟨a, z, b⟩
    · rintro ⟨a, z, b⟩; exact ⟨_, z, a, b, rfl⟩
  · constructor
    · rintro ⟨w, tl, z, a, b, _⟩; exact ⟨⟨_, a⟩, z, b⟩
    · rintro ⟨⟨tl, a⟩, z, b⟩; exact ⟨_, tl, z, a, b, rfl⟩
  · constructor
    · rintro ⟨w, a, cols, types, sheets, rows, b, c, d, _⟩; exact ⟨⟨_, b⟩, a, sheets, _, rows, c, rfl, d⟩
    · rintro ⟨⟨⟨cols, types⟩, b⟩, a, sheets, _, rows, c, rfl, d⟩; exact ⟨_, a, cols, types, sheets, rows, b, c, d, rfl⟩

/-- **C69**: opening panics exactly for CSV and spreadsheets with a column declared with an empty list of types -/
theorem C69_panics (E : Env) (st : Structure) (src : Bytes) :
    (newEntryReader E st src = .panics ↔ (isCSV st ∨ (isXLSX st ∧ st.compression = [])) ∧ Untyped E st) ∧
    (newEntryWriter E st = .panics ↔ (isCSV st ∨ (isXLSX st ∧ st.compression = [])) ∧ Untyped E st) := by
  obtain ⟨h1, h2, h3, h4, h5⟩ := dataFormat_cases st
  rw [← h3, ← h4, ← openColumns_panics]
  unfold newEntryReader newEntryWriter
  cases dataFormat st with
  | unknown => simp
  | xml => simp
  | cbor =>
    refine ⟨?_, ?_⟩
    · simp only [newCBORReader, reduceCtorEq, false_and, or_false, iff_false]
      repeat' split
      all_goals simp
    · simp only [newCBORWriter, reduceCtorEq, false_and, or_false, iff_false]
      repeat' split
      all_goals simp
  | json =>
    refine ⟨?_, ?_⟩
    · simp only [newJSONReader, reduceCtorEq, false_and, or_false, iff_false]
      repeat' split
      all_goals simp
    · simp only [newJSONWriter, reduceCtorEq, false_and, or_false, iff_false]
      repeat' split
      all_goals simp
  | ndjson =>
    refine ⟨?_, ?_⟩
    · simp only [newNDJSONReader, reduceCtorEq, false_and, or_false, iff_false]
      repeat' split
      all_goals simp
    · simp only [newNDJSONWriter, reduceCtorEq, false_and, or_false, iff_false]
      repeat' split
      all_goals simp
  | csv =>
    refine ⟨?_, ?_⟩
    · simp only [newCSVReader, true_or, true_and]
      cases CsvIO.openColumns E.order (st.schema.getD []) with
      | ok p => simp only; cases decompress E st src <;> simp
      | _ => simp
    · simp only [newCSVWriter, true_or, true_and]
      cases CsvIO.openColumns E.order (st.schema.getD []) with
      | ok p => simp only; cases compressor E st <;> simp
      | _ => simp
  | xlsx =>
    refine ⟨?_, ?_⟩
    · simp only [newXLSXReader, reduceCtorEq, false_or, true_and]
      by_cases hc : st.compression = []
      · simp only [hc, ne_eq, not_true_eq_false, if_false, true_and]
        cases CsvIO.openColumns E.order (st.schema.getD []) with
        | ok p =>
          simp only [reduceCtorEq, iff_false]
          cases E.openBook src with
          | none => simp
          | some sheets => simp only; cases sheets (sheetName ((Config.newXLSXOptions (config st)).getD [])) <;> simp
        | _ => simp
      · simp [hc]
    · simp only [newXLSXWriter, reduceCtorEq, false_or, true_and]
      by_cases hc : st.compression = []
      · simp only [hc, ne_eq, not_true_eq_false, if_false, true_and]
        cases CsvIO.openColumns E.order (st.schema.getD []) with
        | ok p => simp only [reduceCtorEq, iff_false]; cases Config.newXLSXOptions (config st) <;> simp
        | _ => simp
      · simp [hc]

/-! ### Readers and writers against each other -/

/-- what is put into a compressor comes out of the decompressor -/
def Lossless (E : Env) : Prop := ∀ c b, E.unpack c (E.pack c b) = some b

theorem unpack_pack {E : Env} (hE : Lossless E) {st : Structure} {z : Bytes → Bytes} (hz : compressor E st = some z) (b : Bytes) :
    decompress E st (z b) = some b := by
  unfold compressor at hz
  unfold decompress
  split at hz
  · rename_i h; rw [if_pos h]; cases hz; rfl
  · rename_i h
    rw [if_neg h]
    split at hz
    · cases hz
    · rename_i c hc
      cases hz
      exact hE c b

theorem packable_iff (E : Env) (st : Structure) {z : Bytes → Bytes} (hz : compressor E st = some z) : Packable st := (compressor_iff E st).1 ⟨z, hz⟩

/-- **C69**: what a writer has written there is a reader for, except for newline-delimited JSON whose schema does not say that
the top level is an array (and spreadsheets depend on the library). -/
theorem C69_written_readable (E : Env) (hE : Lossless E) (st : Structure) (w : WState) (z : Bytes → Bytes) (hw : newEntryWriter E st = .ok (w, z))
    (hx : ¬ isXLSX st) (b : Bytes) :
    (∃ r, newEntryReader E st (z b) = .ok r) ↔ (isNDJSON st → TopIs st b!"array") := by
  obtain ⟨h1, h2, h3, h4, h5⟩ := dataFormat_cases st
  have ht := getTop st .array
  simp only at ht
  rw [← h4] at hx
  rw [← h5, ← ht]
  unfold newEntryWriter at hw
  unfold newEntryReader
  cases hd : dataFormat st with
  | unknown => rw [hd] at hw; cases hw
  | xml => rw [hd] at hw; cases hw
  | xlsx => exact absurd hd hx
  | cbor =>
    simp only [hd, newCBORWriter_ok, Prod.mk.injEq] at hw
    obtain ⟨tl, z', a, b', rfl, rfl⟩ := hw
    simp only [reduceCtorEq, false_implies, iff_true, newCBORReader_ok]
    exact ⟨_, tl, b, a, unpack_pack hE b' b, rfl⟩
  | json =>
    simp only [hd, newJSONWriter_ok, Prod.mk.injEq] at hw
    obtain ⟨tl, z', a, b', rfl, rfl⟩ := hw
    simp only [reduceCtorEq, false_implies, iff_true, newJSONReader_ok]
    exact ⟨_, tl, b, a, unpack_pack hE b' b, rfl⟩
  | ndjson =>
    simp only [hd, newNDJSONWriter_ok, Prod.mk.injEq] at hw
    obtain ⟨hs, z', b', rfl, rfl⟩ := hw
    simp only [forall_const, newNDJSONReader_ok]
    constructor
    · rintro ⟨_, _, h, _⟩; exact h
    · intro h; exact ⟨_, b, h, unpack_pack hE b' b, rfl⟩
  | csv =>
    simp only [hd, newCSVWriter_ok, Prod.mk.injEq] at hw
    obtain ⟨cols, types, z', a, b', rfl, rfl⟩ := hw
    simp only [reduceCtorEq, false_implies, iff_true, newCSVReader_ok]
    exact ⟨_, cols, types, b, a, unpack_pack hE b' b, rfl⟩

/-- **C69**: whatever can be read can also be written, except for spreadsheets whose sheet name is not a string, which only
the writer minds. -/
theorem C69_readable_writable (E : Env) (st : Structure) (src : Bytes) (r : RState) (hr : newEntryReader E st src = .ok r) :
    (∃ w, newEntryWriter E st = .ok w) ↔ (isXLSX st → SheetNamed st) := by
  have h := (C69_reader E st src).1 ⟨r, hr⟩
  obtain ⟨h1, h2, h3, h4, h5⟩ := dataFormat_cases st
  have hp : (∃ text, Unpacks E st src text) → Packable st := by
    rintro ⟨text, h | h | h⟩
    · exact .inl h.1
    · exact .inr (.inl h.1)
    · exact .inr (.inr h.1)
  rw [C69_writer]
  have excl : isXLSX st → ¬ isCBOR st ∧ ¬ isJSON st ∧ ¬ isNDJSON st ∧ ¬ isCSV st := by
    rw [← h1, ← h2, ← h3, ← h4, ← h5]
    intro h; rw [h]; decide
  constructor
  · intro hw hx
    obtain ⟨e1, e2, e3, e4⟩ := excl hx
    simp only [e1, e2, e3, e4, or_self, false_and, false_or] at hw
    exact hw.2.2.2
  · intro hs
    rcases h with ⟨a, b, c⟩ | ⟨a, b, c⟩ | ⟨a, b, c⟩ | ⟨a, b, c, _⟩
    · exact .inl ⟨a, b, hp c⟩
    · obtain ⟨m, hm, _⟩ := b
      exact .inr (.inl ⟨a, by rw [hm]; simp, hp c⟩)
    · exact .inr (.inr (.inl ⟨a, b, hp c⟩))
    · exact .inr (.inr (.inr ⟨a, b, c, hs a⟩))

/-- **C69**: compression is invisible: a writer for a structure with compression is the one for the structure without, and
reading what it wrote is reading what the other one would have written. -/
theorem C69_compression (E : Env) (hE : Lossless E) (st : Structure) (w : WState) (z : Bytes → Bytes) (hw : newEntryWriter E st = .ok (w, z)) :
    newEntryWriter E { st with compression := [] } = .ok (w, id) ∧
    (¬ isXLSX st → ∀ b, newEntryReader E st (z b) = newEntryReader E { st with compression := [] } b) := by
  have hd : dataFormat { st with compression := [] } = dataFormat st := rfl
  have hc : compressor E { st with compression := [] } = some id := rfl
  have hu : ∀ b, decompress E { st with compression := [] } b = some b := fun b => rfl
  have hg : config { st with compression := [] } = config st := rfl
  obtain ⟨h1, h2, h3, h4, h5⟩ := dataFormat_cases st
  rw [← h4]
  unfold newEntryWriter at hw
  unfold newEntryReader newEntryWriter
  rw [hd]
  cases hd : dataFormat st with
  | unknown => rw [hd] at hw; cases hw
  | xml => rw [hd] at hw; cases hw
  | xlsx =>
    simp only [hd, newXLSXWriter_ok, Prod.mk.injEq] at hw
    obtain ⟨a, p, name, b, c, rfl, rfl⟩ := hw
    refine ⟨?_, fun h => absurd rfl h⟩
    simp only
    rw [newXLSXWriter_ok]
    exact ⟨rfl, p, name, b, c, rfl⟩
  | cbor =>
    simp only [hd, newCBORWriter_ok, Prod.mk.injEq] at hw
    obtain ⟨tl, z', a, b', rfl, rfl⟩ := hw
    refine ⟨(newCBORWriter_ok _ _ _).2 ⟨tl, id, a, hc, rfl⟩, fun _ b => ?_⟩
    exact ((newCBORReader_ok _ _ _ _).2 ⟨tl, b, a, unpack_pack hE b' b, rfl⟩).trans ((newCBORReader_ok E { st with compression := [] } b _).2 ⟨tl, b, a, hu b, rfl⟩).symm
  | json =>
    simp only [hd, newJSONWriter_ok, Prod.mk.injEq] at hw
    obtain ⟨tl, z', a, b', rfl, rfl⟩ := hw
    refine ⟨(newJSONWriter_ok _ _ _ _).2 ⟨tl, id, a, hc, rfl⟩, fun _ b => ?_⟩
    exact ((newJSONReader_ok _ _ _ _).2 ⟨tl, b, a, unpack_pack hE b' b, rfl⟩).trans ((newJSONReader_ok E { st with compression := [] } b _).2 ⟨tl, b, a, hu b, rfl⟩).symm
  | ndjson =>
    simp only [hd, newNDJSONWriter_ok, Prod.mk.injEq] at hw
    obtain ⟨hs, z', b', rfl, rfl⟩ := hw
    refine ⟨(newNDJSONWriter_ok _ _ _).2 ⟨hs, id, hc, rfl⟩, fun _ b => ?_⟩
    simp only [newNDJSONReader, unpack_pack hE b' b, hu b]
  | csv =>
    simp only [hd, newCSVWriter_ok, Prod.mk.injEq] at hw
    obtain ⟨cols, types, z', a, b', rfl, rfl⟩ := hw
    refine ⟨(newCSVWriter_ok _ _ _).2 ⟨cols, types, id, a, hc, by rw [hg]⟩, fun _ b => ?_⟩
    exact ((newCSVReader_ok _ _ _ _).2 ⟨cols, types, b, a, unpack_pack hE b' b, rfl⟩).trans
      ((newCSVReader_ok E { st with compression := [] } b _).2 ⟨cols, types, b, a, hu b, by rw [hg]⟩).symm

/-! ### Bodies through files -/

/-- the entries fit the format of a structure (byte strings in CBOR bodies are excluded: the reader of `Model/Formats` copies them, the
real one does not, see C73) -/
inductive Fits (E : Env) (st : Structure) (es : List Entry) : Prop
  | json : isJSON st → TopIs st b!"array" → (∀ e ∈ es, Json.Supported E.L.F e.value) → Fits E st es
  | jsonObject : isJSON st → TopIs st b!"object" → (∀ e ∈ es, Json.Supported E.L.F e.value) →
      (∀ e ∈ es, e.key ≠ [] ∧ ValidUtf8 e.key) → (es.map (·.key)).Nodup → Fits E st es
  | cbor : isCBOR st → TopIs st b!"array" → (∀ e ∈ es, Cbor.Supported e.value ∧ CborBuf.noBytes e.value = true) → es.length < 2^63 → Fits E st es
  | cborObject : isCBOR st → TopIs st b!"object" → (∀ e ∈ es, Cbor.Supported e.value ∧ CborBuf.noBytes e.value = true) →
      (∀ e ∈ es, e.key ≠ [] ∧ e.key.length ≤ 4096) → (es.map (·.key)).Nodup → es.length < 2^63 → Fits E st es
  | ndjson : isNDJSON st → TopIs st b!"array" → (∀ e ∈ es, Ndjson.Kept E.L.F e.value ∧ JsonStd.depth e.value ≤ JsonStd.maxDepth) → Fits E st es
  | csv (cols : List Tabular.Column) (ps : List Tabular.Problem) (types : List Bytes) (rows : List (List Val)) : isCSV st →
      Tabular.fromSchema E.order (st.schema.getD []) = .ok (cols, ps) → cols.map (·.type.head?) = types.map some →
      es.map (·.value) = rows.map .arr → Csv.validDelim (CsvIO.cfg (CsvIO.options (config st))).comma = true →
      (∀ row ∈ rows, CsvIO.RowFits E.L types row ∧ CsvIO.Visible row ∧
        ((CsvIO.options (config st)).variadicFields = true ∨ row.length = types.length)) →
      ((CsvIO.options (config st)).headerRow = true → (∀ c ∈ cols, (13 : UInt8) ∉ c.title) ∧ Csv.blank (Tabular.titles cols) = false) →
      Fits E st es

/-- what has to be the same afterwards: the values in their order or, for objects, the members -/
def Same (st : Structure) (es es' : List Entry) : Prop :=
  (TopIs st b!"array" → es'.map (·.value) = es.map (·.value)) ∧
  (TopIs st b!"object" → (es'.map fun e => (e.key, e.value)).Perm (es.map fun e => (e.key, e.value)))

theorem lift_drains {σ : Type} {E : Env} {rd : Reader σ} (f : σ → RState) (hf : ∀ s, reader E (f s) = ((rd s).1, f (rd s).2))
    {s s' : σ} {es : List Entry} {x : RErr} (h : Drains rd s es x s') : Drains (reader E) (f s) es x (f s') := by
  obtain ⟨m, hy, he⟩ := h
  refine ⟨f m, ?_, by rw [hf, he]⟩
  clear he
  induction hy with
  | nil s => exact .nil _
  | cons h1 _ ih => exact .cons (by rw [hf, h1]) ih

theorem lift_accepts {τ : Type} {E : Env} {w : Writer τ} (f : τ → WState) (hf : ∀ e s, writer E e (f s) = ((w e s).1, f (w e s).2))
    {s s' : τ} {es : List Entry} (h : Accepts w s es s') : Accepts (writer E) (f s) es (f s') := by
  induction h with
  | nil s => exact .nil _
  | cons h1 _ ih => exact .cons (by rw [hf, h1]) ih

theorem not_both {st : Structure} (h : TopIs st b!"array") : ¬ TopIs st b!"object" := by
  rintro ⟨m, hm, h'⟩
  obtain ⟨m', hm', h⟩ := h
  rw [hm] at hm'
  cases hm'
  rw [h] at h'
  exact absurd h' (by decide)

theorem same_array {st : Structure} {es es' : List Entry} (h : TopIs st b!"array") (he : es'.map (·.value) = es.map (·.value)) : Same st es es' :=
  ⟨fun _ => he, fun h' => absurd h' (not_both h)⟩

theorem same_object {st : Structure} {es es' : List Entry} (h : TopIs st b!"object")
    (he : (es'.map fun e => (e.key, e.value)).Perm (es.map fun e => (e.key, e.value))) : Same st es es' :=
  ⟨fun h' => absurd h (not_both h'), fun _ => he⟩

theorem csv_accepts_values {L : CsvIO.Lib} {o : Config.CSVOptions} (es : List Entry) (rows : List (List Val)) (out out' : Bytes)
    (hv : es.map (·.value) = rows.map .arr) (h : Accepts (CsvIO.writer L o) out (rows.map CsvIO.rowEntry) out') :
    Accepts (CsvIO.writer L o) out es out' := by
  induction es generalizing rows out with
  | nil =>
    cases rows with
    | nil => exact h
    | cons r rows => simp at hv
  | cons e es ih =>
    cases rows with
    | nil => simp at hv
    | cons r rows =>
      simp only [List.map_cons, List.cons.injEq] at hv
      cases h with
      | cons h1 h2 =>
        refine .cons ?_ (ih rows _ hv.2 h2)
        rw [← h1]
        simp only [CsvIO.writer, hv.1, CsvIO.rowEntry]

theorem ndjson_accepts (F : FloatCodec) (es : List Entry) (out : Bytes) (h : ∀ e ∈ es, jsonOK e.value = true) :
    Accepts (Ndjson.writer F) out es (es.foldl (fun out e => (Ndjson.writer F e out).2) out) := by
  induction es generalizing out with
  | nil => exact .nil _
  | cons e es ih =>
    refine .cons ?_ (ih _ fun e he => h e (by simp [he]))
    exact Prod.ext ((Ndjson.C23_accepts F e out).2 (h e (by simp))) rfl

/-- a JSON writer with some indent, in place of the one there would be -/
theorem json_fits {E : Env} (hE : Lossless E) {st : Structure} {es : List Entry} (indent : Bytes) (hi : JsonG.WS indent) (hj : isJSON st)
    (hp : Packable st) (hf : Fits E st es) :
    ∃ w z w' r r' es', newJSONWriter E indent st = .ok (w, z) ∧ Accepts (writer E) w es w' ∧
      newEntryReader E st (z (close E w')) = .ok r ∧ Drains (reader E) r es' .eof r' ∧ Same st es es' := by
  obtain ⟨h1, h2, h3, h4, h5⟩ := dataFormat_cases st
  have hd := h2.2 hj
  obtain ⟨z, hz⟩ := (compressor_iff E st).2 hp
  have ex : ∀ {P : Prop} (f : Names.DataFormat), f ≠ .json → dataFormat st = f → P := fun f hne h => absurd (h.symm.trans hd) hne
  cases hf with
  | json _ ht hs =>
    have ha := (getTop st .array).2 ht
    obtain ⟨r1, r2⟩ := Json.C16_array_roundtrip E.L.F indent hi es hs
    obtain ⟨r', hr⟩ := json_drains E.L.F .array _ _ _ r2
    refine ⟨_, z, _, _, .json .array r', _, (newJSONWriter_ok _ _ _ _).2 ⟨.array, z, ha, hz, rfl⟩,
      lift_accepts (.json .array indent) (fun _ _ => rfl) (json_accepts E.L.F .array indent es {} r1), ?_,
      lift_drains (.json .array) (fun _ => rfl) hr, same_array ht (map_value_indexed 0 _)⟩
    unfold newEntryReader
    rw [hd]
    exact (newJSONReader_ok _ _ _ _).2 ⟨.array, _, ha, unpack_pack hE hz _, rfl⟩
  | jsonObject _ ht hs hk hn =>
    have ha := (getTop st .object).2 ht
    obtain ⟨r1, r2⟩ := Json.C16_object_roundtrip E.L.F indent hi es hs hk hn
    obtain ⟨r', hr⟩ := json_drains E.L.F .object _ _ _ r2
    refine ⟨_, z, _, _, .json .object r', _, (newJSONWriter_ok _ _ _ _).2 ⟨.object, z, ha, hz, rfl⟩,
      lift_accepts (.json .object indent) (fun _ _ => rfl) (json_accepts E.L.F .object indent es {} r1), ?_,
      lift_drains (.json .object) (fun _ => rfl) hr, same_object ht (by rw [keyed_eq])⟩
    unfold newEntryReader
    rw [hd]
    exact (newJSONReader_ok _ _ _ _).2 ⟨.object, _, ha, unpack_pack hE hz _, rfl⟩
  | cbor h => exact ex _ (by decide) (h1.2 h)
  | cborObject h => exact ex _ (by decide) (h1.2 h)
  | ndjson h => exact ex _ (by decide) (h5.2 h)
  | csv _ _ _ _ h => exact ex _ (by decide) (h3.2 h)

/-- **C69**: for every format and compression, a body that fits is accepted by the writer of a structure, and the reader of the
same structure gives it back. -/
theorem C69_round_trip (E : Env) (hE : Lossless E) (hr : ∀ text, text.length ≤ (E.reads text).sum) (st : Structure) (es : List Entry)
    (hp : Packable st) (hf : Fits E st es) :
    ∃ w z w' r r' es', newEntryWriter E st = .ok (w, z) ∧ Accepts (writer E) w es w' ∧
      newEntryReader E st (z (close E w')) = .ok r ∧ Drains (reader E) r es' .eof r' ∧ Same st es es' := by
  obtain ⟨h1, h2, h3, h4, h5⟩ := dataFormat_cases st
  obtain ⟨z, hz⟩ := (compressor_iff E st).2 hp
  have hjson : isJSON st → ∃ w z w' r r' es', newEntryWriter E st = .ok (w, z) ∧ Accepts (writer E) w es w' ∧
      newEntryReader E st (z (close E w')) = .ok r ∧ Drains (reader E) r es' .eof r' ∧ Same st es es' := by
    intro hj
    have := json_fits hE [] (by intro c hc; simp at hc) hj hp hf
    unfold newEntryWriter
    rw [h2.2 hj]
    exact this
  cases hf with
  | json h => exact hjson h
  | jsonObject h => exact hjson h
  | cbor h ht hs hl =>
    have ha := (getTop st .array).2 ht
    have r2 := Cbor.C20_array_roundtrip es (fun e he => (hs e he).1) hl
    rw [indexed_eq, Int.cast_ofNat_Int] at r2
    obtain ⟨r', hr⟩ := cbor_drains .array _ _ _ r2
    unfold newEntryReader newEntryWriter
    rw [h1.2 h]
    refine ⟨_, z, _, _, .cbor .array r', _, (newCBORWriter_ok _ _ _).2 ⟨.array, z, ha, hz, rfl⟩,
      lift_accepts (.cbor .array) (fun _ _ => rfl) (cbor_accepts_array es {}), ?_,
      lift_drains (.cbor .array) (fun _ => rfl) hr, same_array ht (map_value_indexed 0 _)⟩
    exact (newCBORReader_ok _ _ _ _).2 ⟨.array, _, ha, unpack_pack hE hz _, rfl⟩
  | cborObject h ht hs hk hn hl =>
    have ha := (getTop st .object).2 ht
    obtain ⟨out, r2, _, r3⟩ := Cbor.C20_object_roundtrip es (fun e he => (hs e he).1) hk hn hl
    obtain ⟨r', hr⟩ := cbor_drains .object _ _ _ r2
    unfold newEntryReader newEntryWriter
    rw [h1.2 h]
    refine ⟨_, z, _, _, .cbor .object r', _, (newCBORWriter_ok _ _ _).2 ⟨.object, z, ha, hz, rfl⟩,
      lift_accepts (.cbor .object) (fun _ _ => rfl) (cbor_accepts_object es {} (fun e he => (hk e he).1) hn (by intros; rfl)), ?_,
      lift_drains (.cbor .object) (fun _ => rfl) hr, same_object ht r3⟩
    exact (newCBORReader_ok _ _ _ _).2 ⟨.object, _, ha, unpack_pack hE hz _, rfl⟩
  | ndjson h ht hs =>
    have ha := (getTop st .array).2 ht
    have hk := fun e he => Ndjson.kept_norm E.L.F (e : Entry).value (hs e he).1
    have hfil : (es.filter fun e => jsonOK e.value) = es := List.filter_eq_self.2 fun e he => (hk e he).2.2
    obtain ⟨r', hr⟩ := Ndjson.C23_round_trip E.L.F es (es.map (·.value)) (fun e he => ⟨(hk e he).2.1, (hs e he).2⟩) (by
      rw [hfil, List.map_map]
      exact List.map_congr_left fun e he => (hk e he).1)
    unfold newEntryReader newEntryWriter
    rw [h5.2 h]
    refine ⟨_, z, _, _, .ndjson r', _, (newNDJSONWriter_ok _ _ _).2 ⟨by obtain ⟨m, hm, _⟩ := ht; rw [hm]; simp, z, hz, rfl⟩,
      lift_accepts .ndjson (fun _ _ => rfl) (ndjson_accepts E.L.F es [] fun e he => (hk e he).2.2), ?_,
      lift_drains .ndjson (fun _ => rfl) hr, same_array ht (map_value_indexed 0 _)⟩
    exact (newNDJSONReader_ok _ _ _ _).2 ⟨_, ha, unpack_pack hE hz _, rfl⟩
  | csv cols ps types rows h hc hty hv hdl hrows hhead =>
    have ho := ((CsvIO.C24_open E.order (st.schema.getD [])).2.2 cols types).2 ⟨ps, hc, hty⟩
    have hlen : cols.length = types.length := by simpa using congrArg List.length hty
    obtain ⟨r1, r', hd⟩ := CsvIO.C25_round_trip E.L (CsvIO.options (config st)) cols types rows (E.reads (CsvIO.bodyText E.L (CsvIO.options (config st)) cols rows))
      hdl hlen hrows hhead (hr _)
    unfold newEntryReader newEntryWriter
    rw [h3.2 h]
    refine ⟨_, z, _, _, .csv _ types r', _, (newCSVWriter_ok _ _ _).2 ⟨cols, types, z, ho, hz, rfl⟩,
      lift_accepts (.csv _) (fun _ _ => rfl) (csv_accepts_values es rows _ _ hv r1),
      (newCSVReader_ok _ _ _ _).2 ⟨cols, types, _, ho, unpack_pack hE hz _, rfl⟩,
      lift_drains (.csv _ types) (fun _ => rfl) hd, ?_⟩
    have htop : TopIs st b!"array" := by
      unfold Tabular.fromSchema at hc
      split at hc
      · rename_i t ht
        split at hc
        · rename_i e
          subst e
          cases hs : st.schema with
          | none => rw [hs] at ht; cases ht
          | some m => rw [hs] at ht; exact ⟨m, hs, ht⟩
        · split at hc <;> cases hc
      · cases hc
    refine same_array htop ?_
    rw [hv, List.map_map]
    exact List.map_congr_left fun r _ => rfl

/-- the writer of `ConvertFile` does the same -/
theorem convert_fits (E : Env) (hE : Lossless E) (hr : ∀ text, text.length ≤ (E.reads text).sum) (st : Structure) (es : List Entry)
    (hp : Packable st) (hf : Fits E st es) :
    ∃ w z w' r r' es', convertWriter E st = .ok (w, z) ∧ Accepts (writer E) w es w' ∧
      newEntryReader E st (z (close E w')) = .ok r ∧ Drains (reader E) r es' .eof r' ∧ Same st es es' := by
  have h := C69_round_trip E hE hr st es hp hf
  obtain ⟨w, z, w', r, r', es', a, rest⟩ := h
  unfold convertWriter
  rw [a]
  by_cases hpr : (decide (dataFormat st = .json) && pretty st) = true
  · simp only [hpr, if_true]
    have hj : isJSON st := (dataFormat_cases st).2.1.1 (by simp only [Bool.and_eq_true, decide_eq_true_eq] at hpr; exact hpr.1)
    exact json_fits hE b!" " (by intro c hc; simp at hc; simp [hc]) hj hp hf
  · simp only [hpr, Bool.false_eq_true, if_false]
    exact ⟨w, z, w', r, r', es', rfl, rest⟩

/-- **C69**: converting a file that can be read to its end, into a structure whose format its entries fit, gives a file
from which the reader of that structure reads the same values, whatever the two formats and compressions; … -/
theorem C69_convert (E : Env) (hE : Lossless E) (hr : ∀ text, text.length ≤ (E.reads text).sum) (inp out : Structure) (file : Bytes)
    (limit offset : Int) (s s' : RState) (es : List Entry) (hin : newEntryReader E inp file = .ok s) (hd : Drains (reader E) s es .eof s')
    (hp : Packable out) (hf : Fits E out es) :
    ∃ n data r r' es', convertFile E file inp out limit offset true n = some (.data data) ∧
      newEntryReader E out data = .ok r ∧ Drains (reader E) r es' .eof r' ∧ Same out es es' := by
  obtain ⟨w, z, w', r, r', es', a, b, c, d, e⟩ := convert_fits E hE hr out es hp hf
  obtain ⟨n, hn⟩ := C14_complete (reader E) (writer E) (fun w => some (z (close E w))) limit offset s s' w w' es hd b
  refine ⟨n, _, r, r', es', ?_, c, d, e⟩
  unfold convertFile
  rw [a, hin]
  simp only
  rw [hn]
  rfl

/-- … with a window, the values in it. -/
theorem C69_convert_window (E : Env) (hE : Lossless E) (hr : ∀ text, text.length ≤ (E.reads text).sum) (inp out : Structure) (file : Bytes)
    (limit offset : Nat) (s s' : RState) (es : List Entry) (hin : newEntryReader E inp file = .ok s) (hd : Drains (reader E) s es .eof s')
    (hp : Packable out) (hf : Fits E out ((es.drop offset).take limit)) :
    ∃ n data r r' es', convertFile E file inp out limit offset false n = some (.data data) ∧
      newEntryReader E out data = .ok r ∧ Drains (reader E) r es' .eof r' ∧ Same out ((es.drop offset).take limit) es' := by
  obtain ⟨w, z, w', r, r', es', a, b, c, d, e⟩ := convert_fits E hE hr out _ hp hf
  obtain ⟨n, hn⟩ := C14_window (reader E) (writer E) (fun w => some (z (close E w))) limit offset s s' w w' es .eof hd (fun _ => rfl) b
  refine ⟨n, _, r, r', es', ?_, c, d, e⟩
  unfold convertFile
  rw [a, hin]
  simp only
  rw [hn]
  rfl

/-- **C69**: `ConvertFile` reports an error exactly when there is no writer for the one structure or no reader for the other;
nothing that happens while copying is reported. -/
theorem C69_convert_error (E : Env) (inp out : Structure) (file : Bytes) (limit offset : Int) (all : Bool) (n : Nat) :
    convertFile E file inp out limit offset all n = some .err ↔
      newEntryWriter E out = .err ∨ ((∃ w, newEntryWriter E out = .ok w) ∧ newEntryReader E inp file = .err) := by
  have hcw : ∀ w, newEntryWriter E out = .ok w → ∃ w', convertWriter E out = .ok w' := by
    intro w hw
    unfold convertWriter
    rw [hw]
    simp only
    split
    · rename_i h
      simp only [Bool.and_eq_true, decide_eq_true_eq] at h
      unfold newEntryWriter at hw
      rw [h.1] at hw
      obtain ⟨tl, z, a, b, _⟩ := (newJSONWriter_ok _ _ _ _).1 hw
      exact ⟨_, (newJSONWriter_ok _ _ _ _).2 ⟨tl, z, a, b, rfl⟩⟩
    · exact ⟨w, rfl⟩
  unfold convertFile
  cases hw : newEntryWriter E out with
  | err => simp [convertWriter, hw]
  | panics => simp [convertWriter, hw]
  | ok w =>
    obtain ⟨⟨w', z⟩, hc⟩ := hcw w hw
    rw [hc]
    simp only [reduceCtorEq, Opened.ok.injEq, exists_eq', true_and, false_or]
    cases newEntryReader E inp file with
    | err => simp
    | panics => simp
    | ok r =>
      simp only [reduceCtorEq, iff_false]
      intro h
      rw [Option.map_eq_some_iff] at h
      obtain ⟨d, h1, h2⟩ := h
      have := C14_fails_only_on_close (reader E) (writer E) (fun w => some (z (close E w))) (fun _ => rfl) limit offset all n r w' d h1
      cases d with
      | none => cases this
      | some b => cases h2

/-- **C69**: JSON is indented with a space exactly if the format configuration of the output has `pretty: true`. -/
theorem C69_convert_json (E : Env) (inp out : Structure) (file : Bytes) (limit offset : Int) (s s' : RState) (es : List Entry) (tl : TopLevel)
    (hin : newEntryReader E inp file = .ok s) (hd : Drains (reader E) s es .eof s') (hj : isJSON out) (ht : getTopLevelType out.schema = some tl)
    (hc : out.compression = []) (indent : Bytes)
    (hi : ((∃ cfg, out.formatConfig = some cfg ∧ mapGet cfg b!"pretty" = some (.bool true)) ∧ indent = b!" ") ∨
      ((∀ cfg, out.formatConfig = some cfg → mapGet cfg b!"pretty" ≠ some (.bool true)) ∧ indent = []))
    (hw : ∀ r ∈ (Json.writeAll E.L.F tl indent es).1, r = .ok ()) :
    ∃ n, convertFile E file inp out limit offset true n = some (.data (Json.writeAll E.L.F tl indent es).2) := by
  have hdf := (dataFormat_cases out).2.1.2 hj
  have hz : compressor E out = some id := by simp [compressor, hc]
  have hcw : convertWriter E out = .ok (.json tl indent {}, id) := by
    have h1 : ∀ i, newJSONWriter E i out = .ok (.json tl i {}, id) := fun i => (newJSONWriter_ok _ _ _ _).2 ⟨tl, id, ht, hz, rfl⟩
    unfold convertWriter newEntryWriter
    rw [hdf]
    simp only [h1, decide_true, Bool.true_and]
    rcases hi with ⟨⟨cfg, a, b⟩, rfl⟩ | ⟨a, rfl⟩
    · simp [pretty, a, b]
    · rw [if_neg]
      unfold pretty
      cases hf : out.formatConfig with
      | none => simp [mapGet]
      | some cfg => simpa using a cfg hf
  obtain ⟨n, hn⟩ := C14_complete (reader E) (writer E) (fun w => some (id (close E w))) limit offset s s' (.json tl indent {}) _ es hd
    (lift_accepts (.json tl indent) (fun _ _ => rfl) (json_accepts E.L.F tl indent es {} hw))
  refine ⟨n, ?_⟩
  unfold convertFile
  rw [hcw, hin]
  simp only
  rw [hn]
  rfl

/-- **C69**: for every other output the file is what the writer of the structure makes of the entries, compressed. -/
theorem C69_convert_written (E : Env) (inp out : Structure) (file : Bytes) (limit offset : Int) (s s' : RState) (es : List Entry)
    (w w' : WState) (z : Bytes → Bytes)
    (hin : newEntryReader E inp file = .ok s) (hd : Drains (reader E) s es .eof s') (hj : ¬ isJSON out)
    (hnew : newEntryWriter E out = .ok (w, z)) (ha : Accepts (writer E) w es w') :
    ∃ n, convertFile E file inp out limit offset true n = some (.data (z (close E w'))) := by
  have hdf : dataFormat out ≠ .json := fun h => hj ((dataFormat_cases out).2.1.1 h)
  have hcw : convertWriter E out = .ok (w, z) := by
    unfold convertWriter
    rw [hnew]
    simp [hdf]
  obtain ⟨n, hn⟩ := C14_complete (reader E) (writer E) (fun w => some (z (close E w))) limit offset s s' w w' es hd ha
  refine ⟨n, ?_⟩
  unfold convertFile
  rw [hcw, hin]
  simp only
  rw [hn]
  rfl

/-! ### Buffers -/

/-- **C69**: there is a buffer exactly for structures that can be written and whose reader opens an empty source; so there is none
for gzip (if gzip readers want a header) nor for spreadsheets (if an empty file is none). -/
theorem C69_buffer (E : Env) (st : Structure) :
    ((∃ b, newEntryBuffer E st = .ok b) ↔ (∃ r, newEntryReader E st [] = .ok r) ∧ ∃ w, newEntryWriter E st = .ok w) ∧
    (E.unpack .gzip [] = none → isGzip st → ¬ ∃ b, newEntryBuffer E st = .ok b) ∧
    (E.openBook [] = none → isXLSX st → ¬ ∃ b, newEntryBuffer E st = .ok b) ∧
    (newEntryBuffer E st = .panics ↔ (isCSV st ∨ (isXLSX st ∧ st.compression = [])) ∧ Untyped E st) := by
  have h0 : (∃ b, newEntryBuffer E st = .ok b) ↔ (∃ r, newEntryReader E st [] = .ok r) ∧ ∃ w, newEntryWriter E st = .ok w := by
    unfold newEntryBuffer
    cases newEntryReader E st [] <;> cases newEntryWriter E st <;> simp
  have excl : isXLSX st → ¬ isCBOR st ∧ ¬ isJSON st ∧ ¬ isNDJSON st ∧ ¬ isCSV st := by
    obtain ⟨h1, h2, h3, h4, h5⟩ := dataFormat_cases st
    rw [← h1, ← h2, ← h3, ← h4, ← h5]
    intro h; rw [h]; decide
  have hp : newEntryBuffer E st = .panics ↔ (isCSV st ∨ (isXLSX st ∧ st.compression = [])) ∧ Untyped E st := by
    obtain ⟨p1, p2⟩ := C69_panics E st []
    unfold newEntryBuffer
    rw [← p1]
    cases hr : newEntryReader E st [] with
    | err => simp
    | panics => simp
    | ok r =>
      have : newEntryWriter E st ≠ .panics := by rw [Ne, p2, ← p1, hr]; simp
      cases hw : newEntryWriter E st with
      | err => simp
      | panics => exact absurd hw this
      | ok w => simp
  refine ⟨h0, ?_, ?_, hp⟩
  · intro hu hg
    rw [h0, C69_reader]
    have hne : st.compression ≠ [] ∧ ¬ isZstd st := by
      rcases compression_cases st with h | h | h | h
      · exact absurd hg h.2.1
      · exact ⟨h.1, h.2.2.1⟩
      · exact absurd hg h.2.1
      · exact absurd hg h.2.1
    have hun : ¬ ∃ text, Unpacks E st [] text := by
      rintro ⟨text, h | h | h⟩
      · exact hne.1 h.1
      · rw [hu] at h; cases h.2
      · exact hne.2 h.1
    rintro ⟨h | h | h | h, _⟩
    · exact hun h.2.2
    · exact hun h.2.2
    · exact hun h.2.2
    · exact hne.1 h.2.2.1
  · intro hb hx
    obtain ⟨e1, e2, e3, e4⟩ := excl hx
    rw [h0, C69_reader]
    simp only [e1, e2, e3, e4, or_self, false_and, false_or]
    rintro ⟨⟨_, _, _, s, _, _, h, _⟩, _⟩
    rw [hb] at h; cases h

/-! ### Examples -/

/-- libraries for the examples: packed texts begin with a mark, which unpacking wants -/
def exE : Env where
  L := { parse64 := fun _ => none, fmtF := fun _ => b!"0.5", F := Json.exF }
  order := fun _ m => m
  reads := fun text => [text.length]
  pack := fun c b => (if c = .gzip then 31 else 40) :: b
  unpack := fun c b =>
    match b with
    | x :: b => if x = (if c = .gzip then 31 else 40) then some b else none
    | [] => if c = .gzip then none else some []
  openBook := fun b => if b = [] then none else some fun name => if name = b!"Sheet1" then some [[b!"1", b!"x"]] else none
  saveBook := fun name _ => name

def outcome {α : Type} : Opened α → Nat
  | .ok _ => 0
  | .err => 1
  | .panics => 2

def typed (t : Bytes) : Option (List (Bytes × Val)) := some [(b!"type", .str t)]

/-- a table with a number of columns of this type -/
def table (l : List Val) : Option (List (Bytes × Val)) :=
  some [(b!"items", .obj [(b!"items", .arr (l.map fun t => .obj [(b!"title", .str b!"a"), (b!"type", t)]))]), (b!"type", .str b!"array")]

example : Lossless exE ∧ ∀ text, text.length ≤ (exE.reads text).sum := by
  refine ⟨?_, fun text => by simp [exE]⟩
  intro c b
  by_cases h : c = .gzip <;> simp [exE, h]

-- newline-delimited JSON can be written for an object, but not read; a bad sheet name is minded by the writer only
example : outcome (newEntryWriter exE { format := b!"jsonl", schema := typed b!"object" }) = 0 ∧
    outcome (newEntryReader exE { format := b!"jsonl", schema := typed b!"object" } []) = 1 := by decide +kernel
example : outcome (newEntryWriter exE { format := b!".xlsx", schema := table [.str b!"integer"], formatConfig := some [(b!"sheetName", .int 3)] }) = 1 ∧
    outcome (newEntryReader exE { format := b!".xlsx", schema := table [.str b!"integer"], formatConfig := some [(b!"sheetName", .int 3)] } b!"PK") = 0 := by
  decide +kernel
example : outcome (newEntryReader exE { format := b!"xml", schema := typed b!"array" } []) = 1 ∧
    outcome (newEntryReader exE { format := b!"json", schema := typed b!"array" } []) = 0 ∧
    outcome (newEntryReader exE { format := b!"json", schema := typed b!"string" } []) = 1 ∧
    outcome (newEntryReader exE { format := b!"json", schema := typed b!"array", compression := b!"bz2" } []) = 1 := by decide +kernel
-- a column with an empty list of types
example : outcome (newEntryReader exE { format := b!"csv", schema := table [.arr []] } []) = 2 ∧
    outcome (newEntryWriter exE { format := b!"csv", schema := table [.arr []] }) = 2 := by decide +kernel
-- no buffers with gzip
example : outcome (newEntryBuffer exE { format := b!"cbor", schema := typed b!"object", compression := b!"gz" }) = 1 ∧
    outcome (newEntryBuffer exE { format := b!"cbor", schema := typed b!"object", compression := b!"zst" }) = 0 := by decide +kernel

/-- packed JSON becomes packed CBOR; … -/
example : convertFile exE (31 :: b!"[1,null]") { format := b!"json", schema := typed b!"array", compression := b!"gz" }
    { format := b!"cbor", schema := typed b!"array", compression := b!"zstd" } 0 0 true 5 = some (.data [40, 0x82, 1, 0xf6]) := by decide +kernel
/-- … and back, with a window and indented -/
example : convertFile exE [0x82, 1, 2] { format := b!"cbor", schema := typed b!"array" }
    { format := b!".json", schema := typed b!"array", formatConfig := some [(b!"pretty", .bool true)] } 1 1 false 5 = some (.data b!"[\n 2\n]") := by decide +kernel
/-- … a table from a spreadsheet -/
example : convertFile exE b!"PK" { format := b!"xlsx", schema := table [.str b!"integer", .str b!"string"] }
    { format := b!"csv", schema := table [.str b!"integer", .str b!"string"], formatConfig := some [(b!"headerRow", .bool true)] } 0 0 true 5
    = some (.data b!"a,a\n1,x\n") := by decide +kernel
example : convertFile exE [] { format := b!"json" } { format := b!"csv", schema := table [] } 0 0 true 5 = some .err := by decide +kernel

example : convertFile exE [0x82, 1, 2] { format := b!"cbor", schema := typed b!"array" }
    { format := b!".json", schema := typed b!"array", formatConfig := some [(b!"pretty", .bool false)] } 0 0 true 5 = some (.data b!"[1,2]") := by decide +kernel

/-- rows that fit a packed table -/
example : Fits exE { format := b!"csv", schema := table [.str b!"integer", .str b!"string"], compression := b!"gz" }
    [{ value := .arr [.int 5, .str b!"x,y"] }] := by
  refine .csv [{ title := b!"a", type := [b!"integer"] }, { title := b!"a", type := [b!"string"] }] [] [b!"integer", b!"string"]
    [[.int 5, .str b!"x,y"]] (.inl rfl) rfl rfl rfl (by decide +kernel) ?_ (by decide +kernel)
  intro row hrow
  rw [List.mem_singleton] at hrow
  subst hrow
  refine ⟨.cons ?_ (.cons ?_ (.nil _)), by simp [CsvIO.Visible], .inr rfl⟩
  · exact ⟨rfl, by decide, by decide⟩
  · refine ⟨?_, by decide⟩
    intro v h
    simp [CsvIO.Literal] at h

end Verif.Formats
