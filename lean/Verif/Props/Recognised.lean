import Verif.Props.Formats
import Verif.Props.Detect
/-
C79: detection recognises bodies that can be read.
-/
set_option autoImplicit false
namespace Verif.Formats
open Verif.Streams Verif.Doc
open Verif.Detect (Src Body structure_ schemaOf ShortBlank Lively)

/-! ### Detection from the name and the bytes alone -/

theorem detect_new (D : Detect.Env) (b : Body) (df : Names.DataFormat) (comp : Names.Compression) (g : Structure)
    (hn : Names.formatFromFilename b.name = some (df, comp)) (hg : (Detect.fromReader D df comp b.src).1 = .ok g) :
    ∃ b', structure_ D none (some b) = (none, some g, some b') ∧ b'.src.text = b.src.text := by
  have h : ∃ b', structure_ D none (some b) = (none, some g, some b') := by
    unfold structure_
    simp only [Detect.complete, Bool.false_eq_true, if_false, hn]
    cases hf : Detect.fromReader D df comp b.src with
    | mk r rest =>
      rw [hf] at hg
      simp only at hg
      subst hg
      simp only [Detect.fill_none]
      exact ⟨_, rfl⟩
  obtain ⟨b', h⟩ := h
  obtain ⟨b'', e, _, ht, _⟩ := Detect.C34_body D none (some g) b (some b') h
  cases e
  exact ⟨b', h, ht⟩

theorem getTop_schemaOf (tl : TopLevel) : getTopLevelType (some (schemaOf tl)) = some tl := by cases tl <;> rfl

/-- the structure that is detected for a kind of body -/
def plain (df : Names.DataFormat) (tl : TopLevel) : Structure := { format := df.string, schema := some (schemaOf tl) }

theorem plain_format (df : Names.DataFormat) (tl : TopLevel) : dataFormat (plain df tl) = df := by
  cases df <;> cases tl <;> decide +kernel

theorem dropWhile_find (p : UInt8 → Bool) (s : Bytes) (c : UInt8) (t : Bytes) (h : s.dropWhile p = c :: t) : s.find? (fun c => !p c) = some c := by
  induction s with
  | nil => simp at h
  | cons a s ih =>
    by_cases ha : p a = true
    · rw [List.dropWhile_cons_of_pos ha] at h
      rw [List.find?_cons_of_neg (by simp [ha])]
      exact ih h
    · rw [List.dropWhile_cons_of_neg ha] at h
      cases h
      rw [List.find?_cons_of_pos (by simp [ha])]

/-- what a JSON reader that does not fail at once has seen -/
theorem json_opened (tl : TopLevel) (text : Bytes) (h : Json.token (Json.openCh tl) text ≠ none) : Detect.jsonTop text = .ok (schemaOf tl) := by
  unfold Json.token Json.skipWS at h
  have hw : ∀ c, Json.isWhitespace c = Detect.ws c := by
    intro c
    simp only [Json.isWhitespace, Detect.ws]
    cases decide (c = 32) <;> cases decide (c = 10) <;> cases decide (c = 13) <;> cases decide (c = 9) <;> rfl
  cases hd : text.dropWhile Json.isWhitespace with
  | nil => rw [hd] at h; exact absurd rfl h
  | cons c t =>
    rw [hd] at h
    have := dropWhile_find _ _ _ _ hd
    simp only [hw] at this
    unfold Detect.jsonTop
    rw [this]
    have hc : c = Json.openCh tl := by
      by_cases hc : c = Json.openCh tl
      · exact hc
      · simp [hc] at h
    subst hc
    cases tl <;> rfl

/-- **C79**: a JSON body that can be read to its end is detected as what it is: the structure found from the name and the bytes reads
it in the same way.  (Detection fails if the first read gives less than 100 bytes of white space only.) -/
theorem C79_json (E : Env) (D : Detect.Env) (st : Structure) (data : Bytes) (r r' : RState) (es : List Entry) (hj : isJSON st) (hc : st.compression = [])
    (ho : newEntryReader E st data = .ok r) (hd : Drains (reader E) r es .eof r')
    (b : Body) (hn : Names.formatFromFilename b.name = some (.json, .none)) (ht : b.src.text = data) (he : b.src.err = .eof) (hs : ¬ ShortBlank b.src) :
    ∃ g b', structure_ D none (some b) = (none, some g, some b') ∧ b'.src.text = data ∧ newEntryReader E g data = .ok r ∧
      getTopLevelType g.schema = getTopLevelType st.schema := by
  have hf : dataFormat st = .json := (dataFormat_cases st).2.1.2 hj
  unfold newEntryReader at ho
  simp only [hf, newJSONReader] at ho
  cases hsch : st.schema with
  | none => simp [hsch] at ho
  | some sch =>
    cases htl : getTopLevelType st.schema with
    | none => simp [hsch] at ho; rw [hsch] at htl; simp [htl] at ho
    | some tl =>
      have hdc : decompress E st data = some data := by unfold decompress; rw [if_pos hc]
      rw [hsch] at ho htl
      simp only [htl, hdc, CsvIO.Opened.ok.injEq] at ho
      subst ho
      have hopen : Json.token (Json.openCh tl) data ≠ none := by
        intro hnone
        have hr : (reader E (.json tl { rest := data })).1 = .fail (.other b!"json") := by
          simp [reader, jsonReader, Json.readEntry, hnone]
        obtain ⟨m, y, f⟩ := hd
        cases y with
        | nil => rw [f] at hr; cases hr
        | cons g _ => rw [g] at hr; cases hr
      have hres : (Detect.jsonSchema b.src).res = .ok (schemaOf tl) := by
        rw [(Detect.C35_closed_form b.src he).2 hs, ht]
        exact json_opened tl data hopen
      have hg : (Detect.fromReader D .json .none b.src).1 = .ok (plain .json tl) := by
        simp only [Detect.fromReader, hres, Except.map]
        rfl
      obtain ⟨b', h1, h2⟩ := detect_new D b _ _ _ hn hg
      refine ⟨plain .json tl, b', h1, by rw [h2, ht], ?_, by rw [htl]; exact getTop_schemaOf tl⟩
      unfold newEntryReader
      rw [plain_format]
      simp only [newJSONReader]
      have hp : (plain .json tl).schema = some (schemaOf tl) := rfl
      have hdp : decompress E (plain .json tl) data = some data := rfl
      rw [hp, getTop_schemaOf]
      simp only [hdp]

theorem major (b : UInt8) (h : b &&& 0xe0 = 0x80 ∨ b &&& 0xe0 = 0xa0) : ∃ tl, b &&& 0xe0 = Cbor.topByte tl := by
  rcases h with h | h
  · exact ⟨.array, h⟩
  · exact ⟨.object, h⟩

/-- **C79**: so is a CBOR body, unless it is empty.  (A CBOR reader takes an empty body, and one that ends within the number of its
entries, for a body without entries, be it an array or an object; the latter is detected as what its first byte says.) -/
theorem C79_cbor (E : Env) (D : Detect.Env) (st : Structure) (data : Bytes) (r r' : RState) (es : List Entry) (hj : isCBOR st) (hc : st.compression = [])
    (ho : newEntryReader E st data = .ok r) (hd : Drains (reader E) r es .eof r') (hne : data ≠ [])
    (b : Body) (hn : Names.formatFromFilename b.name = some (.cbor, .none)) (ht : b.src.text = data) (hl : Lively b.src) :
    ∃ g b' r₂ r₂', structure_ D none (some b) = (none, some g, some b') ∧ b'.src.text = data ∧ newEntryReader E g data = .ok r₂ ∧
      Drains (reader E) r₂ es .eof r₂' ∧ (es ≠ [] → r₂ = r ∧ getTopLevelType g.schema = getTopLevelType st.schema) := by
  have hf : dataFormat st = .cbor := (dataFormat_cases st).1.2 hj
  have hdc : decompress E st data = some data := by unfold decompress; rw [if_pos hc]
  unfold newEntryReader at ho
  simp only [hf, newCBORReader] at ho
  cases hsch : st.schema with
  | none => simp [hsch] at ho
  | some sch =>
    cases htl : getTopLevelType st.schema with
    | none => simp [hsch, hdc] at ho; rw [hsch] at htl; simp [htl] at ho
    | some tl =>
      rw [hsch] at ho htl
      simp only [htl, hdc, CsvIO.Opened.ok.injEq] at ho
      subst ho
      -- what is detected, for the major type of the first byte
      have key : ∀ tl', (∃ x t, data = x :: t ∧ x &&& 0xe0 = Cbor.topByte tl') → ∃ b', structure_ D none (some b) = (none, some (plain .cbor tl'), some b') ∧
          b'.src.text = data ∧ newEntryReader E (plain .cbor tl') data = .ok (.cbor tl' { inp := data }) := by
        intro tl' hx
        have hres := (Detect.C36_detect b.src hl tl').2 (by rw [ht]; exact hx)
        have hg : (Detect.fromReader D .cbor .none b.src).1 = .ok (plain .cbor tl') := by
          simp only [Detect.fromReader, hres, Except.map]
          rfl
        obtain ⟨b', h1, h2⟩ := detect_new D b _ _ _ hn hg
        refine ⟨b', h1, by rw [h2, ht], ?_⟩
        unfold newEntryReader
        rw [plain_format]
        simp only [newCBORReader]
        have hp : (plain .cbor tl').schema = some (schemaOf tl') := rfl
        have hdp : decompress E (plain .cbor tl') data = some data := rfl
        rw [hp, getTop_schemaOf]
        simp only [hdp]
      obtain ⟨x, t, rfl⟩ := List.exists_cons_of_ne_nil hne
      have hbad : ∀ e, e ≠ .eof → Cbor.start tl { inp := x :: t } ≠ .error e := by
        intro e he hstart
        have hr : (reader E (.cbor tl { inp := x :: t })).1 = .fail (.other b!"cbor") := by
          simp only [reader, cborReader, Cbor.readEntry, hstart]
        obtain ⟨m, y, f⟩ := hd
        cases y with
        | nil => rw [f] at hr; cases hr
        | cons g _ => rw [g] at hr; cases hr
      have hmaj : x &&& 0xe0 = 0x80 ∨ x &&& 0xe0 = 0xa0 := by
        by_cases h : x &&& 0xe0 = 0x80 ∨ x &&& 0xe0 = 0xa0
        · exact h
        · have h' := not_or.mp h
          refine absurd ?_ (hbad .invalidTop (by simp))
          have hr : Cbor.readTopLevel (x :: t) = .err .invalidTop := by
            simp only [Cbor.readTopLevel]
            rw [if_pos ⟨h'.1, h'.2⟩]
          simp only [Cbor.start, if_true, hr]
      obtain ⟨tl', htl'⟩ := major x hmaj
      obtain ⟨b', h1, h2, h3⟩ := key tl' ⟨x, t, rfl, htl'⟩
      have hsame : tl' = tl ∨ Cbor.readTopLevel (x :: t) = .err .eof := by
        cases hr : Cbor.readTopLevel (x :: t) with
        | err e =>
          right
          by_cases he : e = .eof
          · rw [he]
          · refine absurd ?_ (hbad e he)
            simp only [Cbor.start, if_true, hr]
        | ok p rest =>
          left
          obtain ⟨y, n⟩ := p
          have hy : y = x &&& 0xe0 := by
            simp only [Cbor.readTopLevel] at hr
            split at hr
            · cases hr
            · split at hr
              · cases hr; rfl
              · split at hr
                · cases hr; rfl
                · cases hr
          by_cases hyt : y = Cbor.topByte tl
          · rw [hy, htl'] at hyt
            revert hyt
            cases tl <;> cases tl' <;> decide
          · refine absurd ?_ (hbad .topMismatch (by simp))
            simp only [Cbor.start, if_true, hr]
            rw [if_pos hyt]
      rcases hsame with rfl | hend
      · exact ⟨_, b', _, _, h1, h2, h3, hd, fun _ => ⟨rfl, by rw [htl]; exact getTop_schemaOf tl'⟩⟩
      · have hfail : ∀ tl, reader E (.cbor tl { inp := x :: t }) = (.fail .eof, .cbor tl { inp := x :: t }) := by
          intro tl
          simp only [reader, cborReader, Cbor.readEntry, Cbor.start, if_true, hend]
        have hes : es = [] := by
          obtain ⟨m, y, f⟩ := hd
          cases y with
          | nil => rfl
          | cons g _ => rw [hfail] at g; cases g
        subst hes
        exact ⟨_, b', _, _, h1, h2, h3, ⟨_, .nil _, hfail tl'⟩, fun h => absurd rfl h⟩

/-- An empty CBOR body is read as one without entries, and not detected. -/
theorem C79_cbor_empty (E : Env) (D : Detect.Env) (tl : TopLevel) (b : Body) (hn : Names.formatFromFilename b.name = some (.cbor, .none))
    (ht : b.src.text = []) (he : b.src.err = .eof) (hl : Lively b.src) :
    (∃ r r', newEntryReader E (plain .cbor tl) [] = .ok r ∧ Drains (reader E) r [] .eof r') ∧
    ∃ b', structure_ D none (some b) = (some (.detect .cborTop), none, b') := by
  constructor
  · refine ⟨.cbor tl { inp := [] }, .cbor tl { inp := [] }, ?_, _, .nil _, ?_⟩
    · cases tl <;> rfl
    · rfl
  · have h1 : (Detect.cborSchema b.src).res = .error .cborTop := by
      unfold Detect.cborSchema
      rcases Detect.firstByte_spec 99 b.src with ⟨x, t, h, _⟩ | ⟨_, h⟩ | ⟨_, h3, h4⟩
      · rw [ht] at h; cases h
      · rw [he] at h
        generalize Detect.firstByte 99 b.src = fb at h
        obtain ⟨o, rest⟩ := fb
        simp only at h
        subst h
        rfl
      · rcases hl with h | h
        · omega
        · exact absurd h4 h
    unfold structure_
    simp only [Detect.complete, Bool.false_eq_true, if_false, hn, Detect.fromReader, h1, Except.map]
    exact ⟨_, rfl⟩

/-- **C79**: so is newline-delimited JSON. -/
theorem C79_ndjson (E : Env) (D : Detect.Env) (st : Structure) (data : Bytes) (r : RState) (hj : isNDJSON st) (hc : st.compression = [])
    (ho : newEntryReader E st data = .ok r) (b : Body) (hn : Names.formatFromFilename b.name = some (.ndjson, .none)) (ht : b.src.text = data) :
    ∃ g b', structure_ D none (some b) = (none, some g, some b') ∧ b'.src.text = data ∧ newEntryReader E g data = .ok r := by
  have hf : dataFormat st = .ndjson := (dataFormat_cases st).2.2.2.2.2 hj
  have hdc : decompress E st data = some data := by unfold decompress; rw [if_pos hc]
  have hg : (Detect.fromReader D .ndjson .none b.src).1 = .ok (plain .ndjson .array) := rfl
  obtain ⟨b', h1, h2⟩ := detect_new D b _ _ _ hn hg
  refine ⟨_, b', h1, by rw [h2, ht], ?_⟩
  have hr : newEntryReader E (plain .ndjson .array) data = .ok (.ndjson { rest := data }) := by
    unfold newEntryReader
    rw [plain_format]
    rfl
  rw [hr]
  unfold newEntryReader at ho
  simp only [hf, newNDJSONReader] at ho
  split at ho
  · cases ho
  · split at ho
    · rw [hdc] at ho; simpa using ho
    · cases ho

theorem copy_cbor {σ : Type} (E : Env) (rd : Reader σ) (tl : TopLevel) (n : Nat) (s : σ) (w : Cbor.Writer) (x : CopyRes × σ × WState)
    (h : copy rd (writer E) n s (.cbor tl w) = some x) : ∃ w', x.2.2 = .cbor tl w' := by
  induction n generalizing s w with
  | zero => cases h
  | succ n ih =>
    rw [copy] at h
    split at h
    · cases h; exact ⟨w, rfl⟩
    · cases h; exact ⟨w, rfl⟩
    · split at h
      · rename_i hw
        cases h
        simp only [writer, Prod.mk.injEq] at hw
        exact ⟨_, hw.2.symm⟩
      · rename_i hw
        simp only [writer, Prod.mk.injEq] at hw
        rw [← hw.2] at h
        exact ih _ _ h

theorem cbor_close_ne (tl : TopLevel) (w : Cbor.Writer) : Cbor.close tl w ≠ [] := by
  have hu : ∀ b n, Cbor.encUint b n ≠ [] := by
    intro b n
    unfold Cbor.encUint
    repeat' split
    all_goals simp
  cases tl with
  | array => simp [Cbor.close, Cbor.enc, hu]
  | object => simp [Cbor.close, Cbor.enc, hu]

/-- converting to CBOR never gives an empty file -/
theorem convert_cbor_ne (E : Env) (inp out : Structure) (file data : Bytes) (limit offset : Int) (all : Bool) (n : Nat) (hj : isCBOR out)
    (hc : out.compression = []) (h : convertFile E file inp out limit offset all n = some (.data data)) : data ≠ [] := by
  have hf : dataFormat out = .cbor := (dataFormat_cases out).1.2 hj
  have hz : compressor E out = some id := by unfold compressor; rw [if_pos hc]
  unfold convertFile at h
  cases hw : convertWriter E out with
  | err => rw [hw] at h; cases h
  | panics => rw [hw] at h; cases h
  | ok p =>
    obtain ⟨w, z⟩ := p
    have hwz : z = id ∧ ∃ tl, w = .cbor tl {} := by
      simp only [convertWriter, newEntryWriter, hf, newCBORWriter, hz] at hw
      cases hs : out.schema with
      | none => simp [hs] at hw
      | some sch =>
        cases ht : getTopLevelType (some sch) with
        | none => simp [hs, ht] at hw
        | some tl =>
          simp only [hs, ht, reduceCtorEq, decide_false, Bool.false_and, Bool.false_eq_true, if_false, CsvIO.Opened.ok.injEq, Prod.mk.injEq] at hw
          exact ⟨hw.2.symm, tl, hw.1.symm⟩
    obtain ⟨rfl, tl, rfl⟩ := hwz
    rw [hw] at h
    simp only at h
    cases hr : newEntryReader E inp file with
    | err => rw [hr] at h; cases h
    | panics => rw [hr] at h; cases h
    | ok r =>
      rw [hr] at h
      simp only [Option.map_eq_some_iff] at h
      obtain ⟨d, hd, h⟩ := h
      have : ∃ w', d = some (Cbor.close tl w') := by
        unfold convert at hd
        split at hd
        · simp only [Option.map_eq_some_iff] at hd
          obtain ⟨x, hx, rfl⟩ := hd
          obtain ⟨w', e⟩ := copy_cbor E _ tl n _ _ _ hx
          exact ⟨w', by rw [e]; rfl⟩
        · simp only [Option.map_eq_some_iff] at hd
          obtain ⟨x, hx, rfl⟩ := hd
          obtain ⟨w', e⟩ := copy_cbor E _ tl n _ _ _ hx
          exact ⟨w', by rw [e]; rfl⟩
      obtain ⟨w', rfl⟩ := this
      simp only [Converted.data.injEq] at h
      rw [← h]
      exact cbor_close_ne tl w'

/-- **C79**: so a body that is converted to JSON, CBOR or newline-delimited JSON needs no structure to be read again: what is detected
in the new file reads the values that were there. -/
theorem C79_converted (E : Env) (hE : Lossless E) (hr : ∀ text, text.length ≤ (E.reads text).sum) (D : Detect.Env) (inp out : Structure) (file : Bytes)
    (limit offset : Int) (s s' : RState) (es : List Entry) (hin : newEntryReader E inp file = .ok s) (hd : Drains (reader E) s es .eof s')
    (hc : out.compression = []) (hf : Fits E out es) (hx : ¬ isCSV out) :
    ∃ n data, convertFile E file inp out limit offset true n = some (.data data) ∧
      ∀ b : Body, b.src.text = data → b.src.err = .eof → Names.formatFromFilename b.name = some (dataFormat out, .none) → ¬ ShortBlank b.src → Lively b.src →
        ∃ g b' r r' es', structure_ D none (some b) = (none, some g, some b') ∧ b'.src.text = data ∧ newEntryReader E g data = .ok r ∧
          Drains (reader E) r es' .eof r' ∧ Same out es es' := by
  obtain ⟨n, data, r, r', es', h1, h2, h3, h4⟩ := C69_convert E hE hr inp out file limit offset s s' es hin hd (.inl hc) hf
  refine ⟨n, data, h1, ?_⟩
  intro b ht he hn hs hl
  obtain ⟨k1, k2, _, _, k5⟩ := dataFormat_cases out
  have hj : isJSON out ∨ isCBOR out ∨ isNDJSON out := by
    cases hf with
    | json h => exact .inl h
    | jsonObject h => exact .inl h
    | cbor h => exact .inr (.inl h)
    | cborObject h => exact .inr (.inl h)
    | ndjson h => exact .inr (.inr h)
    | csv _ _ _ _ h => exact absurd h hx
  rcases hj with hj | hj | hj
  · rw [k2.2 hj] at hn
    obtain ⟨g, b', a1, a2, a3, _⟩ := C79_json E D out data r r' es' hj hc h2 h3 b hn ht he hs
    exact ⟨g, b', r, r', es', a1, a2, a3, h3, h4⟩
  · rw [k1.2 hj] at hn
    obtain ⟨g, b', r₂, r₂', a1, a2, a3, a4, _⟩ := C79_cbor E D out data r r' es' hj hc h2 h3 (convert_cbor_ne E inp out file data limit offset true n hj hc h1) b hn ht hl
    exact ⟨g, b', r₂, r₂', es', a1, a2, a3, a4, h4⟩
  · rw [k5.2 hj] at hn
    obtain ⟨g, b', a1, a2, a3⟩ := C79_ndjson E D out data r hj hc h2 b hn ht
    exact ⟨g, b', r, r', es', a1, a2, a3, h3, h4⟩

/-! ### CSV -/

theorem upTo_mem {α : Type} (p : α → Bool) (n : Nat) (l : List α) (a : α) (h : a ∈ Detect.upTo p n l) : a ∈ l := by
  induction l generalizing n with
  | nil => cases n <;> exact h
  | cons x l ih =>
    cases n with
    | zero => cases h
    | succ n =>
      rw [Detect.upTo] at h
      rcases List.mem_cons.mp h with rfl | h
      · simp
      · exact List.mem_cons_of_mem _ (ih _ h)

theorem upTo_ne {α : Type} (p : α → Bool) (n : Nat) (l : List α) (h : l ≠ []) : ∃ a ∈ l, a ∈ Detect.upTo p (n + 1) l := by
  cases l with
  | nil => exact absurd rfl h
  | cons a l => exact ⟨a, by simp, by simp [Detect.upTo]⟩

/-- **C79**: a CSV body that was written with commas is detected as what it is, and gives the rows that were written, if its first record
looks like a header exactly if it is one, and the text of every cell looks like a value of the type of its column.  The types of the
columns are detected; their titles may not be (C59). -/
theorem C79_csv (E : Env) (hE : Tabular.Order E.order) (hr : ∀ text, text.length ≤ (E.reads text).sum) (D : Detect.Env) (o : Config.CSVOptions)
    (cols : List Tabular.Column) (types : List Vals.VType) (rows : List (List Val)) (hsep : (CsvIO.cfg o).comma = 44) (hcols : cols.length = types.length)
    (hknown : ∀ t ∈ types, t ≠ .unknown)
    (hrows : ∀ row ∈ rows, CsvIO.RowFits E.L (types.map (·.name)) row ∧ CsvIO.Visible row ∧ row.length = types.length)
    (hlook : ∀ row ∈ rows, ∀ (j : Nat) (v : Val) (t : Vals.VType), row[j]? = some v → types[j]? = some t → Vals.parseType D.L (CsvIO.encodeCell E.L v) = t)
    (hhead : o.headerRow = true → (∀ c ∈ cols, (13 : UInt8) ∉ c.title) ∧ Csv.blank (Tabular.titles cols) = false)
    (first : List Bytes) (others : List (List Bytes)) (hfirst : CsvIO.records E.L o cols rows = first :: others) (hlh : o.headerRow = true ↔ Detect.Header D.L first)
    (b : Body) (hn : Names.formatFromFilename b.name = some (.csv, .none)) (ht : b.src.text = CsvIO.bodyText E.L o cols rows) (he : b.src.err = .eof)
    (hrep : D.repaired b.src = ReplaceCr.fix true b.src.text) :
    ∃ g b' r r', structure_ D none (some b) = (none, some g, some b') ∧ b'.src.text = CsvIO.bodyText E.L o cols rows ∧
      newEntryReader E g (CsvIO.bodyText E.L o cols rows) = .ok r ∧ Drains (reader E) r (rows.map CsvIO.rowEntry) .eof r' := by
  have hu : utf8Enc (CsvIO.cfg o).comma = [44] := by rw [hsep]; decide
  have hwidth : ∀ fs ∈ CsvIO.records E.L o cols rows, fs.length = types.length ∧ Csv.blank fs = false ∧ ∀ f ∈ fs, (13 : UInt8) ∉ f := by
    intro fs hfs
    simp only [CsvIO.records, List.mem_append] at hfs
    rcases hfs with hfs | hfs
    · by_cases hh : o.headerRow = true
      · rw [if_pos hh, List.mem_singleton] at hfs
        subst hfs
        refine ⟨by simp [Tabular.titles, hcols], (hhead hh).2, ?_⟩
        intro f hf
        obtain ⟨c, hc, rfl⟩ := List.mem_map.mp hf
        exact (hhead hh).1 c hc
      · rw [if_neg hh] at hfs; simp at hfs
    · obtain ⟨row, hrow, rfl⟩ := List.mem_map.mp hfs
      obtain ⟨h1, h2, h3⟩ := hrows row hrow
      refine ⟨by simpa [CsvIO.encode] using h3, (CsvIO.blank_visible h1).2 h2, ?_⟩
      intro f hf
      obtain ⟨v, hvv, rfl⟩ := List.mem_map.mp hf
      obtain ⟨t, ht⟩ := CsvIO.rowFits_fits h1 v hvv
      exact CsvIO.cell_nocr E.L t v ht
  have hseen : Detect.rows (D.repaired b.src) = first :: others := by
    rw [hrep, ht, CsvIO.bodyText, hu, Detect.C59_written, ← hfirst]
    have e1 : (CsvIO.records E.L o cols rows).filter (fun fs => !Csv.blank fs) = CsvIO.records E.L o cols rows := by
      rw [List.filter_eq_self]
      intro fs hfs
      rw [(hwidth fs hfs).2.1]; rfl
    rw [e1]
    refine (List.map_congr_left ?_).trans (List.map_id _)
    intro fs hfs
    refine (List.map_congr_left ?_).trans (List.map_id _)
    intro f hf
    exact Csv.univ_nocr ((hwidth fs hfs).2.2 f hf)
  have hw1 : first.length = types.length := (hwidth first (by rw [hfirst]; simp)).1
  have hwo : ∀ r ∈ others, r.length = first.length := by
    intro r hr'
    rw [hw1]
    exact (hwidth r (by rw [hfirst]; simp [hr'])).1
  obtain ⟨vs, config, hd, _, _, _, _, _, _, _, o', ho', hlazy, hs', hh', hv'⟩ := Detect.C59_detected D.L D.varName (D.repaired b.src) first others hseen
  obtain ⟨header, rest, cols', ts, hrw, hopen, hcl, htl, hts⟩ := Detect.C59_opens D.L D.varName (D.repaired b.src) _ (by rw [hd]) hE
  rw [hseen, List.cons.injEq] at hrw
  obtain ⟨rfl, rfl⟩ := hrw
  have hvar : o'.variadicFields = false := by
    rw [← Bool.not_eq_true, hv']
    rintro ⟨r, hr1, hr2⟩
    exact hr2 (hwo r (upTo_mem _ _ _ _ hr1))
  have hhr : o'.headerRow = o.headerRow := by
    rw [Bool.eq_iff_iff, hh', hlh]
  have hcfg : (CsvIO.cfg o').comma = 44 := by simp [CsvIO.cfg, hs']
  have hrec : CsvIO.records E.L o' cols rows = CsvIO.records E.L o cols rows := by simp only [CsvIO.records, hhr]
  have hbody : CsvIO.bodyText E.L o' cols rows = CsvIO.bodyText E.L o cols rows := by simp only [CsvIO.bodyText, hrec, hcfg, hsep]
  -- the types
  have htypes : rows ≠ [] → ts = types.map (·.name) := by
    intro hne
    refine List.ext_getElem? ?_
    intro j
    by_cases hj : j < types.length
    · have hjt : j < ts.length := by omega
      obtain ⟨ty, hm, hname⟩ := hts j ts[j] (List.getElem?_eq_getElem hjt)
      have hty : ty = types[j] := by
        have hcell : ∀ row ∈ rows, Vals.parseType D.L ((CsvIO.encode E.L row).getD j []) = types[j] := by
          intro row hrow
          have hjr : j < row.length := by rw [(hrows row hrow).2.2]; exact hj
          have := hlook row hrow j row[j] types[j] (List.getElem?_eq_getElem hjr) (List.getElem?_eq_getElem hj)
          rw [← this]
          simp [CsvIO.encode, List.getD, hjr]
        refine Detect.C59_homogeneous _ _ _ hm ?_ ?_
        · -- some row is counted
          simp only [Detect.columnTypes, ne_eq, List.map_eq_nil_iff, List.append_eq_nil_iff, not_and]
          intro hempty
          have hposs : Detect.possibleHeader D.L first = true := by
            by_cases hp : Detect.possibleHeader D.L first = true
            · exact hp
            · rw [if_neg hp] at hempty; simp at hempty
          have hhd : o.headerRow = true := hlh.2 ((Detect.header_iff _ _).1 hposs)
          have hoth : others = rows.map (CsvIO.encode E.L) := by
            simp only [CsvIO.records, hhd, if_true, List.cons_append, List.nil_append, List.cons.injEq] at hfirst
            exact hfirst.2.symm
          obtain ⟨a, ha1, ha2⟩ := upTo_ne (fun r : List Bytes => decide (r.length = first.length)) 2000 others (by rw [hoth]; simpa using hne)
          intro hnil
          have : a ∈ (Detect.upTo (fun r : List Bytes => decide (r.length = first.length)) 2001 others).filter (fun r => r.length = first.length) :=
            List.mem_filter.mpr ⟨ha2, by simpa using hwo a ha1⟩
          rw [hnil] at this
          cases this
        · intro t ht'
          simp only [Detect.columnTypes, List.mem_map, List.mem_append, List.mem_filter] at ht'
          obtain ⟨fs, hfs, rfl⟩ := ht'
          have hin : fs ∈ rows.map (CsvIO.encode E.L) := by
            rcases hfs with hfs | hfs
            · by_cases hp : Detect.possibleHeader D.L first = true
              · rw [if_pos hp] at hfs; cases hfs
              · rw [if_neg hp, List.mem_singleton] at hfs
                subst hfs
                have hhd : ¬ o.headerRow = true := fun h => hp ((Detect.header_iff _ _).2 (hlh.1 h))
                simp only [CsvIO.records, hhd, Bool.false_eq_true, if_false, List.nil_append] at hfirst
                rw [hfirst]; simp
            · have hmem := upTo_mem _ _ _ _ hfs.1
              by_cases hhd : o.headerRow = true
              · simp only [CsvIO.records, hhd, if_true, List.cons_append, List.nil_append, List.cons.injEq] at hfirst
                rw [hfirst.2]; exact hmem
              · simp only [CsvIO.records, hhd, Bool.false_eq_true, if_false, List.nil_append] at hfirst
                rw [hfirst]; simp [hmem]
          obtain ⟨row, hrow, rfl⟩ := List.mem_map.mp hin
          exact hcell row hrow
      rw [List.getElem?_eq_getElem hjt, hname, hty, if_neg (hknown _ (List.getElem_mem hj))]
      simp [hj]
    · rw [List.getElem?_eq_none (by omega), List.getElem?_eq_none (by simp; omega)]
  -- the structure
  have hg : (Detect.fromReader D .csv .none b.src).1 = .ok { format := b!"csv", schema := some [(b!"items", .obj [(b!"items", .arr vs), (b!"type", .str b!"array")]), (b!"type", .str b!"array")], formatConfig := some config } := by
    simp only [Detect.fromReader, he, if_true, hd, Except.map]
    rfl
  obtain ⟨b', h1, h2⟩ := detect_new D b _ _ _ hn hg
  have hrt := CsvIO.C25_round_trip E.L o' cols ts rows (E.reads (CsvIO.bodyText E.L o cols rows)) (by rw [hcfg]; decide) (by omega)
    (by
      intro row hrow
      rw [htypes (List.ne_nil_of_mem hrow)]
      obtain ⟨h1, h2, h3⟩ := hrows row hrow
      exact ⟨h1, h2, .inr (by simpa using h3)⟩)
    (by rw [hhr]; exact hhead) (by rw [hbody]; exact hr _)
  obtain ⟨_, s', hdr⟩ := hrt
  refine ⟨_, b', _, _, h1, by rw [h2, ht], ?_, lift_drains (E := E) (RState.csv o' ts) (fun s => rfl) hdr⟩
  unfold newEntryReader
  have hfmt : dataFormat { format := b!"csv", schema := some [(b!"items", .obj [(b!"items", .arr vs), (b!"type", .str b!"array")]), (b!"type", .str b!"array")], formatConfig := some config } = .csv := by
    unfold dataFormat; simp only; decide +kernel
  rw [hfmt]
  simp only [newCSVReader, Option.getD_some, hopen]
  have hopt : CsvIO.options (Formats.config { format := b!"csv", schema := some [(b!"items", .obj [(b!"items", .arr vs), (b!"type", .str b!"array")]), (b!"type", .str b!"array")], formatConfig := some config }) = o' := by
    simp only [CsvIO.options, Formats.config, Option.map_some, ho', Option.getD_some]
  rw [hopt, hbody]
  rfl

/-! ### Examples -/

def exDetected (name text : Bytes) : Option (Option (List Entry)) :=
  match structure_ Detect.exE none (some { name := name, src := { chunks := [text] } }) with
  | (none, some g, some b) =>
    match newEntryReader exE g b.src.text with
    | .ok r => some ((eachEntry (reader exE) (fun _ e (t : List Entry) => (none, t ++ [e])) 9 0 r []).map (·.2.2))
    | _ => none
  | _ => none

example : exDetected b!"x.json" b!" {\"b\":1}" = some (some [{ key := b!"b", value := .int 1 }]) := by decide +kernel
example : exDetected b!"x.cbor" [0x82, 1, 0xf5] = some (some [{ index := 0, value := .int 1 }, { index := 1, value := .bool true }]) := by decide +kernel
example : exDetected b!"x.ndjson" b!"true\nnull\n" = some (some [{ value := .bool true }, { index := 1, value := .null }]) := by decide +kernel
/-- a CBOR body that lacks the number of its entries is taken for an empty one -/
example : exDetected b!"x.cbor" [0xb8] = some (some []) := by decide +kernel
example : exDetected b!"x.cbor" [] = none := by decide +kernel

/-- a table that satisfies what `C79_csv` asks for -/
example : ∃ g b' r r', structure_ Detect.exE none (some { name := b!"t.csv", src := { chunks := [b!"id,name\n5,\"x,y\"\n", b!"-7,z\n"] } }) = (none, some g, some b') ∧
    b'.src.text = b!"id,name\n5,\"x,y\"\n-7,z\n" ∧ newEntryReader exE g b!"id,name\n5,\"x,y\"\n-7,z\n" = .ok r ∧
    Drains (reader exE) r [{ value := .arr [.int 5, .str b!"x,y"] }, { value := .arr [.int (-7), .str b!"z"] }] .eof r' := by
  have hf : ∀ (i : Int) (s : Bytes), IsInt64 i → (13 : UInt8) ∉ s → CsvIO.RowFits exE.L [b!"integer", b!"string"] [.int i, .str s] := by
    intro i s hi hs
    refine .cons ⟨rfl, hi⟩ (.cons ⟨?_, hs⟩ (.nil _))
    intro v h
    simp [CsvIO.Literal] at h
  refine C79_csv exE (fun _ _ => List.Perm.refl _) (fun text => by simp [exE]) Detect.exE { headerRow := true }
    [{ title := b!"id", type := [] }, { title := b!"name", type := [] }] [.integer, .string] [[.int 5, .str b!"x,y"], [.int (-7), .str b!"z"]]
    rfl rfl (by decide) ?_ ?_ (fun _ => by decide) _ _ rfl ?_
    { name := b!"t.csv", src := { chunks := [b!"id,name\n5,\"x,y\"\n", b!"-7,z\n"] } } (by decide +kernel) (by decide +kernel) rfl rfl
  · intro row hrow
    rcases List.mem_cons.mp hrow with rfl | hrow
    · exact ⟨hf _ _ (by decide) (by decide), by simp [CsvIO.Visible], rfl⟩
    · rw [List.mem_singleton] at hrow
      subst hrow
      exact ⟨hf _ _ (by decide) (by decide), by simp [CsvIO.Visible], rfl⟩
  · intro row hrow j v t h1 h2
    have : j < 2 := (List.getElem?_eq_some_iff.mp h2).1
    rcases List.mem_cons.mp hrow with rfl | hrow
    · match j, this with
      | 0, _ => cases h1; cases h2; decide +kernel
      | 1, _ => cases h1; cases h2; decide +kernel
    · rw [List.mem_singleton] at hrow
      subst hrow
      match j, this with
      | 0, _ => cases h1; cases h2; decide +kernel
      | 1, _ => cases h1; cases h2; decide +kernel
  · exact ⟨fun _ => (Detect.header_iff _ _).mp (by decide +kernel), fun _ => rfl⟩

/-- a column of texts that look like numbers comes back as numbers -/
example : exDetected b!"t.csv" b!"a\n1\n2\n" = some (some [{ value := .arr [.int 1] }, { value := .arr [.int 2] }]) := by decide +kernel

end Verif.Formats
