import Verif.Props.Convert
import Verif.Props.Ndjson
import Verif.Props.Csv
/-
C53, continued: chains of conversions between all formats of rows.
-/
set_option autoImplicit false
namespace Verif.Streams

/-- formats of bodies that are lists of values; `ks` are the sizes of the blocks the CSV library asks for -/
inductive Fmt where
  | json (indent : Bytes)
  | ndjson
  | cbor
  | csv (o : Config.CSVOptions) (cols : List Tabular.Column) (types : List Bytes) (ks : List Nat)

/-- reading the body to its end delivers these values, in this order -/
def Holds (L : CsvIO.Lib) (f : Fmt) (body : Bytes) (vs : List Val) : Prop :=
  ∃ es : List Entry, es.map (·.value) = vs ∧
    match f with
    | .json _ => ∃ s, Drains (jsonReader L.F .array) { rest := body } es .eof s
    | .ndjson => ∃ s, Drains (Ndjson.reader L.F) { rest := body } es .eof s
    | .cbor => ∃ s, Drains (cborReader .array) { inp := body } es .eof s
    | .csv o _ types ks => ∃ s, Drains (CsvIO.reader L o types) (CsvIO.start o (ReplaceCr.reads true ks body).1) es .eof s

/-- `ConvertFile` (dsio.go:191-230) of everything a reader delivers into a format -/
def convInto {σ : Type} (L : CsvIO.Lib) (rd : Reader σ) (s : σ) (n : Nat) : Fmt → Option (Option Bytes)
  | .json indent => convert rd (jsonWriter L.F .array indent) (fun t => some (Json.close .array indent t)) 0 0 true n s {}
  | .ndjson => convert rd (Ndjson.writer L.F) (fun t => some t) 0 0 true n s []
  | .cbor => convert rd (cborWriter .array) (fun t => some (Cbor.close .array t)) 0 0 true n s {}
  | .csv o cols _ _ => convert rd (CsvIO.writer L o) (fun t => some t) 0 0 true n s (CsvIO.header o cols)

def conv (L : CsvIO.Lib) (n : Nat) (src dst : Fmt) (body : Bytes) : Option (Option Bytes) :=
  match src with
  | .json _ => convInto L (jsonReader L.F .array) { rest := body } n dst
  | .ndjson => convInto L (Ndjson.reader L.F) { rest := body } n dst
  | .cbor => convInto L (cborReader .array) { inp := body } n dst
  | .csv o _ types ks => convInto L (CsvIO.reader L o types) (CsvIO.start o (ReplaceCr.reads true ks body).1) n dst

/-- values the format carries unchanged -/
def Carries (L : CsvIO.Lib) (f : Fmt) (vs : List Val) : Prop :=
  match f with
  | .json indent => JsonG.WS indent ∧ ∀ v ∈ vs, Json.Supported L.F v
  | .ndjson => ∀ v ∈ vs, Ndjson.Kept L.F v ∧ JsonStd.depth v ≤ JsonStd.maxDepth
  | .cbor => vs.length < 2^63 ∧ ∀ v ∈ vs, Cbor.Supported v
  | .csv o cols types ks =>
    Csv.validDelim (CsvIO.cfg o).comma = true ∧ cols.length = types.length ∧
    (o.headerRow = true → (∀ c ∈ cols, (13 : UInt8) ∉ c.title) ∧ Csv.blank (Tabular.titles cols) = false) ∧
    ∃ rows, vs = rows.map .arr ∧ (∀ row ∈ rows, CsvIO.RowFits L types row ∧ CsvIO.Visible row ∧ (o.variadicFields = true ∨ row.length = types.length)) ∧
      (CsvIO.bodyText L o cols rows).length ≤ ks.sum

theorem accepts_congr {τ : Type} (w : Writer τ) (hw : ∀ e e' : Entry, e.value = e'.value → w e = w e') :
    ∀ (es es' : List Entry) (t t' : τ), es.map (·.value) = es'.map (·.value) → Accepts w t es t' → Accepts w t es' t'
  | [], es', t, t', h, ha => by
    have : es' = [] := by simpa using h.symm
    subst this
    exact ha
  | e :: es, [], _, _, h, _ => by simp at h
  | e :: es, e' :: es', t, t', h, ha => by
    simp only [List.map_cons, List.cons.injEq] at h
    cases ha with
    | cons h1 h2 => exact .cons (by rw [← hw e e' h.1]; exact h1) (accepts_congr w hw es es' _ _ h.2 h2)

theorem mem_indexed_value {n : Int} {vs : List Val} {e : Entry} (h : e ∈ Json.indexed n vs) : e.value ∈ vs := by
  have := List.mem_map_of_mem (f := fun e : Entry => e.value) h
  rwa [map_value_indexed] at this

/-- whatever delivers the values can be converted -/
theorem into_ok {σ : Type} (L : CsvIO.Lib) (rd : Reader σ) (s s' : σ) (es : List Entry) (f : Fmt) (hd : Drains rd s es .eof s')
    (hc : Carries L f (es.map (·.value))) : ∃ n out, convInto L rd s n f = some (some out) ∧ Holds L f out (es.map (·.value)) := by
  generalize hvs : es.map (·.value) = vs at hc
  cases f with
  | json indent =>
    obtain ⟨hi, hs⟩ := hc
    have h2 := Json.C16_array_roundtrip L.F indent hi (Json.indexed 0 vs) fun e he => hs _ (mem_indexed_value he)
    have ha := accepts_congr (jsonWriter L.F .array indent) (by
      intro e e' h
      funext w
      simp only [jsonWriter, Json.writeEntry, Json.valBytes, h]) _ es _ _ (by rw [map_value_indexed, hvs]) (json_accepts L.F .array indent _ {} h2.1)
    obtain ⟨n, h⟩ := C14_complete rd (jsonWriter L.F .array indent) (fun t => some (Json.close .array indent t)) 0 0 s s' {} _ es hd ha
    refine ⟨n, _, h, Json.indexed 0 vs, map_value_indexed 0 vs, ?_⟩
    have h3 := h2.2
    rw [map_value_indexed] at h3
    exact json_drains L.F .array _ _ _ h3
  | ndjson =>
    obtain ⟨st, hr⟩ := Ndjson.C23_same L.F vs hc
    have hacc : ∀ (es : List Entry) (out : Bytes), (∀ e ∈ es, jsonOK e.value = true) →
        Accepts (Ndjson.writer L.F) out es (es.foldl (fun out e => (Ndjson.writer L.F e out).2) out) := by
      intro es
      induction es with
      | nil => exact fun out _ => .nil out
      | cons e es ih =>
        intro out h
        refine .cons (t₁ := (Ndjson.writer L.F e out).2) ?_ (ih _ fun x hx => h x (by simp [hx]))
        simp [Ndjson.writer, h e (by simp)]
    have ha := accepts_congr (Ndjson.writer L.F) (by intro e e' h; funext w; simp only [Ndjson.writer, h]) _ es _ _ (by rw [map_value_indexed, hvs])
      (hacc (Json.indexed 0 vs) [] fun e he => (Ndjson.kept_norm L.F _ (hc _ (mem_indexed_value he)).1).2.2)
    obtain ⟨n, h⟩ := C14_complete rd (Ndjson.writer L.F) (fun t => some t) 0 0 s s' [] _ es hd ha
    exact ⟨n, _, h, Json.indexed 0 vs, map_value_indexed 0 vs, st, hr⟩
  | cbor =>
    obtain ⟨hl, hs⟩ := hc
    have hlen : (Json.indexed 0 vs).length = vs.length := by rw [← List.length_map (f := fun e : Entry => e.value), map_value_indexed]
    have h2 := Cbor.C20_array_roundtrip (Json.indexed 0 vs) (fun e he => hs _ (mem_indexed_value he)) (by rw [hlen]; exact hl)
    rw [indexed_eq, Int.cast_ofNat_Int, map_value_indexed] at h2
    have ha := accepts_congr (cborWriter .array) (by intro e e' h; funext w; simp only [cborWriter, Cbor.writeEntry, h]) _ es _ _ (by rw [map_value_indexed, hvs])
      (cbor_accepts_array (Json.indexed 0 vs) {})
    obtain ⟨n, h⟩ := C14_complete rd (cborWriter .array) (fun t => some (Cbor.close .array t)) 0 0 s s' {} _ es hd ha
    refine ⟨n, _, h, Json.indexed 0 vs, map_value_indexed 0 vs, ?_⟩
    exact cbor_drains .array _ _ _ h2
  | csv o cols types ks =>
    obtain ⟨hv, hcols, hhead, rows, rfl, hrows, hks⟩ := hc
    obtain ⟨h1, st, h2⟩ := CsvIO.C25_round_trip L o cols types rows ks hv hcols hrows hhead hks
    have hm : (rows.map CsvIO.rowEntry).map (·.value) = rows.map .arr := by simp [CsvIO.rowEntry, Function.comp_def]
    have ha := accepts_congr (CsvIO.writer L o) (by intro e e' h; funext w; simp only [CsvIO.writer, h]) _ es _ _ (by rw [hm, hvs]) h1
    obtain ⟨n, h⟩ := C14_complete rd (CsvIO.writer L o) (fun t => some t) 0 0 s s' _ _ es hd ha
    exact ⟨n, _, h, rows.map CsvIO.rowEntry, hm, st, h2⟩

/-- Between any two of the formats JSON, newline-delimited JSON, CBOR and CSV a conversion keeps all values the target carries, whoever wrote
the body. -/
theorem C53_any (L : CsvIO.Lib) (src dst : Fmt) (body : Bytes) (vs : List Val) (h : Holds L src body vs) (hc : Carries L dst vs) :
    ∃ n out, conv L n src dst body = some (some out) ∧ Holds L dst out vs := by
  obtain ⟨es, rfl, h⟩ := h
  cases src <;> obtain ⟨s, h⟩ := h <;> exact into_ok L _ _ s es dst h hc

/-- one conversion after the other: from this format and body, through these formats, to this body -/
inductive Chain (L : CsvIO.Lib) : Fmt → Bytes → List Fmt → Bytes → Prop
  | nil (f : Fmt) (body : Bytes) : Chain L f body [] body
  | cons {f g : Fmt} {fs : List Fmt} {body mid out : Bytes} (n : Nat) :
      conv L n f g body = some (some mid) → Chain L g mid fs out → Chain L f body (g :: fs) out

/-- However often a body is converted, through whatever formats that carry its values, nothing is lost, added or reordered. -/
theorem C53_chain (L : CsvIO.Lib) (vs : List Val) : ∀ (fs : List Fmt) (src : Fmt) (body : Bytes), Holds L src body vs → (∀ f ∈ fs, Carries L f vs) →
    ∃ out, Chain L src body fs out ∧ Holds L (fs.getLast?.getD src) out vs
  | [], src, body, h, _ => ⟨body, .nil src body, h⟩
  | f :: fs, src, body, h, hc => by
    obtain ⟨n, mid, h1, h2⟩ := C53_any L src f body vs h (hc f (by simp))
    obtain ⟨out, h3, h4⟩ := C53_chain L vs fs f mid h2 fun g hg => hc g (by simp [hg])
    refine ⟨out, .cons n h1 h3, ?_⟩
    cases fs with
    | nil => exact h4
    | cons g gs => simpa [List.getLast?_cons_cons, List.getLast?_cons] using h4

theorem conv_det (L : CsvIO.Lib) (n m : Nat) (src dst : Fmt) (body : Bytes) (a b : Option Bytes) (h1 : conv L n src dst body = some a)
    (h2 : conv L m src dst body = some b) : a = b := by
  have key : ∀ {σ τ : Type} (rd : Reader σ) (w : Writer τ) (close : τ → Option Bytes) (s : σ) (t : τ),
      convert rd w close 0 0 true n s t = some a → convert rd w close 0 0 true m s t = some b → a = b := by
    intro σ τ rd w close s t h1 h2
    simp only [convert, if_true, Option.map_eq_some_iff] at h1 h2
    obtain ⟨x, hx, rfl⟩ := h1
    obtain ⟨y, hy, rfl⟩ := h2
    have e1 := copy_mono hx (Nat.le_max_left n m)
    rw [copy_mono hy (Nat.le_max_right n m)] at e1
    cases e1
    rfl
  cases src <;> cases dst <;> simp only [conv, convInto] at h1 h2 <;> exact key _ _ _ _ _ h1 h2

/-- … and every such chain of conversions ends with that body. -/
theorem C53_chain_every (L : CsvIO.Lib) (vs : List Val) {src : Fmt} {body : Bytes} {fs : List Fmt} {out : Bytes} (hch : Chain L src body fs out)
    (h : Holds L src body vs) (hc : ∀ f ∈ fs, Carries L f vs) : Holds L (fs.getLast?.getD src) out vs := by
  induction hch with
  | nil f body => exact h
  | cons n h1 _ ih =>
    rename_i f g gs body mid out _
    obtain ⟨m, mid', h2, h3⟩ := C53_any L f g body vs h (hc g (by simp))
    have := conv_det L n m f g body _ _ h1 h2
    cases this
    have h4 := ih h3 fun x hx => hc x (by simp [hx])
    cases gs with
    | nil => exact h4
    | cons x xs => simpa [List.getLast?_cons_cons, List.getLast?_cons] using h4

/-! ### samples -/

def exRows : List Val := [.arr [.str b!"a,b", .bool true], .arr [.str b!"x\ny", .bool false]]

def exChainCols : List Tabular.Column := [{ title := b!"s", type := [b!"string"] }, { title := b!"b", type := [b!"boolean"] }]

def exFmts : List Fmt := [.ndjson, .csv { headerRow := true } exChainCols [b!"string", b!"boolean"] [1000], .cbor, .json b!"  "]

example : Holds CsvIO.exL (.json []) b!"[[\"a,b\",true], [\"x\\ny\",false]]" exRows :=
  ⟨Json.indexed 0 exRows, rfl, json_drains _ .array 9 _ _ (by decide +kernel)⟩

example : ∀ f ∈ exFmts, Carries CsvIO.exL f exRows := by
  intro f hf
  simp only [exFmts, List.mem_cons, List.not_mem_nil, or_false] at hf
  have hu : ∀ s : Bytes, s.all (fun c => c.toNat < 0x80) = true → ValidUtf8 s := by
    intro s h
    have := JsonStd.validUtf8_ascii (l := s) (s := []) (by simpa using h) .nil
    rwa [List.append_nil] at this
  have hs : ∀ v ∈ exRows, (Json.Supported CsvIO.exL.F v ∧ Ndjson.Kept CsvIO.exL.F v ∧ JsonStd.depth v ≤ JsonStd.maxDepth) ∧ Cbor.Supported v := by
    simp only [exRows, List.mem_cons, List.not_mem_nil, or_false]
    rintro v (rfl | rfl)
    · refine ⟨by simp [Json.Supported, Json.SupportedL, Ndjson.Kept, Ndjson.KeptL, JsonStd.depth, JsonStd.depthL, JsonStd.maxDepth]; exact hu _ (by decide +kernel), .arr _ (by decide) ?_⟩
      intro v hv
      simp only [List.mem_cons, List.not_mem_nil, or_false] at hv
      rcases hv with rfl | rfl
      · exact .str _ (by decide)
      · exact .bool _
    · refine ⟨by simp [Json.Supported, Json.SupportedL, Ndjson.Kept, Ndjson.KeptL, JsonStd.depth, JsonStd.depthL, JsonStd.maxDepth]; exact hu _ (by decide +kernel), .arr _ (by decide) ?_⟩
      intro v hv
      simp only [List.mem_cons, List.not_mem_nil, or_false] at hv
      rcases hv with rfl | rfl
      · exact .str _ (by decide)
      · exact .bool _
  rcases hf with rfl | rfl | rfl | rfl
  · exact fun v hv => (hs v hv).1.2
  · refine ⟨by decide +kernel, rfl, fun _ => ⟨by decide +kernel, by decide +kernel⟩, [[.str b!"a,b", .bool true], [.str b!"x\ny", .bool false]], rfl, ?_, by decide +kernel⟩
    simp only [List.mem_cons, List.not_mem_nil, or_false]
    rintro r (rfl | rfl)
    all_goals refine ⟨.cons ⟨?_, by decide +kernel⟩ (.cons rfl (.nil _)), by simp [CsvIO.Visible], .inr rfl⟩
    all_goals rintro v (⟨h, _⟩ | ⟨h, _⟩ | ⟨h, _⟩ | ⟨h, _⟩ | ⟨h, _⟩ | ⟨h, _⟩) <;> exact absurd h (by decide)
  · exact ⟨by decide +kernel, fun v hv => (hs v hv).2⟩
  · exact ⟨by simp [JsonG.WS], fun v hv => (hs v hv).1.1⟩

example : (conv CsvIO.exL 9 (.json []) .ndjson b!"[[\"a,b\",true], [\"x\\ny\",false]]") = some (some b!"[\"a,b\",true]\n[\"x\\ny\",false]\n") ∧
    (conv CsvIO.exL 9 .ndjson exFmts[1] b!"[\"a,b\",true]\n[\"x\\ny\",false]\n") = some (some b!"s,b\n\"a,b\",true\n\"x\ny\",false\n") ∧
    (conv CsvIO.exL 9 exFmts[1] .ndjson b!"s,b\n\"a,b\",true\n\"x\ny\",false\n") = some (some b!"[\"a,b\",true]\n[\"x\\ny\",false]\n") := by decide +kernel

end Verif.Streams
