import Verif.Props.EntryBuffer
import Verif.Props.Csv
/-
C92, continued: `EntryBuffer` of CSV rows.
-/
set_option autoImplicit false
namespace Verif.EntryBuffer
open CsvIO Streams

/-- rows are kept as they are, everything else is refused -/
def keepRow : Val → Option Val
  | .arr vs => some (.arr vs)
  | _ => none

/-- entries of CSV bodies are not numbered -/
def bare : Out → Out
  | .entry e => .entry { value := e.value }
  | o => o

/-- the rows that are written by these calls -/
def rowsOf : List Op → List (List Val)
  | [] => []
  | .write e :: os => (match e.value with | .arr vs => [vs] | _ => []) ++ rowsOf os
  | _ :: os => rowsOf os

/-- the reader before anything arrived -/
def Fresh (o : Config.CSVOptions) (r : CsvIO.RState) : Prop :=
  r.csv = { rest := [], fpr := if o.variadicFields then -1 else 0 } ∧ (o.headerRow = true → r.readHeader = false)

theorem read_empty (c : Csv.Cfg) (hv : Csv.validDelim c.comma = true) (n : Int) :
    Csv.read c { rest := [], fpr := n } = (.error .eof, { rest := [], fpr := n }) := by
  simp [Csv.read, hv, Csv.skipBlank]

theorem fresh_read (L : Lib) (o : Config.CSVOptions) (types : List Bytes) (hv : Csv.validDelim (cfg o).comma = true) (r : CsvIO.RState) (h : Fresh o r) :
    ∃ r', reader L o types r = (.fail .eof, r') ∧ Fresh o r' := by
  obtain ⟨h1, h2⟩ := h
  unfold reader
  by_cases hh : o.headerRow = true
  · rw [h2 hh, hh, h1]
    simp only [Bool.not_false, Bool.and_self, if_true, read_empty _ hv]
    exact ⟨_, rfl, rfl, fun _ => rfl⟩
  · have hh' : o.headerRow = false := by simpa using hh
    rw [hh', h1]
    simp only [Bool.and_false, Bool.false_eq_true, if_false, readRow, read_empty _ hv]
    exact ⟨_, rfl, rfl, fun h => absurd h hh⟩

theorem reads_nil (ks : List Nat) : (ReplaceCr.reads true ks []).1 = [] := by
  induction ks with
  | nil => rfl
  | cons k ks ih => cases k <;> simp_all [ReplaceCr.reads, ReplaceCr.read]

theorem pass_zero (ks : List Nat) (b : VBuf) (h : b.passed = 0) : VBuf.pass ks 0 b = b := by
  cases b with
  | mk r text passed =>
    simp only at h
    subst h
    simp [VBuf.pass, reads_nil, Csv.norm]

/-- before anything left the writer's buffer -/
def VPre (L : Lib) (o : Config.CSVOptions) (cols : List Tabular.Column) (rows : List (List Val)) (b : VBuf) (q : Queue) : Prop :=
  Fresh o b.r ∧ b.passed = 0 ∧ b.text = bodyText L o cols rows ∧ q.vals = rows.map .arr ∧ q.closed = false

theorem bodyText_snoc (L : Lib) (o : Config.CSVOptions) (cols : List Tabular.Column) (rows more : List (List Val)) :
    bodyText L o cols (rows ++ more) = bodyText L o cols rows ++ (more.map (encode L)).flatMap (Csv.recordText (utf8Enc (cfg o).comma)) := by
  simp [bodyText, records]

theorem csv_pre (L : Lib) (o : Config.CSVOptions) (cols : List Tabular.Column) (types : List Bytes) (early : Bytes → Nat) (ks : List Nat)
    (hv : Csv.validDelim (cfg o).comma = true) (he : ∀ t, t.length ≤ 4092 → early t = 0) : ∀ (ops : List Op) (rows : List (List Val)) (b : VBuf) (q : Queue),
    (∀ x ∈ ops, x ≠ .close) → (bodyText L o cols (rows ++ rowsOf ops)).length ≤ 4092 → VPre L o cols rows b q →
    (run (csvStep L o types early ks) b ops).1 = (run (lateFifo keepRow) q ops).1.map bare ∧
      VPre L o cols (rows ++ rowsOf ops) (run (csvStep L o types early ks) b ops).2 (run (lateFifo keepRow) q ops).2
  | [], rows, b, q, _, _, h => ⟨rfl, by simpa [rowsOf, run] using h⟩
  | x :: ops, rows, b, q, hc, hlen, h => by
    have hc' : ∀ y ∈ ops, y ≠ .close := fun y hy => hc y (by simp [hy])
    obtain ⟨h1, h2, h3, h4, h5⟩ := h
    cases x with
    | close => exact absurd rfl (hc .close (by simp))
    | read =>
      obtain ⟨r', hr, hf⟩ := fresh_read L o types hv b.r h1
      have e1 : csvStep L o types early ks b .read = (.eof, { b with r := r' }) := by simp [csvStep, hr]
      have e2 : lateFifo keepRow q .read = (.eof, q) := by
        unfold lateFifo queueStep
        cases hq : q.vals <;> simp [h5]
      obtain ⟨i1, i2⟩ := csv_pre L o cols types early ks hv he ops rows { b with r := r' } q hc' hlen ⟨hf, h2, h3, h4, h5⟩
      exact ⟨by simp only [run, e1, e2, i1, List.map_cons, bare], by simpa only [run, e1, e2, rowsOf] using i2⟩
    | write e =>
      by_cases ha : ∃ vs, e.value = .arr vs
      · obtain ⟨vs, ha⟩ := ha
        have hr : rowsOf (.write e :: ops) = [vs] ++ rowsOf ops := by simp [rowsOf, ha]
        rw [hr, ← List.append_assoc] at hlen ⊢
        have ht : b.text ++ Csv.recordText (utf8Enc (cfg o).comma) (encode L vs) = bodyText L o cols (rows ++ [vs]) := by
          rw [bodyText_snoc, h3]; simp
        have hl : (bodyText L o cols (rows ++ [vs])).length ≤ 4092 := by
          rw [bodyText_snoc L o cols (rows ++ [vs])] at hlen
          rw [List.length_append] at hlen
          omega
        have e1 : csvStep L o types early ks b (.write e) = (.wrote, { b with text := bodyText L o cols (rows ++ [vs]) }) := by
          simp only [csvStep, writer, ha, writeRecord, hv, if_true, ht]
          rw [he _ hl, pass_zero]
          exact h2
        have e2 : lateFifo keepRow q (.write e) = (.wrote, q.push (.arr vs)) := by simp [lateFifo, queueStep, ha, keepRow]
        obtain ⟨i1, i2⟩ := csv_pre L o cols types early ks hv he ops (rows ++ [vs]) { b with text := bodyText L o cols (rows ++ [vs]) } (q.push (.arr vs)) hc' hlen
          ⟨h1, h2, rfl, by simp [Queue.push, h4], h5⟩
        exact ⟨by simp only [run, e1, e2, i1, List.map_cons, bare], by simpa only [run, e1, e2] using i2⟩
      · have hr : rowsOf (.write e :: ops) = rowsOf ops := by
          rw [rowsOf]
          cases hx : e.value <;> simp_all
        have e1 : csvStep L o types early ks b (.write e) = (.refused, b) := by
          simp only [csvStep, writer]
          cases hx : e.value <;> first | rfl | exact absurd ⟨_, hx⟩ ha
        have e2 : lateFifo keepRow q (.write e) = (.refused, q) := by
          simp only [lateFifo, queueStep]
          cases hx : e.value <;> simp_all [keepRow]
        rw [hr] at hlen ⊢
        obtain ⟨i1, i2⟩ := csv_pre L o cols types early ks hv he ops rows b q hc' hlen ⟨h1, h2, h3, h4, h5⟩
        exact ⟨by simp only [run, e1, e2, i1, List.map_cons, bare], by simpa only [run, e1, e2] using i2⟩

/-- reading behind closing -/
theorem csv_reads (L : Lib) (o : Config.CSVOptions) (types : List Bytes) (early : Bytes → Nat) (ks : List Nat) : ∀ (k : Nat) (b : VBuf) (q : Queue),
    q.closed = true →
    ((∃ s', Drains (reader L o types) b.r (q.vals.map fun v => { value := v }) .eof s') ∨
      (q.vals = [] ∧ ∀ n, (reader L o types (after (reader L o types) n b.r)).1 = .fail .eof)) →
    (run (csvStep L o types early ks) b (List.replicate k .read)).1 = (run (lateFifo keepRow) q (List.replicate k .read)).1.map bare
  | 0, _, _, _, _ => rfl
  | k + 1, b, q, hq, h => by
    rw [List.replicate_succ]
    rcases h with ⟨s', s₁, hy, hs⟩ | ⟨h1, h2⟩
    · cases hv : q.vals with
      | nil =>
        rw [hv] at hy
        cases hy
        have e1 : csvStep L o types early ks b .read = (.eof, { b with r := s' }) := by simp [csvStep, hs]
        have e2 : lateFifo keepRow q .read = (.eof, q) := by simp [lateFifo, queueStep, hv]
        have hfin := C57_end_is_final L o types b.r (by rw [hs])
        rw [hs] at hfin
        have := csv_reads L o types early ks k { b with r := s' } q hq (.inr ⟨hv, hfin⟩)
        simp only [run, e1, e2, this, List.map_cons, bare]
      | cons v vs =>
        rw [hv, List.map_cons] at hy
        cases hy with
        | cons hr hy =>
          rename_i s₂
          have e1 : csvStep L o types early ks b .read = (.entry { value := v }, { b with r := s₂ }) := by simp [csvStep, hr]
          have e2 : lateFifo keepRow q .read = (.entry { index := q.seen, value := v }, { q with seen := q.seen + 1, vals := vs }) := by
            simp [lateFifo, queueStep, hv, hq]
          have := csv_reads L o types early ks k { b with r := s₂ } { q with seen := q.seen + 1, vals := vs } hq (.inl ⟨s', s₁, hy, hs⟩)
          simp only [run, e1, e2, this, List.map_cons, bare]
    · have h0 := h2 0
      rw [after] at h0
      have e1 : csvStep L o types early ks b .read = (.eof, { b with r := (reader L o types b.r).2 }) := by
        rw [csvStep]
        rcases hr : reader L o types b.r with ⟨x, r'⟩
        rw [hr] at h0
        simp only at h0
        subst h0
        rfl
      have e2 : lateFifo keepRow q .read = (.eof, q) := by simp [lateFifo, queueStep, h1]
      have := csv_reads L o types early ks k { b with r := (reader L o types b.r).2 } q hq (.inr ⟨h1, fun n => h2 (n + 1)⟩)
      simp only [run, e1, e2, this, List.map_cons, bare]

/-- A buffer of CSV rows that holds no more than the writer keeps back hands out nothing before it is closed and answers end of file
meanwhile, without harm to what follows; once closed the rows come out once each and in order, and then end of file, every time. -/
theorem C92_csv (L : Lib) (o : Config.CSVOptions) (cols : List Tabular.Column) (types : List Bytes) (early : Bytes → Nat) (ks : List Nat) (ops : List Op)
    (hv : Csv.validDelim (cfg o).comma = true) (hcols : cols.length = types.length)
    (hhead : o.headerRow = true → (∀ c ∈ cols, (13 : UInt8) ∉ c.title) ∧ Csv.blank (Tabular.titles cols) = false)
    (he : ∀ t, t.length ≤ 4092 → early t = 0) (ho : Orderly ops)
    (hrows : ∀ row ∈ rowsOf ops, RowFits L types row ∧ Visible row ∧ (o.variadicFields = true ∨ row.length = types.length))
    (hlen : (bodyText L o cols (rowsOf ops)).length ≤ 4092) (hks : 4092 ≤ ks.sum) :
    (run (csvStep L o types early ks) (csvNew o cols early ks) ops).1 = (run (lateFifo keepRow) {} ops).1.map bare := by
  have hhd : CsvIO.header o cols = bodyText L o cols [] := by
    unfold CsvIO.header bodyText records
    by_cases hh : o.headerRow = true
    · simp [hh, writeRecord, hv]
    · simp [hh]
  have hl0 : (bodyText L o cols []).length ≤ 4092 := by
    have := bodyText_snoc L o cols [] (rowsOf ops)
    rw [List.nil_append] at this
    rw [this, List.length_append] at hlen
    omega
  have hnew : csvNew o cols early ks = { r := CsvIO.start o [], text := bodyText L o cols [] } := by
    rw [csvNew, hhd, he _ hl0, pass_zero]
    rfl
  have h0 : VPre L o cols [] (csvNew o cols early ks) {} := by
    rw [hnew]
    exact ⟨⟨by simp [CsvIO.start, Csv.norm], fun _ => rfl⟩, rfl, rfl, rfl, rfl⟩
  rcases ho with ho | ⟨pre, k, hp, rfl⟩
  · exact (csv_pre L o cols types early ks hv he ops [] _ _ ho (by simpa using hlen) h0).1
  · have hrs : ∀ (a : List Op) (k : Nat), rowsOf (a ++ .close :: List.replicate k .read) = rowsOf a := by
      intro a k
      induction a with
      | nil =>
        simp only [List.nil_append, rowsOf]
        induction k with
        | zero => rfl
        | succ k ih => simpa [List.replicate_succ, rowsOf] using ih
      | cons x a ih => cases x <;> simp [rowsOf, ih]
    rw [hrs] at hrows hlen
    obtain ⟨a1, a2⟩ := csv_pre L o cols types early ks hv he pre [] _ _ hp (by simpa using hlen) h0
    rw [(run_append _ pre _ _).1, (run_append _ pre _ _).1, a1, List.map_append]
    rw [List.nil_append] at a2
    generalize (run (csvStep L o types early ks) (csvNew o cols early ks) pre).2 = b at a2 ⊢
    generalize (run (lateFifo keepRow) {} pre).2 = q at a2 ⊢
    obtain ⟨⟨b1, b1'⟩, b2, b3, b4, b5⟩ := a2
    obtain ⟨_, st', hd⟩ := C25_round_trip L o cols types (rowsOf pre) ks hv hcols hrows hhead (by omega)
    have key := csv_reads L o types early ks k (VBuf.pass ks b.text.length b) { q with closed := true } rfl (.inl ⟨st', by
      simp only [b4, List.map_map]
      have hr : (rowsOf pre).map ((fun v => ({ value := v } : Entry)) ∘ Val.arr) = (rowsOf pre).map rowEntry := rfl
      rw [hr]
      refine drains_congr ?_ hd
      have hc : (VBuf.pass ks b.text.length b).r.csv = (CsvIO.start o (ReplaceCr.reads true ks (bodyText L o cols (rowsOf pre))).1).csv := by
        simp [VBuf.pass, b1, b2, b3, CsvIO.start]
      by_cases hh : o.headerRow = true
      · have : (VBuf.pass ks b.text.length b).r = CsvIO.start o (ReplaceCr.reads true ks (bodyText L o cols (rowsOf pre))).1 := by
          have h2 : (VBuf.pass ks b.text.length b).r.readHeader = false := b1' hh
          generalize (VBuf.pass ks b.text.length b).r = r at hc h2
          cases r
          simp only at hc h2
          subst hc h2
          rfl
        rw [this]
      · unfold reader
        simp only [hh, Bool.and_false, Bool.false_eq_true, if_false, hc]⟩)
    have e1 : csvStep L o types early ks b .close = (.closed, VBuf.pass ks b.text.length b) := rfl
    have e2 : lateFifo keepRow q .close = (.closed, { q with closed := true }) := rfl
    simp only [run, e1, e2, key, List.map_cons, bare]

/-! ### samples -/

def exCsvOps : List Op :=
  [.read, .write { value := .arr [.int 7, .str b!"x"] }, .write { value := .str b!"no row" }, .read, .write { value := .arr [.int 8, .str b!"y,z"] }, .close, .read, .read, .read, .read]

def exCsvCols : List Tabular.Column := [{ title := b!"n", type := [b!"integer"] }, { title := b!"s", type := [b!"string"] }]

example : (run (csvStep exL { headerRow := true } [b!"integer", b!"string"] (fun _ => 0) [5000]) (csvNew { headerRow := true } exCsvCols (fun _ => 0) [5000]) exCsvOps).1 =
    [.eof, .wrote, .refused, .eof, .wrote, .closed, .entry { value := .arr [.int 7, .str b!"x"] }, .entry { value := .arr [.int 8, .str b!"y,z"] }, .eof, .eof] := by
  decide +kernel

example : Orderly exCsvOps := .inr ⟨exCsvOps.take 5, 4, by simp [exCsvOps], rfl⟩

example : (bodyText exL { headerRow := true } exCsvCols (rowsOf exCsvOps)).length ≤ 4092 := by decide +kernel

/-- a writer's buffer of 4096 bytes that is emptied when it is full -/
def exEarly (t : Bytes) : Nat := t.length / 4096 * 4096

/-- Beyond the writer's buffer reading too early cuts a row in two: two rows were written, three come out. -/
theorem C92_csv_cut :
    (run (csvStep exL {} [b!"string"] exEarly [5000]) (csvNew {} [{ title := b!"s", type := [b!"string"] }] exEarly [5000])
      [.write { value := .arr [.str (List.replicate 3000 97)] }, .write { value := .arr [.str (List.replicate 3000 97)] }, .read, .read, .close, .read, .read]).1 =
    [.wrote, .wrote, .entry { value := .arr [.str (List.replicate 3000 97)] }, .entry { value := .arr [.str (List.replicate 1095 97)] }, .closed,
      .entry { value := .arr [.str (List.replicate 1905 97)] }, .eof] := by
  decide +kernel

end Verif.EntryBuffer
