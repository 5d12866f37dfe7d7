import Verif.Props.DsgenArgs
import Verif.Props.Formats
import Verif.Props.Generate
import Verif.Props.TextForms
/-
C86: the command dsgen.
-/
set_option autoImplicit false
namespace Verif.Dsgen
open Verif.Doc Verif.FloatText Verif.Streams

/-! ### Fixed rows -/

/-- a row with this in place of the number in the first cell, and this in the others -/
def lineWith (u x : Bytes) : Bytes :=
  u ++ b!"-BA882B47-B26A-4E29-BFB4-XXXXXXXXXXXX," ++ x ++ b!"-01-01 00:00:01.000 UTC,2000-" ++ x ++ b!"-01 00:00:02.000 UTC," ++ x ++ List.replicate 908 48 ++ b!"\n"

/-- a byte that can stand in a cell without quotes -/
def Harmless (c : UInt8) : Prop := c ≠ 34 ∧ c ≠ 44 ∧ c ≠ 10 ∧ c ≠ 13 ∧ c < 128

theorem digit_harmless {c : UInt8} (h : isDigit c = true) : Harmless c := by
  rw [isDigit_iff] at h
  refine ⟨?_, ?_, ?_, ?_, ?_⟩
  · rintro rfl; simp at h
  · rintro rfl; simp at h
  · rintro rfl; simp at h
  · rintro rfl; simp at h
  · rw [UInt8.lt_iff_toNat_lt]; simp; omega

theorem fmtNat_digits' (n : Nat) : ∀ c ∈ fmtNat n, isDigit c = true := fmtNatF_digits n n

/-- a cell that begins with a digit or letter and has no special characters in it is written as it is -/
theorem fieldText_plain {f : Bytes} (hf : ∀ c ∈ f, Harmless c) (c : UInt8) (hc : f.head? = some c) (hs : 48 ≤ c) (hb : c ≠ 92) : Csv.fieldText [44] f = f := by
  unfold Csv.fieldText
  rw [if_neg]
  have hocc : Csv.occurs [44] f = false := by
    clear hc
    induction f with
    | nil => rfl
    | cons a f ih =>
      have ha := hf a List.mem_cons_self
      have h44 : (44 : UInt8) ≠ a := fun e => ha.2.1 e.symm
      simp only [Csv.occurs, ih fun c hc => hf c (List.mem_cons_of_mem _ hc), Bool.or_false]
      simp [List.isPrefixOf, h44]
  cases f with
  | nil => simp at hc
  | cons a f =>
    simp only [List.head?_cons, Option.some.injEq] at hc
    subst hc
    have h128 := (hf a List.mem_cons_self).2.2.2.2
    have hd : (utf8Dec (a :: f)).1 = a.toNat := by
      have h := h128
      rw [UInt8.lt_iff_toNat_lt] at h
      simp only [UInt8.reduceToNat] at h
      simp [utf8Dec, h]
    have hsp : Csv.isSpace a.toNat = false := by
      rw [UInt8.le_iff_toNat_le] at hs
      rw [UInt8.lt_iff_toNat_lt] at h128
      simp only [UInt8.reduceToNat] at hs h128
      unfold Csv.isSpace
      simp
      omega
    have hany : ((a :: f).any fun c => c = 34 || c = 13 || c = 10) = false := by
      rw [List.any_eq_false]
      intro x hx
      obtain ⟨h1, _, h2, h3, _⟩ := hf x hx
      simp [h1, h2, h3]
    unfold Csv.needsQuotes
    rw [if_neg (by simp), if_neg (by intro e; exact hb (List.cons.inj e).1), hocc, hany, hd, hsp]
    simp

theorem harmless_append {s t : Bytes} (h : ∀ c ∈ s, Harmless c) (h' : ∀ c ∈ t, Harmless c) : ∀ c ∈ s ++ t, Harmless c := by
  intro c hc
  rcases List.mem_append.1 hc with h1 | h1
  · exact h c h1
  · exact h' c h1

instance (c : UInt8) : Decidable (Harmless c) := inferInstanceAs (Decidable (_ ∧ _ ∧ _ ∧ _ ∧ _))

theorem filler_harmless : ∀ c ∈ filler, Harmless c := by
  intro c hc
  rw [List.eq_of_mem_replicate hc]
  decide

theorem num_harmless (i : Nat) : ∀ c ∈ fmtNat i, Harmless c := fun c hc => digit_harmless (fmtNat_digits' i c hc)

/-- the cells of a row have no special characters and begin with a digit -/
theorem fixedRow_plain (d : Int) (i : Nat) : ∀ f ∈ fixedRow d i, (∀ c ∈ f, Harmless c) ∧ ∃ c, f.head? = some c ∧ isDigit c = true := by
  obtain ⟨c, t, e, hc⟩ := fmtNat_head i
  have hd := num_harmless i
  have h1 : ∀ c ∈ b!"-BA882B47-B26A-4E29-BFB4-XXXXXXXXXXXX", Harmless c := by decide
  have h2 : ∀ c ∈ b!"-01-01 00:00:01.000 UTC", Harmless c := by decide
  have h3 : ∀ c ∈ b!"-01 00:00:02.000 UTC", Harmless c := by decide
  have h4 : ∀ c ∈ b!"2000-", Harmless c := by decide
  have h5 : ∀ c ∈ b!"-", Harmless c := by decide
  have hh : ∀ s : Bytes, (fmtNat i ++ s).head? = some c := by intro s; rw [e]; rfl
  unfold fixedRow
  split
  · intro f hf
    simp only [List.mem_cons, List.not_mem_nil, or_false] at hf
    rcases hf with rfl | rfl | rfl | rfl
    · exact ⟨harmless_append (harmless_append (harmless_append hd h5) hd) h1, c, by rw [List.append_assoc, List.append_assoc]; exact hh _, hc⟩
    · exact ⟨harmless_append (harmless_append hd hd) h2, c, by rw [List.append_assoc]; exact hh _, hc⟩
    · exact ⟨harmless_append (harmless_append (harmless_append h4 hd) hd) h3, 50, rfl, by decide⟩
    · exact ⟨harmless_append (harmless_append hd hd) filler_harmless, c, by rw [List.append_assoc]; exact hh _, hc⟩
  · intro f hf
    simp only [List.mem_cons, List.not_mem_nil, or_false] at hf
    rcases hf with rfl | rfl | rfl | rfl
    · exact ⟨harmless_append hd h1, c, hh _, hc⟩
    · exact ⟨harmless_append hd h2, c, hh _, hc⟩
    · exact ⟨harmless_append (harmless_append h4 hd) h3, 50, rfl, by decide⟩
    · exact ⟨harmless_append hd filler_harmless, c, hh _, hc⟩

theorem digit_le {c : UInt8} (h : isDigit c = true) : 48 ≤ c ∧ c ≠ 92 := by
  rw [isDigit_iff] at h
  refine ⟨by rw [UInt8.le_iff_toNat_le]; exact h.1, ?_⟩
  rintro rfl
  simp at h

theorem fixedRow_text (d : Int) (i : Nat) :
    Csv.recordText [44] (fixedRow d i) = if 0 < d ∧ d < i then lineWith (fmtNat i ++ b!"-" ++ fmtNat i) (fmtNat i ++ fmtNat i) else lineWith (fmtNat i) (fmtNat i) := by
  have hp : ∀ f ∈ fixedRow d i, Csv.fieldText [44] f = f := by
    intro f hf
    obtain ⟨h1, c, h2, h3⟩ := fixedRow_plain d i f hf
    exact fieldText_plain h1 c h2 (digit_le h3).1 (digit_le h3).2
  have hr : ∀ a b c e : Bytes, (∀ f ∈ [a, b, c, e], Csv.fieldText [44] f = f) → Csv.recordText [44] [a, b, c, e] = a ++ [44] ++ (b ++ [44] ++ (c ++ [44] ++ e)) ++ [10] := by
    intro a b c e h
    simp only [Csv.recordText, Csv.joined, h a (by simp), h b (by simp), h c (by simp), h e (by simp)]
  unfold fixedRow at hp ⊢
  split
  · rename_i h
    rw [if_pos h] at hp
    rw [hr _ _ _ _ hp]
    simp only [lineWith, filler, List.append_assoc, List.cons_append, List.nil_append]
  · rename_i h
    rw [if_neg h] at hp
    rw [hr _ _ _ _ hp]
    simp only [lineWith, filler, List.append_assoc, List.cons_append, List.nil_append]

theorem fixedLoop_eq (d : Int) (i n : Nat) (out : Bytes) :
    fixedLoop d i n out = out ++ (List.range' i n).flatMap fun i => Csv.recordText [44] (fixedRow d i) := by
  induction n generalizing i out with
  | zero => simp [fixedLoop]
  | succ n ih =>
    rw [fixedLoop, ih, List.range'_succ, List.flatMap_cons]
    have : (CsvIO.writeRecord {} (fixedRow d i) out).2 = out ++ Csv.recordText [44] (fixedRow d i) := rfl
    rw [this, List.append_assoc]

/-- **C86**: the text of fixed rows, byte for byte; rows after the one where differences start say their number twice. -/
theorem C86_fixed_text (lines d : Int) : writeFixed lines d = b!"uuid,ingest,occurred,raw_data\n" ++
    (List.range lines.toNat).flatMap fun i : Nat => if 0 < d ∧ d < i then lineWith (fmtNat i ++ b!"-" ++ fmtNat i) (fmtNat i ++ fmtNat i) else lineWith (fmtNat i) (fmtNat i) := by
  rw [writeFixed, fixedLoop_eq, List.range_eq_range']
  simp only [fixedRow_text]
  congr 1

theorem lineWith_length (u x : Bytes) : (lineWith u x).length = 997 + u.length + 3 * x.length := by
  simp only [lineWith, List.length_append, List.length_replicate, List.length_cons, List.length_nil]
  omega

/-- **C86**: no row has the thousand bytes the help promises: a row has 997 and four for each digit of its number, so 1001 for the first ten (the end of the line
included) and more for all others. -/
theorem C86_fixed_size (i : Nat) : (lineWith (fmtNat i) (fmtNat i)).length = 997 + 4 * (fmtNat i).length ∧
    (lineWith (fmtNat i) (fmtNat i)).length ≠ 1000 ∧ ((lineWith (fmtNat i) (fmtNat i)).length = 1001 ↔ i < 10) := by
  have h := lineWith_length (fmtNat i) (fmtNat i)
  have hp := fmtNat_len_pos i
  refine ⟨by omega, by omega, ?_⟩
  obtain ⟨h1, h2⟩ := fmtNat_len i
  constructor
  · intro e
    have : (fmtNat i).length = 1 := by omega
    rw [this] at h1
    omega
  · intro hi
    have : (fmtNat i).length ≤ 1 := fmtNat_len_le (by omega) (by omega)
    omega

/-- **C86**: without a number of rows given, fixed rows are 1008590 bytes. -/
theorem C86_fixed_default : (writeFixed 1000 0).length = 1008590 := by
  rw [C86_fixed_text]
  have h : ∀ n : Nat, ((List.range n).flatMap fun i : Nat => if 0 < (0 : Int) ∧ (0 : Int) < i then lineWith (fmtNat i ++ b!"-" ++ fmtNat i) (fmtNat i ++ fmtNat i) else lineWith (fmtNat i) (fmtNat i)).length =
      ((List.range n).map fun i => 997 + 4 * (fmtNat i).length).sum := by
    intro n
    rw [List.length_flatMap]
    congr 1
    refine List.map_congr_left fun i _ => ?_
    rw [if_neg (by omega)]
    exact (C86_fixed_size i).1
  rw [List.length_append, h]
  have hs : ((List.range (1000 : Int).toNat).map fun i => 997 + 4 * (fmtNat i).length).sum = 1008560 := by decide +kernel
  rw [hs]
  rfl

/-- the cells of a fixed row -/
def cellsWith (u x : Bytes) : List Bytes :=
  [u ++ b!"-BA882B47-B26A-4E29-BFB4-XXXXXXXXXXXX", x ++ b!"-01-01 00:00:01.000 UTC", b!"2000-" ++ x ++ b!"-01 00:00:02.000 UTC", x ++ List.replicate 908 48]

/-- **C86**: however it arrives, the text reads back as a table of that many rows of four strings under a header. -/
theorem C86_fixed_read (L : CsvIO.Lib) (lines d : Int) (ks : List Nat) (hks : (writeFixed lines d).length ≤ ks.sum) :
    ∃ st', Drains (CsvIO.reader L { headerRow := true } (List.replicate 4 b!"string")) (CsvIO.start { headerRow := true } (ReplaceCr.reads true ks (writeFixed lines d)).1)
      ((List.range lines.toNat).map fun i : Nat => { value := .arr ((if 0 < d ∧ d < i then cellsWith (fmtNat i ++ b!"-" ++ fmtNat i) (fmtNat i ++ fmtNat i) else cellsWith (fmtNat i) (fmtNat i)).map .str) })
      .eof st' := by
  have hcells : ∀ i : Nat, (if 0 < d ∧ d < i then cellsWith (fmtNat i ++ b!"-" ++ fmtNat i) (fmtNat i ++ fmtNat i) else cellsWith (fmtNat i) (fmtNat i)) = fixedRow d i := by
    intro i
    unfold fixedRow
    split <;> simp only [cellsWith, filler, List.append_assoc]
  simp only [hcells]
  have hb : CsvIO.bodyText L { headerRow := true } (fixedHeader.map fun t => { title := t, type := [b!"string"] })
      ((List.range lines.toNat).map fun i => (fixedRow d i).map .str) = writeFixed lines d := by
    rw [writeFixed, fixedLoop_eq, List.range_eq_range']
    simp only [CsvIO.bodyText, CsvIO.records, if_true, List.map_map, List.singleton_append, List.flatMap_cons, List.flatMap_map]
    congr 1
    have : ∀ i, CsvIO.encode L ((fixedRow d i).map .str) = fixedRow d i := by
      intro i
      simp [CsvIO.encode, List.map_map, Function.comp_def, CsvIO.encodeCell]
    simp only [Function.comp_def, this]
    rfl
  rw [← hb] at hks ⊢
  have := (CsvIO.C25_round_trip L { headerRow := true } (fixedHeader.map fun t => { title := t, type := [b!"string"] }) (List.replicate 4 b!"string")
    ((List.range lines.toNat).map fun i => (fixedRow d i).map .str) ks (by decide) (by decide) ?_ ?_ hks).2
  · simpa [List.map_map, Function.comp_def, CsvIO.rowEntry] using this
  · intro row hrow
    obtain ⟨i, _, rfl⟩ := List.mem_map.1 hrow
    have hl : ∀ i, (fixedRow d i).length = 4 := by intro i; unfold fixedRow; split <;> rfl
    have hfit : ∀ n (l : List Bytes), l.length = n → (∀ f ∈ l, (13 : UInt8) ∉ f) → CsvIO.RowFits L (List.replicate n b!"string") (l.map .str) := by
      intro n l hn hl
      subst hn
      induction l with
      | nil => exact .nil _
      | cons f l ih =>
        refine .cons ⟨?_, hl f List.mem_cons_self⟩ (ih fun g hg => hl g (List.mem_cons_of_mem _ hg))
        rintro v (⟨h, _⟩ | ⟨h, _⟩ | ⟨h, _⟩ | ⟨h, _⟩ | ⟨h, _⟩ | ⟨h, _⟩) <;> exact absurd h (by decide)
    have hl4 : ((fixedRow d i).map Val.str).length = 4 := by simp [hl]
    refine ⟨hfit 4 _ (hl i) ?_, ⟨?_, ?_, ?_⟩, .inr hl4⟩
    · intro f hf h13
      exact ((fixedRow_plain d i f hf).1 13 h13).2.2.2.1 rfl
    all_goals (intro e; rw [e] at hl4; simp at hl4)
  · intro _
    exact ⟨by decide, by decide⟩

theorem fmtNat_inj {i j : Nat} (h : fmtNat i = fmtNat j) : i = j := by
  have := parseNat_fmtNat i
  rw [h, parseNat_fmtNat] at this
  exact (Option.some.inj this).symm

/-- **C86**: the first cells of fixed rows are all different. -/
theorem C86_fixed_distinct (d : Int) (i j : Nat) (h : (fixedRow d i).head? = (fixedRow d j).head?) : i = j := by
  have key : ∀ i, ∃ t, (fixedRow d i).head? = some (fmtNat i ++ 45 :: t) := by
    intro i
    unfold fixedRow
    split
    · exact ⟨_, by rw [List.head?_cons, List.append_assoc, List.append_assoc]; rfl⟩
    · exact ⟨_, rfl⟩
  obtain ⟨t, ht⟩ := key i
  obtain ⟨u, hu⟩ := key j
  rw [ht, hu, Option.some.injEq] at h
  have tw : ∀ i t, (fmtNat i ++ 45 :: t).takeWhile isDigit = fmtNat i := by
    intro i t
    rw [List.takeWhile_append_of_pos (fmtNat_digits' i)]
    simp [isDigit]
  exact fmtNat_inj (by rw [← tw i t, ← tw j u, h])

/-- **C86**: asked for differences from some row on, exactly the rows after that one are different from those without, in all four cells. -/
theorem C86_fixed_diff (d : Int) (i j : Nat) (hj : j < 4) : (fixedRow d i)[j]? = (fixedRow 0 i)[j]? ↔ ¬ (0 < d ∧ d < i) := by
  have h0 : ¬ (0 < (0 : Int) ∧ (0 : Int) < i) := by omega
  have hp := fmtNat_len_pos i
  constructor
  · intro h hd
    unfold fixedRow at h
    rw [if_pos hd, if_neg h0] at h
    obtain rfl | rfl | rfl | rfl : j = 0 ∨ j = 1 ∨ j = 2 ∨ j = 3 := by omega
    all_goals
      simp only [List.getElem?_cons_zero, List.getElem?_cons_succ, Option.some.injEq] at h
      have hl := congrArg List.length h
      simp only [List.length_append, List.length_cons, List.length_nil] at hl
      omega
  · intro hd
    unfold fixedRow
    rw [if_neg hd, if_neg h0]

/-! ### Rows for a structure -/

/-- there is a file with a structure in it -/
def Described (E : Formats.Env) (disk : Disk.Disk) (path : Bytes) (st : Structure) : Prop :=
  ∃ data, disk path = .file data false ∧ DocText.read (DocText.structure_ E.L.F) data = .ok st

theorem described_iff {E : Formats.Env} {disk : Disk.Disk} {path : Bytes} {st : Structure} :
    Described E disk path st ↔ ∃ data, (disk path).readFile = .ok data ∧ DocText.read (DocText.structure_ E.L.F) data = .ok st := by
  unfold Described
  refine exists_congr fun data => and_congr_left fun _ => ?_
  cases h : disk path with
  | absent => simp [Disk.Node.readFile]
  | denied => simp [Disk.Node.readFile]
  | dir es => simp [Disk.Node.readFile]
  | file d f => cases f <;> simp [Disk.Node.readFile]

theorem described_unique {E : Formats.Env} {disk : Disk.Disk} {path : Bytes} {st st' : Structure} (h : Described E disk path st) (h' : Described E disk path st') : st = st' := by
  obtain ⟨d, h1, h2⟩ := h
  obtain ⟨d', h1', h2'⟩ := h'
  rw [h1] at h1'
  cases h1'
  rw [h2] at h2'
  cases h2'
  rfl

theorem generate_undescribed {ρ : Type} (E : Formats.Env) (S : Generate.Source ρ) (seed : ρ) (disk : Disk.Disk) (path : Bytes) (lines : Int)
    (h : ∀ st, ¬ Described E disk path st) : generateFile E S seed disk path lines = .failed := by
  unfold generateFile
  cases hd : (disk path).readFile with
  | error e => rfl
  | ok data =>
    simp only
    cases hs : DocText.read (DocText.structure_ E.L.F) data with
    | error e => rfl
    | ok st => exact absurd (described_iff.2 ⟨data, hd, hs⟩) (h st)

theorem loop_reads {ρ : Type} (E : Formats.Env) (S : Generate.Source ρ) (n : Nat) (g : Generate.Gen ρ) (w : Formats.WState) :
    loop E S n g w = (Generate.reads S n g).map fun p => p.1.foldl (fun w e => (Formats.writer E e w).2) w := by
  induction n generalizing g w with
  | zero => rfl
  | succ n ih =>
    rw [loop, Generate.reads]
    cases Generate.readEntry S g with
    | none => rfl
    | some p =>
      simp only [ih]
      cases Generate.reads S n p.2 <;> rfl

/-- with a file in place, what becomes of it -/
theorem generate_described {ρ : Type} {S : Generate.Source ρ} (hS : Generate.Lawful S) (E : Formats.Env) (seed : ρ) (disk : Disk.Disk) (path : Bytes) (lines : Int)
    {st : Structure} (h : Described E disk path st) :
    (∀ cols ps z, Tabular.fromSchema E.order (st.schema.getD []) = .ok (cols, ps) → (∀ c ∈ cols, c.type ≠ []) → Formats.compressor E st = some z →
      ∃ es g', Generate.reads S lines.toNat { cols, maxLen := 64, random := seed } = some (es, g') ∧
        generateFile E S seed disk path lines = .printed (z (Formats.close E (es.foldl (fun w e => (Formats.writer E e w).2)
          (.csv (CsvIO.options (Formats.config st)) (CsvIO.header (CsvIO.options (Formats.config st)) cols)))))) ∧
    (Formats.Untyped E st → generateFile E S seed disk path lines = .panics) ∧
    (¬ Formats.Untyped E st → ¬ (Formats.Columns E st ∧ Formats.Packable st) → generateFile E S seed disk path lines = .failed) := by
  obtain ⟨data, h1, h2⟩ := described_iff.1 h
  have hg : generateFile E S seed disk path lines =
      match Generate.newTabular E.order { random := seed } (st.schema.getD []) with
      | .error _ => .failed
      | .ok g =>
        match Formats.newCSVWriter E st with
        | .err => .failed
        | .panics => .panics
        | .ok (w, z) =>
          match loop E S lines.toNat g w with
          | none => .panics
          | some w => .printed (z (Formats.close E w)) := by
    unfold generateFile
    rw [h1]
    simp only
    rw [h2]
    rfl
  rw [hg]
  refine ⟨?_, ?_, ?_⟩
  · intro cols ps z hf hc hz
    obtain ⟨es, g', hr, _⟩ := Generate.C47_rows hS { cols, maxLen := 64, random := seed } (by simp) hc lines.toNat
    refine ⟨es, g', hr, ?_⟩
    have hn : Generate.newTabular E.order { random := seed } (st.schema.getD []) = .ok { cols, maxLen := 64, random := seed } := by
      simp [Generate.newTabular, hf]
    obtain ⟨ts, hts⟩ : ∃ ts, CsvIO.openColumns E.order (st.schema.getD []) = .ok (cols, ts) := by
      obtain ⟨⟨cols', ts⟩, hp⟩ := (Formats.openColumns_ok E st).2 ⟨cols, ps, hf, hc⟩
      obtain ⟨ps', hf', _⟩ := ((CsvIO.C24_open E.order (st.schema.getD [])).2.2 cols' ts).1 hp
      rw [hf] at hf'
      cases hf'
      exact ⟨ts, hp⟩
    have hw := (Formats.newCSVWriter_ok E st _).2 ⟨cols, ts, z, hts, hz, rfl⟩
    rw [hn, hw]
    simp only
    rw [loop_reads, hr]
    rfl
  · intro hu
    have hp := (Formats.openColumns_panics E st).2 hu
    obtain ⟨cols, ps, hf, _⟩ := hu
    have hn : Generate.newTabular E.order { random := seed } (st.schema.getD []) = .ok { cols, maxLen := 64, random := seed } := by
      simp [Generate.newTabular, hf]
    have hw : Formats.newCSVWriter E st = .panics := by
      unfold Formats.newCSVWriter
      rw [hp]
    rw [hn, hw]
  · intro hu hcp
    cases hf : Tabular.fromSchema E.order (st.schema.getD []) with
    | error e => simp [Generate.newTabular, hf]
    | ok p =>
      obtain ⟨cols, ps⟩ := p
      have hc : Formats.Columns E st := ⟨cols, ps, hf, fun c hc he => hu ⟨cols, ps, hf, c, hc, he⟩⟩
      have hn : Generate.newTabular E.order { random := seed } (st.schema.getD []) = .ok { cols, maxLen := 64, random := seed } := by
        simp [Generate.newTabular, hf]
      obtain ⟨⟨cols', ts⟩, hp⟩ := (Formats.openColumns_ok E st).2 hc
      have hw : Formats.newCSVWriter E st = .err := by
        unfold Formats.newCSVWriter
        rw [hp]
        simp only
        cases hz : Formats.compressor E st with
        | none => rfl
        | some z => exact absurd ⟨hc, (Formats.compressor_iff E st).1 ⟨z, hz⟩⟩ hcp
      rw [hn, hw]

/-- **C86**: rows are printed exactly if the file holds a structure whose schema describes columns, all with a type, and whose compression is known; the command
crashes exactly if a column has an empty list of types; in all other cases it reports an error. -/
theorem C86_generate {ρ : Type} {S : Generate.Source ρ} (hS : Generate.Lawful S) (E : Formats.Env) (seed : ρ) (disk : Disk.Disk) (path : Bytes) (lines : Int) :
    ((∃ out, generateFile E S seed disk path lines = .printed out) ↔ ∃ st, Described E disk path st ∧ Formats.Columns E st ∧ Formats.Packable st) ∧
    (generateFile E S seed disk path lines = .panics ↔ ∃ st, Described E disk path st ∧ Formats.Untyped E st) ∧
    generateFile E S seed disk path lines ≠ .usage := by
  by_cases h : ∃ st, Described E disk path st
  · obtain ⟨st, h⟩ := h
    obtain ⟨h1, h2, h3⟩ := generate_described hS E seed disk path lines h
    have e1 : (∃ st, Described E disk path st ∧ Formats.Columns E st ∧ Formats.Packable st) ↔ Formats.Columns E st ∧ Formats.Packable st :=
      ⟨fun ⟨st', a, b⟩ => described_unique a h ▸ b, fun b => ⟨st, h, b⟩⟩
    have e2 : (∃ st, Described E disk path st ∧ Formats.Untyped E st) ↔ Formats.Untyped E st := ⟨fun ⟨st', a, b⟩ => described_unique a h ▸ b, fun b => ⟨st, h, b⟩⟩
    rw [e1, e2]
    by_cases hu : Formats.Untyped E st
    · rw [h2 hu]
      have : ¬ Formats.Columns E st := by
        rintro ⟨cols, ps, hf, hc⟩
        obtain ⟨cols', ps', hf', c, hc', he⟩ := hu
        rw [hf] at hf'
        cases hf'
        exact hc c hc' he
      simp [hu, this]
    · by_cases hcp : Formats.Columns E st ∧ Formats.Packable st
      · obtain ⟨⟨cols, ps, hf, hc⟩, hp⟩ := hcp
        obtain ⟨z, hz⟩ := (Formats.compressor_iff E st).2 hp
        obtain ⟨es, g', _, he⟩ := h1 cols ps z hf hc hz
        rw [he]
        have : Formats.Columns E st := ⟨cols, ps, hf, hc⟩
        simp [hu, this, hp]
      · rw [h3 hu hcp]
        simp [hu, hcp]
  · have h := fun st hd => h ⟨st, hd⟩
    rw [generate_undescribed E S seed disk path lines h]
    refine ⟨?_, ?_, by simp⟩
    · simp only [reduceCtorEq, exists_false, false_iff]
      rintro ⟨st, a, _⟩; exact h st a
    · simp only [reduceCtorEq, false_iff]
      rintro ⟨st, a, _⟩; exact h st a

theorem foldl_csv (E : Formats.Env) (o : Config.CSVOptions) (es : List Entry) (out : Bytes) :
    es.foldl (fun w e => (Formats.writer E e w).2) (.csv o out) = .csv o (es.foldl (fun w e => (CsvIO.writer E.L o e w).2) out) := by
  induction es generalizing out with
  | nil => rfl
  | cons e es ih => exact ih _

/-- **C86**: the command stops with a message about flags exactly if the arguments do not begin with flags as described; with nothing after the flags it reports an
error. -/
theorem C86_main {ρ : Type} {S : Generate.Source ρ} (hS : Generate.Lawful S) (E : Formats.Env) (seed : ρ) (disk : Disk.Disk) (args : List Bytes) :
    (main E S seed disk args = .usage ↔ ¬ ∃ i rest, Given 1000 args i rest) ∧ (∀ i, Given 1000 args i [] → main E S seed disk args = .failed) := by
  refine ⟨?_, fun i h => ?_⟩
  · constructor
    · rintro h ⟨i, rest, hg⟩
      rw [← C86_flags] at hg
      unfold main at h
      rw [hg] at h
      cases rest with
      | nil => simp at h
      | cons a t =>
        simp only at h
        split at h
        · simp at h
        · exact (C86_generate hS E seed disk a i).2.2 h
    · intro h
      unfold main
      cases hf : parseFlags 1000 args with
      | args i rest => exact absurd ⟨i, rest, (C86_flags _ _ _ _).1 hf⟩ h
      | help => rfl
      | bad => rfl
  · rw [← C86_flags] at h
    unfold main
    rw [h]

theorem foldl_accepts {σ : Type} {wr : Writer σ} {es : List Entry} {w w' : σ} (h : Accepts wr w es w') : es.foldl (fun w e => (wr e w).2) w = w' := by
  induction h with
  | nil => rfl
  | cons h _ ih => rw [List.foldl_cons, h]; exact ih

/-- **C86**: what is printed for a structure reads back, with the same structure, as the number of rows asked for (none if that is negative), each with one value
of the column's type for each column, if there are two columns or more, all types are known, no title has a carriage return in it and the separator can be used. -/
theorem C86_rows {ρ : Type} {S : Generate.Source ρ} (hS : Generate.Lawful S) (E : Formats.Env) (hE : Formats.Lossless E) (hr : ∀ text, text.length ≤ (E.reads text).sum)
    (hL : ∀ x, floatFinite x = true → E.L.parse64 (E.L.fmtF x) = some x ∧ E.L.fmtF x ≠ [] ∧ (13 : UInt8) ∉ E.L.fmtF x)
    (seed : ρ) (disk : Disk.Disk) (path : Bytes) (lines : Int) {st : Structure} (h : Described E disk path st) (hp : Formats.Packable st)
    {cols : List Tabular.Column} {ps : List Tabular.Problem} (hf : Tabular.fromSchema E.order (st.schema.getD []) = .ok (cols, ps))
    (types : List Bytes) (ht : cols.map (·.type.head?) = types.map some) (hk : ∀ t ∈ types, Generate.Known t) (h2 : 2 ≤ types.length)
    (hv : Csv.validDelim (CsvIO.cfg (CsvIO.options (Formats.config st))).comma = true) (hcr : ∀ c ∈ cols, (13 : UInt8) ∉ c.title) :
    ∃ (rows : List (List Val)) (out : Bytes) (r r' : Formats.RState), generateFile E S seed disk path lines = .printed out ∧ rows.length = lines.toNat ∧
      (∀ vs ∈ rows, vs.length = cols.length ∧ ∀ (j : Nat) t v, types[j]? = some t → vs[j]? = some v → Generate.Of 64 t v) ∧
      Formats.newCSVReader E st out = .ok r ∧ Drains (Formats.reader E) r (rows.map fun vs => { value := .arr (vs.map Generate.asRead) }) .eof r' := by
  have hc : ∀ c ∈ cols, c.type ≠ [] := by
    intro c hc he
    have : (none : Option Bytes) ∈ types.map some := by
      rw [← ht]
      exact List.mem_map.2 ⟨c, hc, by rw [he]; rfl⟩
    simp at this
  obtain ⟨z, hz⟩ := (Formats.compressor_iff E st).2 hp
  obtain ⟨es, g', hreads, hg⟩ := (generate_described hS E seed disk path lines h).1 cols ps z hf hc hz
  obtain ⟨es₁, g₁, rows, text, hr1, hvals, hacc, hdr⟩ := Generate.C47_csv hS { cols, maxLen := 64, random := seed } (by simp) types ht hk h2 E.L hL
    (CsvIO.options (Formats.config st)) hv hcr lines.toNat
  rw [hreads] at hr1
  cases hr1
  rw [foldl_csv, foldl_accepts hacc] at hg
  obtain ⟨st', hd⟩ := hdr (E.reads text) (hr text)
  have hu := Formats.unpack_pack hE hz text
  have hopen : CsvIO.openColumns E.order (st.schema.getD []) = .ok (cols, types) :=
    ((CsvIO.C24_open E.order (st.schema.getD [])).2.2 cols types).2 ⟨ps, hf, ht⟩
  obtain ⟨es₂, g₂, hr2, hl2, hspec⟩ := Generate.C47_rows hS { cols, maxLen := 64, random := seed } (by simp) hc lines.toNat
  rw [hreads] at hr2
  cases hr2
  have hlen : rows.length = es.length := by
    have := congrArg List.length hvals
    simpa using this.symm
  refine ⟨rows, _, _, .csv (CsvIO.options (Formats.config st)) types st', hg, by rw [hlen, hl2], ?_,
    (Formats.newCSVReader_ok E st _ _).2 ⟨cols, types, text, hopen, hu, rfl⟩, ?_⟩
  · intro vs hvs
    obtain ⟨i, hi, rfl⟩ := List.getElem_of_mem hvs
    have hie : i < es.length := by omega
    obtain ⟨_, _, ws, hw, hl, hof⟩ := hspec i es[i] (List.getElem?_eq_getElem hie)
    have : (es.map (·.value))[i]? = (rows.map Val.arr)[i]? := by rw [hvals]
    rw [List.getElem?_map, List.getElem?_map, List.getElem?_eq_getElem hie, List.getElem?_eq_getElem hi, Option.map_some, Option.map_some,
      Option.some.injEq, hw, Val.arr.injEq] at this
    rw [← this]
    refine ⟨hl, ?_⟩
    intro j t v hj hvj
    have hcj : (cols.map (·.type.head?))[j]? = some (some t) := by rw [ht, List.getElem?_map, hj]; rfl
    rw [List.getElem?_map] at hcj
    cases hcol : cols[j]? with
    | none => rw [hcol] at hcj; cases hcj
    | some c =>
      rw [hcol] at hcj
      simp only [Option.map_some, Option.some.injEq] at hcj
      obtain ⟨t', ts, e, ho⟩ := hof j c v hcol hvj
      rw [e] at hcj
      cases hcj
      exact ho
  · exact Formats.lift_drains (fun s => .csv (CsvIO.options (Formats.config st)) types s) (fun _ => rfl) hd

/-- **C86**: if the configuration names a separator that cannot be used (a quote or a line end, say), nothing is printed, whatever the number of rows, and no error reported. -/
theorem C86_separator {ρ : Type} {S : Generate.Source ρ} (hS : Generate.Lawful S) (E : Formats.Env) (seed : ρ) (disk : Disk.Disk) (path : Bytes) (lines : Int)
    {st : Structure} (h : Described E disk path st) (hc : Formats.Columns E st) (hp : st.compression = [])
    (hv : Csv.validDelim (CsvIO.cfg (CsvIO.options (Formats.config st))).comma = false) : generateFile E S seed disk path lines = .printed [] := by
  obtain ⟨cols, ps, hf, hc⟩ := hc
  have hz : Formats.compressor E st = some id := by simp [Formats.compressor, hp]
  obtain ⟨es, g', _, hg⟩ := (generate_described hS E seed disk path lines h).1 cols ps id hf hc hz
  rw [hg, foldl_csv]
  have hw : ∀ e out, (CsvIO.writer E.L (CsvIO.options (Formats.config st)) e out).2 = out := by
    intro e out
    unfold CsvIO.writer
    split
    · simp [CsvIO.writeRecord, hv]
    · rfl
  have hh : CsvIO.header (CsvIO.options (Formats.config st)) cols = [] := by
    unfold CsvIO.header
    split
    · simp [CsvIO.writeRecord, hv]
    · rfl
  have hfold : ∀ (es : List Entry) out, es.foldl (fun w e => (CsvIO.writer E.L (CsvIO.options (Formats.config st)) e w).2) out = out := by
    intro es
    induction es with
    | nil => intro out; rfl
    | cons e es ih => intro out; rw [List.foldl_cons, hw]; exact ih out
  rw [hfold, hh]
  rfl

/-! ### examples -/

def exText : Bytes := b!"{\"format\":\"csv\",\"formatConfig\":{\"headerRow\":true},\"schema\":{\"type\":\"array\",\"items\":{\"type\":\"array\",\"items\":[{\"title\":\"name\",\"type\":\"string\"},{\"title\":\"n\",\"type\":\"integer\"}]}}}"
def exQuote : Bytes := b!"{\"formatConfig\":{\"separator\":\"\\n\"},\"schema\":{\"type\":\"array\",\"items\":{\"type\":\"array\",\"items\":[{\"title\":\"name\",\"type\":\"string\"}]}}}"
def exUntyped : Bytes := b!"{\"schema\":{\"type\":\"array\",\"items\":{\"type\":\"array\",\"items\":[{\"title\":\"name\",\"type\":[]}]}}}"
def exDisk : Disk.Disk := fun p => if p = b!"a.json" then .file exText false else if p = b!"q.json" then .file exQuote false else if p = b!"u.json" then .file exUntyped false else .absent

example : main Formats.exE Generate.script [3, 0, 27, 61, 42, 1, 5, 7] exDisk [b!"--rows=2", b!"a.json"] = .printed b!"name,n\naB9,42\nf,7\n" := by decide +kernel
-- nothing is printed with a line end for a separator
example : main Formats.exE Generate.script [] exDisk [b!"--rows", b!"5", b!"q.json"] = .printed [] := by decide +kernel
example : main Formats.exE Generate.script [] exDisk [b!"-rows=0", b!"u.json"] = .panics ∧ main Formats.exE Generate.script [] exDisk [b!"b.json"] = .failed ∧
    main Formats.exE Generate.script [] exDisk [] = .failed ∧ main Formats.exE Generate.script [] exDisk [b!"-rows"] = .usage := by decide +kernel
example : (writeFixed 2 0).take 85 = b!"uuid,ingest,occurred,raw_data\n0-BA882B47-B26A-4E29-BFB4-XXXXXXXXXXXX,0-01-01 00:00:01" ∧ (writeFixed 2 0).length = 2032 ∧
    writeFixed (-3) 0 = b!"uuid,ingest,occurred,raw_data\n" := by decide +kernel

end Verif.Dsgen
