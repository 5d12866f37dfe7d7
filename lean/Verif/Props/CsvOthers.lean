import Verif.Spec.CsvText
import Verif.Props.Csv
/- C90: CSV that others wrote. -/
set_option autoImplicit false
namespace Verif.Csv
open CsvG

theorem doubled_dbl {f t : Bytes} (h : Doubled f t) : t = dbl f := by
  induction h with
  | nil => rfl
  | other c hc _ ih => rw [dbl, if_neg hc, ih]
  | quote _ ih => rw [dbl, if_pos rfl, ih]

theorem dbl_doubled (f : Bytes) : Doubled f (dbl f) := by
  induction f with
  | nil => exact .nil
  | cons c f ih =>
    rw [dbl]
    split
    · rename_i h; subst h; exact .quote ih
    · rename_i h; exact .other c h ih

theorem occurs_iff {sep : Bytes} (s : Bytes) : occurs sep s = true ↔ ∃ a b, s = a ++ (sep ++ b) := by
  induction s with
  | nil =>
    rw [occurs]
    constructor
    · intro h
      simp only [List.isEmpty_iff] at h
      exact ⟨[], [], by simp [h]⟩
    · rintro ⟨a, b, h⟩
      simp only [List.nil_eq, List.append_eq_nil_iff] at h
      simp [h.2.1]
  | cons c s ih =>
    rw [occurs, Bool.or_eq_true, ih]
    constructor
    · rintro (h | ⟨a, b, rfl⟩)
      · obtain ⟨b, hb⟩ := List.isPrefixOf_iff_prefix.1 h
        exact ⟨[], b, by simp [hb]⟩
      · exact ⟨c :: a, b, rfl⟩
    · rintro ⟨a, b, h⟩
      cases a with
      | nil => left; exact List.isPrefixOf_iff_prefix.2 ⟨b, by simpa using h.symm⟩
      | cons d a => right; simp only [List.cons_append, List.cons.injEq] at h; exact ⟨a, b, h.2⟩

/-! ### ends of lines -/

theorem cell_last {sep f t : Bytes} (h : Cell sep f t) : t.getLast? ≠ some 13 := by
  cases h with
  | bare _ _ _ h13 => exact fun h => h13 (List.mem_of_getLast? h)
  | quoted => rw [← List.cons_append, List.getLast?_append]; simp

theorem univ_cell {sep f t : Bytes} (h : Cell sep f t) : Cell sep (univ f) (univ t) := by
  cases h with
  | bare h1 h2 h3 h4 => rw [univ_nocr h4]; exact .bare _ h1 h2 h3 h4
  | quoted h =>
    have := doubled_dbl h; subst this
    have e : univ (34 :: (dbl f ++ [34])) = 34 :: (univ (dbl f) ++ [34]) := by
      rw [univ, if_neg (by decide), univ_append _ _ (.inl (by decide))]; rfl
    rw [e, univ_dbl]
    exact .quoted (dbl_doubled _)

theorem row_last {sep : Bytes} (hs : SepOK sep) {fs : List Bytes} {t : Bytes} (h : Row sep fs t) : t.getLast? ≠ some 13 := by
  induction h with
  | one h => exact cell_last h
  | cons _ _ ih =>
    rename_i u _ _
    rw [List.getLast?_append, List.getLast?_append]
    cases hu : u.getLast? with
    | none =>
      intro h
      cases hl : sep.getLast? with
      | none => rw [List.getLast?_eq_none_iff] at hl; exact hs.ne_nil hl
      | some x =>
        simp only [hl, Option.none_or, Option.some_or, Option.some.injEq] at h
        exact hs.cr (h ▸ List.mem_of_getLast? hl)
    | some c => simpa [hu] using ih

theorem univ_sep {sep : Bytes} (hs : SepOK sep) : univ sep = sep := univ_nocr hs.cr

theorem univ_row {sep : Bytes} (hs : SepOK sep) {fs : List Bytes} {t : Bytes} (h : Row sep fs t) : Row sep (fs.map univ) (univ t) := by
  induction h with
  | one h => exact .one (univ_cell h)
  | cons h _ ih =>
    rename_i f t fs u h'
    rw [univ_append _ _ (.inr (cell_last h)), univ_append _ _ (.inr fun e => hs.cr (List.mem_of_getLast? e)), univ_sep hs]
    exact .cons (univ_cell h) ih

/-- rows whose lines all end in a line feed -/
inductive Lf (sep : Bytes) : List (List Bytes) → Bytes → Prop
  | nil : Lf sep [] []
  | last {fs : List Bytes} {t : Bytes} : Row sep fs t → t ≠ [] → Lf sep [fs] t
  | cons {fs : List Bytes} {t : Bytes} {rs : List (List Bytes)} {u : Bytes} : Row sep fs t → t ≠ [] → Lf sep rs u → Lf sep (fs :: rs) (t ++ 10 :: u)
  | empty {rs : List (List Bytes)} {u : Bytes} : Lf sep rs u → Lf sep rs (10 :: u)

theorem univ_break {e u : Bytes} (h : Break e u) : univ (e ++ u) = 10 :: univ u := by
  rcases h with rfl | rfl | ⟨rfl, h⟩
  · simp [univ]
  · simp [univ]
  · simp [univ, h]

theorem rows_lf {sep : Bytes} (hs : SepOK sep) {rs : List (List Bytes)} {t : Bytes} (h : Rows sep rs t) : Lf sep (rs.map fun fs => fs.map univ) (univ t) := by
  induction h with
  | nil => exact .nil
  | last h hne => exact .last (univ_row hs h) (by rw [ne_eq, univ_eq_nil]; exact hne)
  | cons h hne hb _ ih =>
    rw [univ_append _ _ (.inr (row_last hs h)), univ_break hb]
    exact .cons (univ_row hs h) (by rw [ne_eq, univ_eq_nil]; exact hne) ih
  | empty hb _ ih => rw [univ_break hb]; exact .empty ih

/-! ### reading -/

/-- what follows a row: the end, or a line feed -/
def Stop (r r' : Bytes) : Prop := r = 10 :: r' ∨ r = [] ∧ r' = []

theorem bare_stop {sep : Bytes} (h : SepOK sep) {f r r' : Bytes} (hr : Stop r r') (ho : occurs sep f = false) (hl : (10 : UInt8) ∉ f) :
    bare sep (f ++ r) = (f, .done r') := by
  rcases hr with rfl | ⟨rfl, rfl⟩
  · exact bare_done h r' ho hl
  · rw [List.append_nil]
    induction f with
    | nil => rfl
    | cons c f ih =>
      have := occurs_cons ho
      have hc : c ≠ 10 := by rintro rfl; simp at hl
      rw [bare, if_neg hc, if_neg (by simp [this.1]), ih this.2 (fun hm => hl (by simp [hm]))]

theorem quoted_stop {sep : Bytes} (h : SepOK sep) (lazy : Bool) (f : Bytes) {r r' : Bytes} (hr : Stop r r') :
    quoted sep lazy (dbl f ++ 34 :: r) = (f, .done r') := by
  rcases hr with rfl | ⟨rfl, rfl⟩
  · exact quoted_done h lazy f r'
  · induction f with
    | nil => simp [dbl, quoted]
    | cons c f ih =>
      by_cases hc : c = 34
      · subst hc
        rw [dbl, if_pos rfl, List.cons_append, List.cons_append, quoted, if_neg (by simp)]
        simp [ih]
      · rw [dbl, if_neg hc, List.cons_append, quoted_ne hc, ih]

theorem cell_more {sep : Bytes} (h : SepOK sep) (lazy : Bool) {f t : Bytes} (hc : Cell sep f t) (r : Bytes) : field sep lazy (t ++ (sep ++ r)) = (f, .more r) := by
  cases hc with
  | bare h1 h2 h3 _ =>
    have ho : occurs sep f = false := by rw [Bool.eq_false_iff, ne_eq, occurs_iff]; exact h1
    refine field_bare ?_ (bare_more h r ho h3) h2
    cases f with
    | nil =>
      obtain ⟨b0, bs, hs, _⟩ := h.shape
      rw [hs]
      simp only [List.nil_append, List.cons_append, List.head?_cons, ne_eq, Option.some.injEq]
      exact fun e => h.quote (by rw [hs, e]; simp)
    | cons c f =>
      simp only [List.cons_append, List.head?_cons, ne_eq, Option.some.injEq]
      rintro rfl; simp at h2
  | quoted hd =>
    rw [doubled_dbl hd, List.cons_append, List.append_assoc, field, List.singleton_append, quoted_more h]

theorem cell_stop {sep : Bytes} (h : SepOK sep) (lazy : Bool) {f t : Bytes} (hc : Cell sep f t) {r r' : Bytes} (hr : Stop r r') :
    field sep lazy (t ++ r) = (f, .done r') := by
  cases hc with
  | bare h1 h2 h3 _ =>
    have ho : occurs sep f = false := by rw [Bool.eq_false_iff, ne_eq, occurs_iff]; exact h1
    refine field_bare ?_ (bare_stop h hr ho h3) h2
    cases f with
    | nil => rcases hr with rfl | ⟨rfl, _⟩ <;> simp
    | cons c f =>
      simp only [List.cons_append, List.head?_cons, ne_eq, Option.some.injEq]
      rintro rfl; simp at h2
  | quoted hd =>
    rw [doubled_dbl hd, List.cons_append, List.append_assoc, field, List.singleton_append, quoted_stop h lazy _ hr]

theorem row_fields {sep : Bytes} (h : SepOK sep) (lazy : Bool) {fs : List Bytes} {t : Bytes} (hr : Row sep fs t) {r r' : Bytes} (hs : Stop r r') (n : Nat)
    (hn : fs.length ≤ n) : fields sep false lazy n (t ++ r) = (fs, none, r') := by
  induction hr generalizing n with
  | one hc =>
    cases n with
    | zero => simp at hn
    | succ n =>
      rw [fields]
      simp only [lead, Bool.false_eq_true, if_false]
      rw [cell_stop h lazy hc hs]
  | cons hc _ ih =>
    cases n with
    | zero => simp at hn
    | succ n =>
      rw [List.append_assoc, List.append_assoc, fields]
      simp only [lead, Bool.false_eq_true, if_false]
      rw [cell_more h lazy hc]
      simp only [ih n (by simpa using hn)]

theorem row_length {sep : Bytes} (h : SepOK sep) {fs : List Bytes} {t : Bytes} (hr : Row sep fs t) : fs.length ≤ t.length + 1 := by
  induction hr with
  | one => simp
  | cons _ _ ih =>
    have : 0 < sep.length := List.length_pos_iff.mpr h.ne_nil
    simp only [List.length_append, List.length_cons]
    omega

theorem cell_head {sep : Bytes} {f t : Bytes} (hc : Cell sep f t) : t.head? ≠ some 10 := by
  cases hc with
  | bare _ _ h3 _ => exact fun e => h3 (List.mem_of_head? e)
  | quoted => simp

theorem row_head {sep : Bytes} (h : SepOK sep) {fs : List Bytes} {t : Bytes} (hr : Row sep fs t) (hne : t ≠ []) : ∃ c u, t = c :: u ∧ c ≠ 10 := by
  have key : t.head? ≠ some 10 := by
    cases hr with
    | one hc => exact cell_head hc
    | cons hc _ =>
      rename_i f u fs v _
      cases u with
      | nil =>
        obtain ⟨b0, bs, hs, _⟩ := h.shape
        rw [hs]
        simp only [List.nil_append, List.cons_append, List.head?_cons, ne_eq, Option.some.injEq]
        exact fun e => h.lf (by rw [hs, e]; simp)
      | cons c u => simpa using cell_head hc
  cases t with
  | nil => exact absurd rfl hne
  | cons c u => exact ⟨c, u, rfl, by simpa using key⟩

theorem read_row {c : Cfg} (ht : c.trim = false) (hv : validDelim c.comma = true) {fs : List Bytes} {t : Bytes} (hr : Row (utf8Enc c.comma) fs t) (hne : t ≠ []) {r r' : Bytes}
    (hs : Stop r r') (n : Int) :
    read c { rest := t ++ r, fpr := n } =
      (if 0 < n ∧ (fs.length : Int) ≠ n then .error .fieldCount else .ok fs, { rest := r', fpr := if n = 0 then (fs.length : Int) else n }) := by
  have h := sepOK_of_valid hv
  obtain ⟨a, u, hu, ha⟩ := row_head h hr hne
  have hsk : skipBlank (t ++ r) = t ++ r := by rw [hu, List.cons_append, skipBlank_cons ha]
  have hlen : fs.length ≤ (t ++ r).length + 1 := by
    have := row_length h hr
    simp only [List.length_append]
    omega
  have hf := row_fields h c.lazy hr hs _ hlen
  unfold read
  simp only [hv, Bool.not_true, Bool.false_eq_true, if_false, hsk, ht]
  split
  · rename_i e; rw [hu] at e; simp at e
  · rw [hf]

end Verif.Csv

namespace Verif.CsvIO
open Csv CsvG Streams

/-- lengths go with the expectation of the reader -/
def Even (n : Int) (rs : List (List Bytes)) : Prop := n < 0 ∨ ∃ k : Nat, (n = 0 ∨ n = k) ∧ ∀ fs ∈ rs, fs.length = k

theorem even_cons {n : Int} {fs : List Bytes} {rs : List (List Bytes)} (hl : fs ≠ []) (h : Even n (fs :: rs)) :
    ¬ (0 < n ∧ (fs.length : Int) ≠ n) ∧ Even (if n = 0 then (fs.length : Int) else n) rs := by
  rcases h with h | ⟨k, h, h'⟩
  · refine ⟨by omega, .inl ?_⟩
    rw [if_neg (by omega)]; exact h
  · have hk := h' fs (by simp)
    have h0 : 0 < fs.length := List.length_pos_iff.2 hl
    refine ⟨by omega, .inr ⟨k, ?_, fun gs hg => h' gs (by simp [hg])⟩⟩
    split <;> omega

theorem row_ne {sep : Bytes} {fs : List Bytes} {t : Bytes} (h : Row sep fs t) : fs ≠ [] := by cases h <;> simp

theorem read_end (o : Config.CSVOptions) (hv : validDelim (cfg o).comma = true) (n : Int) : Csv.read (cfg o) { rest := [], fpr := n } = (.error .eof, { rest := [], fpr := n }) := by
  simp [Csv.read, hv, Csv.skipBlank]

theorem read_lf (o : Config.CSVOptions) (hv : validDelim (cfg o).comma = true) (u : Bytes) (n : Int) :
    Csv.read (cfg o) { rest := 10 :: u, fpr := n } = Csv.read (cfg o) { rest := u, fpr := n } := by
  rcases Csv.read_blank (cfg o) u n with h | h
  · exact h
  · rw [hv] at h; cases h

/-- rows after the header -/
theorem lf_rows (L : Lib) (o : Config.CSVOptions) (types : List Bytes) (hv : validDelim (cfg o).comma = true) {rs : List (List Bytes)} {t : Bytes}
    (h : Lf (utf8Enc (cfg o).comma) rs t) (n : Int) (he : Even n rs) :
    ∃ st', Drains (reader L o types) { readHeader := true, csv := { rest := t, fpr := n } } (rs.map fun fs => rowEntry (decode L types fs)) .eof st' := by
  induction h generalizing n with
  | nil =>
    refine ⟨{ readHeader := true, csv := { rest := [], fpr := n } }, _, .nil _, ?_⟩
    simp [reader, readRow, read_end o hv, failure]
  | last hr hne =>
    obtain ⟨h1, _⟩ := even_cons (row_ne hr) he
    have hx := read_row rfl hv hr hne (r := []) (r' := []) (.inr ⟨rfl, rfl⟩) n
    rw [if_neg h1, List.append_nil] at hx
    rename_i fs t _
    refine ⟨{ readHeader := true, csv := { rest := [], fpr := if n = 0 then (fs.length : Int) else n } },
      { readHeader := true, csv := { rest := [], fpr := if n = 0 then (fs.length : Int) else n } }, .cons ?_ (.nil _), ?_⟩
    · simp [reader, readRow, hx, rowEntry]
    · simp [reader, readRow, read_end o hv, failure]
  | cons hr hne _ ih =>
    obtain ⟨h1, h2⟩ := even_cons (row_ne hr) he
    have hx := fun u => read_row rfl hv hr hne (r := 10 :: u) (r' := u) (.inl rfl) n
    obtain ⟨st', h⟩ := ih _ h2
    refine ⟨st', drains_cons ?_ h⟩
    simp [reader, readRow, hx, h1, rowEntry]
  | empty _ ih =>
    obtain ⟨st', h⟩ := ih n he
    refine ⟨st', drains_congr ?_ h⟩
    simp [reader, readRow, read_lf o hv]

/-- from the beginning -/
theorem lf_all (L : Lib) (o : Config.CSVOptions) (types : List Bytes) (hv : validDelim (cfg o).comma = true) {rs : List (List Bytes)} {t : Bytes}
    (h : Lf (utf8Enc (cfg o).comma) rs t) (n : Int) (he : Even n rs) :
    ∃ st', Drains (reader L o types) { readHeader := false, csv := { rest := t, fpr := n } }
      ((rs.drop (if o.headerRow then 1 else 0)).map fun fs => rowEntry (decode L types fs)) .eof st' := by
  by_cases hh : o.headerRow = true
  · rw [if_pos hh]
    induction h generalizing n with
    | nil =>
      refine ⟨{ readHeader := false, csv := { rest := [], fpr := n } }, _, .nil _, ?_⟩
      simp [reader, hh, read_end o hv, failure]
    | last hr hne =>
      obtain ⟨h1, _⟩ := even_cons (row_ne hr) he
      have hx := read_row rfl hv hr hne (r := []) (r' := []) (.inr ⟨rfl, rfl⟩) n
      rw [if_neg h1, List.append_nil] at hx
      rename_i fs t _
      refine ⟨{ readHeader := true, csv := { rest := [], fpr := if n = 0 then (fs.length : Int) else n } }, _, .nil _, ?_⟩
      simp [reader, readRow, hh, hx, read_end o hv, failure]
    | cons hr hne hl ih =>
      obtain ⟨h1, h2⟩ := even_cons (row_ne hr) he
      have hx := fun u => read_row rfl hv hr hne (r := 10 :: u) (r' := u) (.inl rfl) n
      obtain ⟨st', h⟩ := lf_rows L o types hv hl _ h2
      refine ⟨st', drains_congr ?_ h⟩
      simp [reader, hh, hx, h1]
    | empty _ ih =>
      obtain ⟨st', h⟩ := ih n he
      refine ⟨st', drains_congr ?_ h⟩
      simp [reader, hh, read_lf o hv]
  · simp only [Bool.not_eq_true] at hh
    rw [hh]
    obtain ⟨st', h⟩ := lf_rows L o types hv h n he
    refine ⟨st', drains_congr ?_ (by simpa using h)⟩
    simp [reader, hh]

/-- **C90**: a text that others wrote, with any usable separator, ends of lines of any system, mixed as may be, cells quoted or not, empty lines, and an end after
the last line or none, is delivered row by row in order, the first row counting as the header if one is configured; inside cells every end of line is a line
feed.  Rows must have the same length unless the options allow any.  The body goes through the carriage return repair in reads of any sizes, none of which ends in a
carriage return. -/
theorem C90_text (L : Lib) (o : Config.CSVOptions) (types : List Bytes) (rs : List (List Bytes)) (t : Bytes) (ks : List Nat) (hv : validDelim (cfg o).comma = true)
    (h : Rows (utf8Enc (cfg o).comma) rs t) (hrect : o.variadicFields = true ∨ ∃ k : Nat, ∀ fs ∈ rs, fs.length = k)
    (hall : (ReplaceCr.reads true ks t).2 = [])
    (hcr : ∀ j, (ReplaceCr.read true (ks.getD j 0) (ReplaceCr.reads true (ks.take j) t).2).1.getLast? ≠ some 13) :
    ∃ st', Drains (reader L o types) (start o (ReplaceCr.reads true ks t).1)
      ((rs.drop (if o.headerRow then 1 else 0)).map fun fs => rowEntry (decode L types (fs.map univ))) .eof st' := by
  rw [ReplaceCr.C26_reads_repair true ks _ hall hcr]
  unfold start
  rw [Csv.norm_fix]
  have he : Even (if o.variadicFields then -1 else 0) (rs.map fun fs => fs.map univ) := by
    rcases hrect with h | ⟨k, h⟩
    · left; rw [if_pos h]; decide
    · cases o.variadicFields with
      | true => left; decide
      | false =>
        refine .inr ⟨k, .inl rfl, fun fs hf => ?_⟩
        obtain ⟨gs, hg, rfl⟩ := List.mem_map.1 hf
        simpa using h gs hg
  obtain ⟨st', h⟩ := lf_all L o types hv (rows_lf (Csv.sepOK_of_valid hv) h) _ he
  refine ⟨st', ?_⟩
  rw [← List.map_drop, List.map_map] at h
  exact h

/-- **C90**: in particular with a large enough buffer. -/
theorem C90_one_read (L : Lib) (o : Config.CSVOptions) (types : List Bytes) (rs : List (List Bytes)) (t : Bytes) (k : Nat) (hv : validDelim (cfg o).comma = true)
    (h : Rows (utf8Enc (cfg o).comma) rs t) (hrect : o.variadicFields = true ∨ ∃ k : Nat, ∀ fs ∈ rs, fs.length = k) (hk : 2 * t.length < k) :
    ∃ st', Drains (reader L o types) (start o (ReplaceCr.reads true [k] t).1)
      ((rs.drop (if o.headerRow then 1 else 0)).map fun fs => rowEntry (decode L types (fs.map univ))) .eof st' := by
  obtain ⟨h1, h2⟩ := one_big_read t k hk (fix_last _)
  exact C90_text L o types rs t [k] hv h hrect h1 h2

theorem fix_clean {t : Bytes} (h : ReplaceCr.Clean true t) : ReplaceCr.fix true t = t := by
  have h1 := ReplaceCr.C26_one_read true t (2 * t.length + 1) (by omega)
  have h2 := (ReplaceCr.C26_transparent true t h [2 * t.length + 1]).2 (by simp; omega)
  simpa [ReplaceCr.reads, h1] using h2

/-- **C90**: if every carriage return is followed by a line feed, the reads may be of any sizes. -/
theorem C90_any_reads (L : Lib) (o : Config.CSVOptions) (types : List Bytes) (rs : List (List Bytes)) (t : Bytes) (ks : List Nat) (hv : validDelim (cfg o).comma = true)
    (h : Rows (utf8Enc (cfg o).comma) rs t) (hrect : o.variadicFields = true ∨ ∃ k : Nat, ∀ fs ∈ rs, fs.length = k) (hc : ReplaceCr.Clean true t)
    (hall : (ReplaceCr.reads true ks t).2 = []) :
    ∃ st', Drains (reader L o types) (start o (ReplaceCr.reads true ks t).1)
      ((rs.drop (if o.headerRow then 1 else 0)).map fun fs => rowEntry (decode L types (fs.map univ))) .eof st' := by
  have e1 : (ReplaceCr.reads true ks t).1 = t := by
    have := (ReplaceCr.C26_transparent true t hc ks).1
    rw [hall, List.append_nil] at this
    exact this
  have e2 : (ReplaceCr.reads true [2 * t.length + 1] t).1 = t := by
    have h1 := ReplaceCr.C26_one_read true t (2 * t.length + 1) (by omega)
    simp [ReplaceCr.reads, h1, fix_clean hc]
  obtain ⟨st', hd⟩ := C90_one_read L o types rs t (2 * t.length + 1) hv h hrect (by omega)
  rw [e2] at hd
  exact ⟨st', by rw [e1]; exact hd⟩

/-- **C90**: every table can be written so, each cell quoted: any bytes in cells, and any number of them. -/
theorem C90_every_table (sep : Bytes) (rs : List (List Bytes)) (hr : ∀ fs ∈ rs, fs ≠ []) : ∃ t, Rows sep rs t := by
  induction rs with
  | nil => exact ⟨[], .nil⟩
  | cons fs rs ih =>
    obtain ⟨u, hu⟩ := ih fun fs hf => hr fs (List.mem_cons_of_mem _ hf)
    have : ∀ fs : List Bytes, fs ≠ [] → ∃ t, Row sep fs t ∧ t ≠ [] := by
      intro fs
      induction fs with
      | nil => intro h; exact absurd rfl h
      | cons f fs ih =>
        intro _
        cases fs with
        | nil => exact ⟨_, .one (.quoted (Csv.dbl_doubled f)), by simp⟩
        | cons g gs =>
          obtain ⟨t, ht, _⟩ := ih (by simp)
          exact ⟨_, .cons (.quoted (Csv.dbl_doubled f)) ht, by simp⟩
    obtain ⟨t, ht, hne⟩ := this fs (hr fs (List.mem_cons_self ..))
    exact ⟨_, .cons ht hne (.inl rfl) hu⟩

theorem map_inj {α β : Type} {f : α → β} (hf : ∀ a b, f a = f b → a = b) {l l' : List α} (h : l.map f = l'.map f) : l = l' := by
  induction l generalizing l' with
  | nil => cases l' <;> simp_all
  | cons a l ih =>
    cases l' with
    | nil => simp at h
    | cons b l' =>
      simp only [List.map_cons, List.cons.injEq] at h
      rw [hf a b h.1, ih h.2]

/-- **C90**: a text has at most one reading as rows, up to ends of lines inside cells. -/
theorem C90_unique (c : Nat) (hv : validDelim c = true) (rs rs' : List (List Bytes)) (t : Bytes) (h : Rows (utf8Enc c) rs t) (h' : Rows (utf8Enc c) rs' t) :
    rs.map (fun fs => fs.map univ) = rs'.map fun fs => fs.map univ := by
  let L : Lib := { parse64 := fun _ => none, fmtF := fun _ => [], F := { fmt := fun _ => [], parse := fun _ => none } }
  let o : Config.CSVOptions := { separator := c, variadicFields := true }
  have h0 : c ≠ 0 := by rintro rfl; exact absurd hv (by decide)
  have hc : (cfg o).comma = c := by
    show (if (c : Int) = 0 then 44 else (c : Int).toNat) = c
    rw [if_neg (by omega)]; simp
  obtain ⟨_, h1⟩ := C90_one_read L o [] rs t (2 * t.length + 1) (by rw [hc]; exact hv) (by rw [hc]; exact h) (.inl rfl) (by omega)
  obtain ⟨_, h2⟩ := C90_one_read L o [] rs' t (2 * t.length + 1) (by rw [hc]; exact hv) (by rw [hc]; exact h') (.inl rfl) (by omega)
  have hd : ∀ fs : List Bytes, decode L [] fs = fs.map .str := by
    intro fs
    cases fs with
    | nil => rfl
    | cons f fs => exact (C24_row L [] (f :: fs)).2.2 (by simp)
  have he := (h1.det h2).1
  simp only [show o.headerRow = false from rfl, Bool.false_eq_true, if_false, List.drop_zero, hd] at he
  have : ∀ rs : List (List Bytes), (rs.map fun fs => rowEntry ((fs.map univ).map .str)) = (rs.map fun fs => fs.map univ).map fun fs => rowEntry (fs.map .str) := by
    intro rs; rw [List.map_map]; rfl
  rw [this, this] at he
  refine map_inj (f := fun fs : List Bytes => rowEntry (fs.map .str)) ?_ he
  intro a b hab
  simp only [rowEntry, Entry.mk.injEq, Val.arr.injEq, true_and] at hab
  exact map_inj (f := Val.str) (fun a b h => by cases h; rfl) hab

/-! examples -/

/-- two rows of two cells: bare and quoted cells, mixed ends of lines, an empty line, no end of the last line -/
theorem exRows : Rows b!"," [[b!"a", b!"say \"hi\"\r\nthere"], [b!"1", b!""]] b!"a,\"say \"\"hi\"\"\r\nthere\"\r\n\n1," := by
  have hq : Doubled b!"say \"hi\"\r\nthere" b!"say \"\"hi\"\"\r\nthere" := Csv.dbl_doubled _
  have hb : ∀ f : Bytes, occurs b!"," f = false → (34 : UInt8) ∉ f → (10 : UInt8) ∉ f → (13 : UInt8) ∉ f → Cell b!"," f f :=
    fun f h => .bare f (by rw [← Csv.occurs_iff, h]; decide)
  have r1 : Row b!"," [b!"a", b!"say \"hi\"\r\nthere"] b!"a,\"say \"\"hi\"\"\r\nthere\"" :=
    .cons (t := b!"a") (hb _ (by decide) (by decide) (by decide) (by decide)) (.one (.quoted hq))
  have r2 : Row b!"," [b!"1", b!""] b!"1," :=
    .cons (t := b!"1") (hb _ (by decide) (by decide) (by decide) (by decide)) (.one (hb [] (by decide) (by decide) (by decide) (by decide)))
  exact .cons (e := [13, 10]) r1 (by decide) (.inr (.inl rfl)) (.empty (e := [10]) (.inl rfl) (.last r2 (by decide)))

example (L : Lib) : ∃ st', Drains (reader L {} [b!"string", b!"string"]) (start {} (ReplaceCr.reads true [100] b!"a,\"say \"\"hi\"\"\r\nthere\"\r\n\n1,").1)
    [rowEntry [.str b!"a", .str b!"say \"hi\"\nthere"], rowEntry [.str b!"1", .str b!""]] .eof st' :=
  C90_one_read L {} [b!"string", b!"string"] _ _ 100 (by decide) exRows (.inr ⟨2, by simp⟩) (by decide)

example : Rows b!"," [[b!""]] b!"\"\"\r" ∧ ¬ Break [13] [10] := by
  refine ⟨.cons (e := [13]) (u := []) (.one (.quoted .nil)) (by simp) (.inr (.inr ⟨rfl, by simp⟩)) .nil, by simp [Break]⟩

end Verif.CsvIO
