import Verif.Model.Csv
import Verif.Lemmas.Csv
import Verif.Lemmas.JsonLines
import Verif.Props.Vals
import Verif.Props.Ndjson
import Verif.Props.ReplaceCr
import Verif.Props.Streams
import Verif.Props.Names
/-
C24, C25, C57, C58: rows of CSV and spreadsheets.
-/
set_option autoImplicit false
namespace Verif.CsvIO
open Streams JsonStd Ndjson
open Csv (univ blank validDelim recordText)

/-! ## Specification: literals of the types a column can have -/

/-- value of decimal digits -/
def decimal (ds : Bytes) : Nat := ds.foldl (fun n c => n * 10 + (c.toNat - 48)) 0

/-- an optional sign and decimal digits, within 64 bits -/
def IntLit (s : Bytes) (i : Int) : Prop :=
  ∃ sign ds, (sign = [] ∨ sign = b!"+" ∨ sign = b!"-") ∧ ds ≠ [] ∧ (∀ c ∈ ds, isDigit c = true) ∧ s = sign ++ ds ∧
    i = (if sign = b!"-" then -(decimal ds : Int) else decimal ds) ∧ -2 ^ 63 ≤ i ∧ i < 2 ^ 63

def BoolLit (s : Bytes) : Bool → Prop
  | true => s = b!"1" ∨ s = b!"t" ∨ s = b!"T" ∨ s = b!"true" ∨ s = b!"TRUE" ∨ s = b!"True"
  | false => s = b!"0" ∨ s = b!"f" ∨ s = b!"F" ∨ s = b!"false" ∨ s = b!"FALSE" ∨ s = b!"False"

/-- the text `s` is a literal of type `t` and stands for `v` -/
def Literal (L : Lib) (t s : Bytes) (v : Val) : Prop :=
  (t = b!"integer" ∧ ∃ i, IntLit s i ∧ v = .int i) ∨
  (t = b!"number" ∧ ∃ x, L.parse64 s = some x ∧ v = .f64 x) ∨
  (t = b!"boolean" ∧ ∃ b, BoolLit s b ∧ v = .bool b) ∨
  (t = b!"object" ∧ ((∃ m, unmarshal L.F s = some (.obj m) ∧ v = .obj m) ∨ unmarshal L.F s = some .null ∧ v = .obj [])) ∨
  (t = b!"array" ∧ ((∃ l, unmarshal L.F s = some (.arr l) ∧ v = .arr l) ∨ unmarshal L.F s = some .null ∧ v = .arr [])) ∨
  (t = b!"null" ∧ v = .null)

/-! ## C24 -/

theorem parseNatAux_iff (s : Bytes) (a n : Nat) :
    parseNatAux a s = some n ↔ (∀ c ∈ s, isDigit c = true) ∧ s.foldl (fun n c => n * 10 + (c.toNat - 48)) a = n := by
  induction s generalizing a with
  | nil => simp [parseNatAux]
  | cons c s ih =>
    rw [parseNatAux]
    split
    · rename_i hc; simp [ih, hc]
    · rename_i hc; simp [hc]

theorem parseNat_iff (s : Bytes) (n : Nat) : parseNat s = some n ↔ s ≠ [] ∧ (∀ c ∈ s, isDigit c = true) ∧ decimal s = n := by
  cases s with
  | nil => simp [parseNat]
  | cons c s => simp only [parseNat, parseNatAux_iff, decimal]; simp

theorem parseInteger_iff (s : Bytes) (i : Int) : Vals.parseInteger s = some i ↔ IntLit s i := by
  rw [Vals.parseInteger_eq]
  cases s with
  | nil =>
    simp only [atoi, reduceCtorEq, false_iff]
    rintro ⟨sign, ds, _, hne, _, h, _⟩
    have := (List.append_eq_nil_iff.mp h.symm).2
    exact hne this
  | cons c s =>
    have d45 : isDigit 45 = false := by decide
    have d43 : isDigit 43 = false := by decide
    simp only [atoi]
    constructor
    · intro h
      by_cases hc : c = 45 ∨ c = 43
      · rw [if_pos hc] at h
        cases hp : parseNat s with
        | none => rw [hp] at h; simp at h
        | some n =>
          rw [hp] at h
          obtain ⟨h1, h2, h3⟩ := (parseNat_iff s n).1 hp
          simp only [Option.ite_none_right_eq_some, Option.some.injEq] at h
          obtain ⟨hr, hi⟩ := h
          refine ⟨[c], s, ?_, h1, h2, rfl, ?_, ?_⟩
          · rcases hc with rfl | rfl
            · right; right; rfl
            · right; left; rfl
          · rcases hc with rfl | rfl
            · rw [h3, ← hi]; rfl
            · rw [h3, ← hi]; rfl
          · rw [← hi]; simpa [IsInt64] using hr
      · rw [if_neg hc] at h
        cases hp : parseNat (c :: s) with
        | none => rw [hp] at h; simp at h
        | some n =>
          rw [hp] at h
          obtain ⟨h1, h2, h3⟩ := (parseNat_iff _ n).1 hp
          simp only [Option.ite_none_right_eq_some, Option.some.injEq] at h
          obtain ⟨hr, hi⟩ := h
          have h45 : c ≠ 45 := fun e => hc (.inl e)
          rw [if_neg h45] at hi hr
          refine ⟨[], c :: s, .inl rfl, h1, h2, rfl, ?_, ?_⟩
          · rw [h3, ← hi]; rfl
          · rw [← hi]; simpa [IsInt64] using hr
    · rintro ⟨sign, ds, hs, hne, hd, he, hi, hr⟩
      have hp := (parseNat_iff ds _).2 ⟨hne, hd, rfl⟩
      have hr' : IsInt64 i := by simpa [IsInt64] using hr
      rcases hs with rfl | rfl | rfl
      · rw [List.nil_append] at he
        have hc : isDigit c = true := by rw [← he] at hd; exact hd c (by simp)
        have h45 : c ≠ 45 := by rintro rfl; rw [d45] at hc; cases hc
        have h43 : c ≠ 43 := by rintro rfl; rw [d43] at hc; cases hc
        rw [if_neg (by simp [h45, h43]), he, hp]
        have hi : i = decimal ds := by rw [hi]; rfl
        rw [hi] at hr'
        simp [h45, hr', hi]
      · obtain ⟨rfl, rfl⟩ : c = 43 ∧ s = ds := List.cons.inj he
        rw [if_pos (by simp), hp]
        have hi : i = decimal s := by rw [hi]; rfl
        rw [hi] at hr'
        simp [hr', hi]
      · obtain ⟨rfl, rfl⟩ : c = 45 ∧ s = ds := List.cons.inj he
        rw [if_pos (by simp), hp]
        have hi : i = -(decimal s : Int) := by rw [hi]; rfl
        rw [hi] at hr'
        simp [hr', hi]

theorem parseBool_iff (s : Bytes) (b : Bool) : Vals.parseBool s = some b ↔ BoolLit s b := by
  unfold Vals.parseBool
  constructor
  · intro h
    split at h
    · rename_i hm
      simp only [Option.some.injEq] at h
      subst h
      simp only [List.mem_cons, List.not_mem_nil, or_false] at hm
      simp only [BoolLit]
      rcases hm with h | h | h | h | h | h <;> simp [h]
    · split at h
      · rename_i hm
        simp only [Option.some.injEq] at h
        subst h
        simp only [List.mem_cons, List.not_mem_nil, or_false] at hm
        simp only [BoolLit]
        rcases hm with h | h | h | h | h | h <;> simp [h]
      · cases h
  · intro h
    cases b with
    | true => rcases h with rfl | rfl | rfl | rfl | rfl | rfl <;> decide
    | false => rcases h with rfl | rfl | rfl | rfl | rfl | rfl <;> decide

theorem literal_functional {L : Lib} {t s : Bytes} {v w : Val} (h : Literal L t s v) (h' : decodeCell L t s = w) : w = v := by
  subst h'
  unfold decodeCell unmarshalObject unmarshalArray
  rcases h with ⟨rfl, i, h, rfl⟩ | ⟨rfl, x, h, rfl⟩ | ⟨rfl, b, h, rfl⟩ | ⟨rfl, ⟨m, h, rfl⟩ | ⟨h, rfl⟩⟩ | ⟨rfl, ⟨l, h, rfl⟩ | ⟨h, rfl⟩⟩ | ⟨rfl, rfl⟩
  · rw [if_neg (by decide), if_pos rfl, (parseInteger_iff s i).2 h]
  · rw [if_pos rfl, h]
  · rw [if_neg (by decide), if_neg (by decide), if_pos rfl, (parseBool_iff s b).2 h]
  · rw [if_neg (by decide), if_neg (by decide), if_neg (by decide), if_pos rfl, h]
  · rw [if_neg (by decide), if_neg (by decide), if_neg (by decide), if_pos rfl, h]
  · rw [if_neg (by decide), if_neg (by decide), if_neg (by decide), if_neg (by decide), if_pos rfl, h]
  · rw [if_neg (by decide), if_neg (by decide), if_neg (by decide), if_neg (by decide), if_pos rfl, h]
  · rw [if_neg (by decide), if_neg (by decide), if_neg (by decide), if_neg (by decide), if_neg (by decide), if_pos rfl]

/-- **C24**: a cell whose text is a literal of the column's type becomes the value; any other cell stays text. -/
theorem C24_cell (L : Lib) (t s : Bytes) :
    (∀ v, Literal L t s v → decodeCell L t s = v) ∧ ((∀ v, ¬ Literal L t s v) → decodeCell L t s = .str s) := by
  refine ⟨fun v h => literal_functional h rfl, fun h => ?_⟩
  unfold decodeCell unmarshalObject unmarshalArray
  split
  · split
    · rename_i ht _ x hx; exact absurd (.inr (.inl ⟨ht, x, hx, rfl⟩)) (h _)
    · rfl
  split
  · split
    · rename_i ht _ i hi; exact absurd (.inl ⟨ht, i, (parseInteger_iff s i).1 hi, rfl⟩) (h _)
    · rfl
  split
  · split
    · rename_i ht _ b hb; exact absurd (.inr (.inr (.inl ⟨ht, b, (parseBool_iff s b).1 hb, rfl⟩))) (h _)
    · rfl
  split
  · rename_i ht
    cases hu : unmarshal L.F s with
    | none => rfl
    | some v =>
      cases v with
      | obj m => exact absurd (.inr (.inr (.inr (.inl ⟨ht, .inl ⟨m, hu, rfl⟩⟩)))) (h _)
      | null => exact absurd (.inr (.inr (.inr (.inl ⟨ht, .inr ⟨hu, rfl⟩⟩)))) (h _)
      | _ => rfl
  split
  · rename_i ht
    cases hu : unmarshal L.F s with
    | none => rfl
    | some v =>
      cases v with
      | arr l => exact absurd (.inr (.inr (.inr (.inr (.inl ⟨ht, .inl ⟨l, hu, rfl⟩⟩))))) (h _)
      | null => exact absurd (.inr (.inr (.inr (.inr (.inl ⟨ht, .inr ⟨hu, rfl⟩⟩))))) (h _)
      | _ => rfl
  split
  · rename_i ht; exact absurd (.inr (.inr (.inr (.inr (.inr ⟨ht, rfl⟩))))) (h _)
  · rfl

/-- so the value is determined -/
theorem C24_literal_unique (L : Lib) (t s : Bytes) (v w : Val) (h : Literal L t s v) (h' : Literal L t s w) : v = w := by
  rw [← (C24_cell L t s).1 v h, (C24_cell L t s).1 w h']

theorem decodeCells_length (L : Lib) (types strs : List Bytes) (h : strs.length ≤ types.length) : (decodeCells L types strs).length = strs.length := by
  induction strs generalizing types with
  | nil => cases types <;> rfl
  | cons s strs ih =>
    cases types with
    | nil => simp at h
    | cons t types => simp only [decodeCells, List.length_cons] at h ⊢; rw [ih types (by omega)]

theorem decodeCells_get (L : Lib) (types strs : List Bytes) (i : Nat) (t s : Bytes) (ht : types[i]? = some t) (hs : strs[i]? = some s) :
    (decodeCells L types strs)[i]? = some (decodeCell L t s) := by
  induction strs generalizing types i with
  | nil => simp at hs
  | cons a strs ih =>
    cases types with
    | nil => simp at ht
    | cons b types =>
      cases i with
      | zero => simp only [List.getElem?_cons_zero, Option.some.injEq] at ht hs; subst ht; subst hs; rfl
      | succ i => simp only [List.getElem?_cons_succ] at ht hs; simpa [decodeCells] using ih types i ht hs

theorem decodeCells_strings (L : Lib) (strs : List Bytes) : decodeCells L (strs.map fun _ => b!"string") strs = strs.map .str := by
  induction strs with
  | nil => rfl
  | cons s strs ih =>
    simp only [List.map_cons, decodeCells, ih, List.cons.injEq, and_true]
    unfold decodeCell
    rw [if_neg (by decide), if_neg (by decide), if_neg (by decide), if_neg (by decide), if_neg (by decide), if_neg (by decide)]

/-- **C24**: cells stay in place; a row with more cells than there are columns is all text. -/
theorem C24_row (L : Lib) (types strs : List Bytes) :
    (decode L types strs).length = strs.length ∧
    (strs.length ≤ types.length → ∀ (i : Nat) t s, types[i]? = some t → strs[i]? = some s → (decode L types strs)[i]? = some (decodeCell L t s)) ∧
    (types.length < strs.length → decode L types strs = strs.map .str) := by
  unfold decode
  by_cases h : types.length < strs.length
  · rw [if_pos h, decodeCells_strings]
    simp [h]
    omega
  · rw [if_neg h]
    exact ⟨decodeCells_length L _ _ (by omega), fun _ i t s ht hs => decodeCells_get L _ _ i t s ht hs, fun h' => absurd h' h⟩

/-- **C24**: what a column of unlisted type holds is text. -/
theorem C24_other_types (L : Lib) (t s : Bytes)
    (h : t ∉ [b!"integer", b!"number", b!"boolean", b!"object", b!"array", b!"null"]) : decodeCell L t s = .str s := by
  refine (C24_cell L t s).2 ?_
  rintro v (⟨rfl, _⟩ | ⟨rfl, _⟩ | ⟨rfl, _⟩ | ⟨rfl, _⟩ | ⟨rfl, _⟩ | ⟨rfl, _⟩) <;> exact h (by decide)

theorem firstTypes_spec (cols : List Tabular.Column) :
    (∀ ts, firstTypes cols = .ok ts ↔ cols.map (·.type.head?) = ts.map some) ∧ (firstTypes cols = .panics ↔ ∃ c ∈ cols, c.type = []) ∧
      firstTypes cols ≠ .err := by
  induction cols with
  | nil =>
    refine ⟨fun ts => ?_, by simp [firstTypes], by simp [firstTypes]⟩
    cases ts <;> simp [firstTypes]
  | cons c cols ih =>
    rw [firstTypes]
    cases hc : c.type with
    | nil =>
      simp only [reduceCtorEq, false_iff, List.map_cons, hc, List.head?_nil, List.mem_cons, exists_eq_or_imp, true_or, ne_eq, not_false_eq_true, and_true]
      intro ts h
      cases ts <;> simp at h
    | cons t l =>
      obtain ⟨h1, h2, h3⟩ := ih
      cases hf : firstTypes cols with
      | ok ts =>
        have h4 := (h1 ts).1 hf
        have h5 : ¬ ∃ c ∈ cols, c.type = [] := by rw [← h2, hf]; simp
        refine ⟨fun us => ?_, ?_, by simp⟩
        · simp only [Opened.ok.injEq, List.map_cons, hc, List.head?_cons]
          constructor
          · rintro rfl; simp [h4]
          · intro h
            cases us with
            | nil => simp at h
            | cons u us =>
              simp only [List.map_cons, List.cons.injEq, Option.some.injEq] at h
              have := (h1 us).2 h.2
              rw [hf] at this
              simp only [Opened.ok.injEq] at this
              rw [h.1, this]
        · simp only [reduceCtorEq, List.mem_cons, exists_eq_or_imp, hc, false_or, false_iff]
          exact h5
      | err => exact absurd hf h3
      | panics =>
        have h5 := h2.1 hf
        refine ⟨fun us => ?_, by simpa [hc] using h5, by simp⟩
        simp only [reduceCtorEq, List.map_cons, false_iff]
        intro h
        cases us with
        | nil => simp at h
        | cons u us =>
          simp only [List.map_cons, List.cons.injEq] at h
          have := (h1 us).2 h.2
          rw [hf] at this
          cases this

/-- **C24**: a column has the first of its declared types.  Opening a reader or writer fails exactly when the schema does not describe
columns, and panics exactly when a column is declared with an empty list of types. -/
theorem C24_open (order : Nat → List (Bytes × Val) → List (Bytes × Val)) (sch : List (Bytes × Val)) :
    (openColumns order sch = .err ↔ ∃ e, Tabular.fromSchema order sch = .error e) ∧
    (openColumns order sch = .panics ↔ ∃ cols ps, Tabular.fromSchema order sch = .ok (cols, ps) ∧ ∃ c ∈ cols, c.type = []) ∧
    (∀ cols ts, openColumns order sch = .ok (cols, ts) ↔ ∃ ps, Tabular.fromSchema order sch = .ok (cols, ps) ∧ cols.map (·.type.head?) = ts.map some) := by
  unfold openColumns
  cases hf : Tabular.fromSchema order sch with
  | error e => simp
  | ok p =>
    obtain ⟨cols, ps⟩ := p
    obtain ⟨h1, h2, h3⟩ := firstTypes_spec cols
    cases hc : firstTypes cols with
    | err => exact absurd hc h3
    | ok ts =>
      have h4 := (h1 ts).1 hc
      have h5 : ¬ ∃ c ∈ cols, c.type = [] := by rw [← h2, hc]; simp
      simp only [hc]
      refine ⟨by simp, ?_, ?_⟩
      · simp only [reduceCtorEq, false_iff]
        rintro ⟨c, p, he, h⟩
        simp only [Except.ok.injEq, Prod.mk.injEq] at he
        rw [← he.1] at h
        exact h5 h
      · intro cols' ts'
        simp only [Opened.ok.injEq, Prod.mk.injEq, Except.ok.injEq, exists_and_right, exists_and_left, exists_eq', and_true]
        constructor
        · rintro ⟨rfl, rfl⟩; exact ⟨rfl, h4⟩
        · rintro ⟨rfl, h⟩
          have := (h1 ts').2 h
          rw [hc] at this
          simp only [Opened.ok.injEq] at this
          exact ⟨rfl, this⟩
    | panics =>
      have h5 := h2.1 hc
      simp only [hc]
      refine ⟨by simp, ?_, ?_⟩
      · simp only [true_iff]
        exact ⟨cols, ps, rfl, h5⟩
      · intro cols' ts'
        simp only [reduceCtorEq, false_iff]
        rintro ⟨p, he, h⟩
        simp only [Except.ok.injEq, Prod.mk.injEq] at he
        rw [← he.1] at h
        have := (h1 ts').2 h
        rw [hc] at this
        cases this

/-! ## C25 -/

/-- entries holding these rows -/
def rowEntry (vs : List Val) : Entry := { value := .arr vs }

theorem drains_congr {σ : Type} {rd : Reader σ} {s t : σ} (h : rd s = rd t) {es : List Entry} {x : RErr} {s' : σ} (hd : Drains rd t es x s') :
    Drains rd s es x s' := by
  obtain ⟨m, hy, hf⟩ := hd
  cases hy with
  | nil => exact ⟨s, .nil s, by rw [h]; exact hf⟩
  | cons h1 h2 => exact ⟨m, .cons (by rw [h]; exact h1) h2, hf⟩

theorem drains_cons {σ : Type} {rd : Reader σ} {s s₁ : σ} {e : Entry} (h : rd s = (.entry e, s₁)) {es : List Entry} {x : RErr} {s' : σ}
    (hd : Drains rd s₁ es x s') : Drains rd s (e :: es) x s' := by
  obtain ⟨m, hy, hf⟩ := hd
  exact ⟨m, .cons h hy, hf⟩

/-- lengths go with the expectation of the reader -/
def Rect (n : Int) (rs : List (List Bytes)) : Prop :=
  n < 0 ∨ ∃ k : Nat, (n = 0 ∨ n = k) ∧ ∀ fs ∈ rs, blank fs = false → fs.length = k

theorem rect_cons {n : Int} {fs : List Bytes} {rs : List (List Bytes)} (h : Rect n (fs :: rs)) : Rect n rs := by
  rcases h with h | ⟨k, h, h'⟩
  · exact .inl h
  · exact .inr ⟨k, h, fun gs hg => h' gs (by simp [hg])⟩

theorem rect_read {n : Int} {fs : List Bytes} {rs : List (List Bytes)} (hb : blank fs = false) (h : Rect n (fs :: rs)) :
    (n ≤ 0 ∨ n = fs.length) ∧ Rect (if n = 0 then (fs.length : Int) else n) rs := by
  rcases h with h | ⟨k, h, h'⟩
  · refine ⟨.inl (by omega), .inl ?_⟩
    rw [if_neg (by omega)]; exact h
  · have hk := h' fs (by simp) hb
    refine ⟨?_, .inr ⟨k, ?_, fun gs hg => h' gs (by simp [hg])⟩⟩
    · rcases h with h | h
      · exact .inl (by omega)
      · right; rw [h, hk]
    · right
      split
      · rw [hk]
      · rcases h with h | h
        · exact absurd h ‹_›
        · exact h

theorem readRow_record (L : Lib) (o : Config.CSVOptions) (types : List Bytes) (hv : validDelim (cfg o).comma = true) {fs : List Bytes}
    (hb : blank fs = false) (r : Bytes) (n : Int) (hn : n ≤ 0 ∨ n = fs.length) :
    readRow L o types { rest := recordText (utf8Enc (cfg o).comma) fs ++ r, fpr := n } =
      (.entry (rowEntry (decode L types fs)), { readHeader := true, csv := { rest := r, fpr := if n = 0 then (fs.length : Int) else n } }) := by
  unfold readRow
  rw [Csv.read_record hv hb r n hn]
  rfl

theorem read_blankText {c : Csv.Cfg} (hv : validDelim c.comma = true) {fs : List Bytes} (hb : blank fs = true) (r : Bytes) (n : Int) :
    Csv.read c { rest := recordText (utf8Enc c.comma) fs ++ r, fpr := n } = Csv.read c { rest := r, fpr := n } := by
  rw [Csv.recordText_blank hb]
  rcases Csv.read_blank c r n with h | h
  · exact h
  · rw [hv] at h; cases h

/-- rows after the header -/
theorem drains_rows (L : Lib) (o : Config.CSVOptions) (types : List Bytes) (hv : validDelim (cfg o).comma = true) (rs : List (List Bytes)) (n : Int)
    (hr : Rect n rs) :
    ∃ st', Drains (reader L o types) { readHeader := true, csv := { rest := rs.flatMap (recordText (utf8Enc (cfg o).comma)), fpr := n } }
      ((rs.filter fun fs => !blank fs).map fun fs => rowEntry (decode L types fs)) .eof st' := by
  induction rs generalizing n with
  | nil =>
    have : Csv.read (cfg o) { rest := [], fpr := n } = (.error .eof, { rest := [], fpr := n }) := by
      simp [Csv.read, hv, Csv.skipBlank]
    refine ⟨{ readHeader := true, csv := { rest := [], fpr := n } }, _, .nil _, ?_⟩
    simp [reader, readRow, this, failure]
  | cons fs rs ih =>
    rw [List.flatMap_cons]
    cases hb : blank fs with
    | true =>
      obtain ⟨st', h⟩ := ih n (rect_cons hr)
      refine ⟨st', ?_⟩
      rw [List.filter_cons_of_neg (by simp [hb])]
      refine drains_congr ?_ h
      simp only [reader, Bool.not_true, Bool.false_and, Bool.false_eq_true, if_false, readRow, read_blankText hv hb]
    | false =>
      obtain ⟨hn, hr'⟩ := rect_read hb hr
      obtain ⟨st', h⟩ := ih _ hr'
      refine ⟨st', ?_⟩
      rw [List.filter_cons_of_pos (by simp [hb]), List.map_cons]
      refine drains_cons ?_ h
      simp only [reader, Bool.not_true, Bool.false_and, Bool.false_eq_true, if_false]
      exact readRow_record L o types hv hb _ n hn

/-- from the beginning -/
theorem drains_all (L : Lib) (o : Config.CSVOptions) (types : List Bytes) (hv : validDelim (cfg o).comma = true) (rs : List (List Bytes)) (n : Int)
    (hr : Rect n rs) :
    ∃ st', Drains (reader L o types) { readHeader := false, csv := { rest := rs.flatMap (recordText (utf8Enc (cfg o).comma)), fpr := n } }
      (((rs.filter fun fs => !blank fs).drop (if o.headerRow then 1 else 0)).map fun fs => rowEntry (decode L types fs)) .eof st' := by
  by_cases hh : o.headerRow = true
  · rw [if_pos hh]
    induction rs generalizing n with
    | nil =>
      have : Csv.read (cfg o) { rest := [], fpr := n } = (.error .eof, { rest := [], fpr := n }) := by
        simp [Csv.read, hv, Csv.skipBlank]
      refine ⟨{ readHeader := false, csv := { rest := [], fpr := n } }, _, .nil _, ?_⟩
      simp [reader, hh, this, failure]
    | cons fs rs ih =>
      rw [List.flatMap_cons]
      cases hb : blank fs with
      | true =>
        obtain ⟨st', h⟩ := ih n (rect_cons hr)
        refine ⟨st', ?_⟩
        rw [List.filter_cons_of_neg (by simp [hb])]
        refine drains_congr ?_ h
        simp only [reader, hh, Bool.not_false, Bool.and_self, if_true, read_blankText hv hb]
      | false =>
        obtain ⟨hn, hr'⟩ := rect_read hb hr
        obtain ⟨st', h⟩ := drains_rows L o types hv rs _ hr'
        refine ⟨st', ?_⟩
        rw [List.filter_cons_of_pos (by simp [hb]), List.drop_succ_cons, List.drop_zero]
        refine drains_congr ?_ h
        simp only [reader, hh, Bool.not_false, Bool.and_self, if_true, Csv.read_record hv hb _ n hn, Bool.not_true, Bool.false_and,
          Bool.false_eq_true, if_false]
  · simp only [Bool.not_eq_true] at hh
    rw [hh]
    obtain ⟨st', h⟩ := drains_rows L o types hv rs n hr
    refine ⟨st', drains_congr ?_ (by simpa using h)⟩
    simp [reader, hh]

/-! what is written -/

/-- the records of a body: the titles, if there is a header, and the rows -/
def records (L : Lib) (o : Config.CSVOptions) (cols : List Tabular.Column) (rows : List (List Val)) : List (List Bytes) :=
  (if o.headerRow then [Tabular.titles cols] else []) ++ rows.map (encode L)

def bodyText (L : Lib) (o : Config.CSVOptions) (cols : List Tabular.Column) (rows : List (List Val)) : Bytes :=
  (records L o cols rows).flatMap (recordText (utf8Enc (cfg o).comma))

/-- **C25**: with a usable separator every row is accepted and becomes one record. -/
theorem C25_written (L : Lib) (o : Config.CSVOptions) (cols : List Tabular.Column) (rows : List (List Val)) (hv : validDelim (cfg o).comma = true) :
    Accepts (writer L o) (header o cols) (rows.map rowEntry) (bodyText L o cols rows) := by
  have H : ∀ out, Accepts (writer L o) out (rows.map rowEntry) (out ++ (rows.map (encode L)).flatMap (recordText (utf8Enc (cfg o).comma))) := by
    induction rows with
    | nil => intro out; simpa using Accepts.nil out
    | cons r rows ih =>
      intro out
      refine .cons (t₁ := out ++ recordText (utf8Enc (cfg o).comma) (encode L r)) ?_ ?_
      · simp [writer, rowEntry, writeRecord, hv]
      · have := ih (out ++ recordText (utf8Enc (cfg o).comma) (encode L r))
        simpa [List.flatMap_cons, List.append_assoc] using this
  have := H (header o cols)
  have e : bodyText L o cols rows = header o cols ++ (rows.map (encode L)).flatMap (recordText (utf8Enc (cfg o).comma)) := by
    unfold bodyText records header
    split <;> simp [writeRecord, hv]
  rw [e]; exact this

theorem univ_flatMap {sep : Bytes} (h : Csv.SepOK sep) (rs : List (List Bytes)) :
    univ (rs.flatMap (recordText sep)) = (rs.map fun fs => fs.map univ).flatMap (recordText sep) := by
  induction rs with
  | nil => rfl
  | cons fs rs ih => rw [List.flatMap_cons, Csv.univ_recordText h, ih]; simp [List.flatMap_cons]

theorem rect_univ {n : Int} {rs : List (List Bytes)} (h : Rect n rs) : Rect n (rs.map fun fs => fs.map univ) := by
  rcases h with h | ⟨k, h, h'⟩
  · exact .inl h
  · refine .inr ⟨k, h, ?_⟩
    intro fs hf hb
    obtain ⟨gs, hg, rfl⟩ := List.mem_map.mp hf
    rw [Csv.blank_univ] at hb
    simpa using h' gs hg hb

theorem filter_univ (rs : List (List Bytes)) : (rs.map fun fs => fs.map univ).filter (fun fs => !blank fs) = (rs.filter fun fs => !blank fs).map fun fs => fs.map univ := by
  rw [List.filter_map]
  congr 1
  refine List.filter_congr ?_
  intro fs _
  simp [Csv.blank_univ]

/-- **C25, closed form**: what is read back from a body that was written.  Records that are empty, or one empty cell, are lost; of the
others the first is taken for the header if one is configured (so a lost header costs the first row); the rest are delivered in order,
with every end of line inside a cell turned into a line feed and the cells typed anew.  The body goes through the carriage return
repair in reads of any sizes, none of which ends in a carriage return. -/
theorem C25_closed_form (L : Lib) (o : Config.CSVOptions) (cols : List Tabular.Column) (types : List Bytes) (rows : List (List Val)) (ks : List Nat)
    (hv : validDelim (cfg o).comma = true)
    (hrect : o.variadicFields = true ∨ ∃ k : Nat, ∀ fs ∈ records L o cols rows, blank fs = false → fs.length = k)
    (hall : (ReplaceCr.reads true ks (bodyText L o cols rows)).2 = [])
    (hcr : ∀ j, (ReplaceCr.read true (ks.getD j 0) (ReplaceCr.reads true (ks.take j) (bodyText L o cols rows)).2).1.getLast? ≠ some 13) :
    ∃ st', Drains (reader L o types) (start o (ReplaceCr.reads true ks (bodyText L o cols rows)).1)
      ((((records L o cols rows).filter fun fs => !blank fs).drop (if o.headerRow then 1 else 0)).map fun fs =>
        rowEntry (decode L types (fs.map univ))) .eof st' := by
  rw [ReplaceCr.C26_reads_repair true ks _ hall hcr]
  unfold start
  rw [Csv.norm_fix]
  have hr : Rect (if o.variadicFields then -1 else 0) (records L o cols rows) := by
    rcases hrect with h | ⟨k, h⟩
    · left; rw [if_pos h]; decide
    · cases o.variadicFields with
      | true => left; decide
      | false => exact .inr ⟨k, .inl rfl, h⟩
  have e : univ (bodyText L o cols rows) = ((records L o cols rows).map fun fs => fs.map univ).flatMap (recordText (utf8Enc (cfg o).comma)) :=
    univ_flatMap (Csv.sepOK_of_valid hv) _
  rw [e]
  obtain ⟨st', h⟩ := drains_all L o types hv _ _ (rect_univ hr)
  refine ⟨st', ?_⟩
  rw [filter_univ, ← List.map_drop, List.map_map] at h
  exact h

/-! typed rows -/

/-- values that a cell of a column of type `t` brings back -/
def Fits (L : Lib) (t : Bytes) : Val → Prop
  | .null => t = b!"null"
  | .bool _ => t = b!"boolean"
  | .int i => t = b!"integer" ∧ IsInt64 i
  | .f64 x => t = b!"number" ∧ L.parse64 (L.fmtF x) = some x ∧ L.fmtF x ≠ [] ∧ (13 : UInt8) ∉ L.fmtF x
  | .str s => (∀ v, ¬ Literal L t s v) ∧ (13 : UInt8) ∉ s
  | .arr l => t = b!"array" ∧ Kept L.F (.arr l) ∧ depth (.arr l) ≤ maxDepth
  | .obj m => t = b!"object" ∧ Kept L.F (.obj m) ∧ depth (.obj m) ≤ maxDepth
  | .gint _ => False
  | .bytes _ => False

theorem unmarshal_kept {F : FloatCodec} {v : Val} (h : Kept F v) (hd : depth v ≤ maxDepth) : unmarshal F (enc F v) = some v := by
  obtain ⟨h1, h2, _⟩ := kept_norm F v h
  have := unmarshal_enc F v [] h2 hd (by intro c hc; simp at hc)
  rwa [List.append_nil, h1] at this

/-- **C25**: a cell that fits its column comes back as it was. -/
theorem C25_cell (L : Lib) (t : Bytes) (v : Val) (h : Fits L t v) : decodeCell L t (encodeCell L v) = v := by
  cases v with
  | null => exact (C24_cell L t _).1 _ (.inr (.inr (.inr (.inr (.inr ⟨h, rfl⟩)))))
  | bool b =>
    refine (C24_cell L t _).1 _ (.inr (.inr (.inl ⟨h, b, ?_, rfl⟩)))
    cases b
    · right; right; right; left; rfl
    · right; right; right; left; rfl
  | int i =>
    refine (C24_cell L t _).1 _ (.inl ⟨h.1, i, ?_, rfl⟩)
    rw [encodeCell, ← parseInteger_iff, Vals.parseInteger_eq, atoi_fmtInt i h.2]
  | f64 x => exact (C24_cell L t _).1 _ (.inr (.inl ⟨h.1, x, h.2.1, rfl⟩))
  | str s => exact (C24_cell L t _).2 h.1
  | arr l =>
    refine (C24_cell L t _).1 _ (.inr (.inr (.inr (.inr (.inl ⟨h.1, .inl ⟨l, ?_, rfl⟩⟩)))))
    rw [encodeCell, marshalOrEmpty, if_pos (kept_norm L.F _ h.2.1).2.2]
    exact unmarshal_kept h.2.1 h.2.2
  | obj m =>
    refine (C24_cell L t _).1 _ (.inr (.inr (.inr (.inl ⟨h.1, .inl ⟨m, ?_, rfl⟩⟩))))
    rw [encodeCell, marshalOrEmpty, if_pos (kept_norm L.F _ h.2.1).2.2]
    exact unmarshal_kept h.2.1 h.2.2
  | gint _ => exact h.elim
  | bytes _ => exact h.elim

theorem fmtInt_nocr (i : Int) : (13 : UInt8) ∉ fmtInt i := by
  intro h
  have := numeral_vis (fmtInt_numeral i) _ h
  revert this; decide

theorem cell_nocr (L : Lib) (t : Bytes) (v : Val) (h : Fits L t v) : (13 : UInt8) ∉ encodeCell L v := by
  have hk : ∀ v, Kept L.F v → (13 : UInt8) ∉ marshalOrEmpty L.F v := by
    intro v hv hm
    obtain ⟨_, h2, h3⟩ := kept_norm L.F v hv
    rw [marshalOrEmpty, if_pos h3] at hm
    have := enc_vis L.F v h2 _ hm
    revert this; decide
  cases v with
  | null => simp [encodeCell]
  | bool b => cases b <;> simp [encodeCell]
  | int i => exact fmtInt_nocr i
  | f64 x => exact h.2.2.2
  | str s => exact h.2
  | arr l => exact hk _ h.2.1
  | obj m => exact hk _ h.2.1
  | gint _ => exact h.elim
  | bytes _ => exact h.elim

theorem cell_empty (L : Lib) (t : Bytes) (v : Val) (h : Fits L t v) : encodeCell L v = [] ↔ v = .null ∨ v = .str [] := by
  cases v with
  | null => simp [encodeCell]
  | bool b => cases b <;> simp [encodeCell]
  | int i =>
    simp only [encodeCell, reduceCtorEq, or_self, iff_false]
    intro e
    have := atoi_fmtInt i h.2
    rw [e] at this
    simp [atoi] at this
  | f64 x => simpa [encodeCell] using h.2.2.1
  | str s => simp [encodeCell]
  | arr l => simp [encodeCell, marshalOrEmpty, (kept_norm L.F _ h.2.1).2.2, enc]
  | obj m => simp [encodeCell, marshalOrEmpty, (kept_norm L.F _ h.2.1).2.2, enc]
  | gint _ => exact h.elim
  | bytes _ => exact h.elim

/-- a row whose cells fit the columns -/
inductive RowFits (L : Lib) : List Bytes → List Val → Prop
  | nil (types : List Bytes) : RowFits L types []
  | cons {t : Bytes} {types : List Bytes} {v : Val} {vs : List Val} : Fits L t v → RowFits L types vs → RowFits L (t :: types) (v :: vs)

theorem rowFits_length {L : Lib} {types : List Bytes} {row : List Val} (h : RowFits L types row) : row.length ≤ types.length := by
  induction h with
  | nil => simp
  | cons _ _ ih => simp; exact ih

theorem rowFits_fits {L : Lib} {types : List Bytes} {row : List Val} (h : RowFits L types row) : ∀ v ∈ row, ∃ t, Fits L t v := by
  induction h with
  | nil => simp
  | cons h _ ih =>
    intro v hv
    simp only [List.mem_cons] at hv
    rcases hv with rfl | hv
    · exact ⟨_, h⟩
    · exact ih v hv

/-- **C25**: a row that fits comes back as it was. -/
theorem C25_row (L : Lib) (types : List Bytes) (row : List Val) (h : RowFits L types row) : decode L types (encode L row) = row := by
  have hl := rowFits_length h
  unfold decode
  rw [if_neg (by simp [encode]; exact hl)]
  clear hl
  induction h with
  | nil types => cases types <;> rfl
  | cons h _ ih =>
    simp only [encode, List.map_cons, decodeCells] at ih ⊢
    rw [C25_cell L _ _ h, ih]

/-- what does not disappear: at least one cell, and not just one empty one -/
def Visible (row : List Val) : Prop := row ≠ [] ∧ row ≠ [.null] ∧ row ≠ [.str []]

theorem blank_visible {L : Lib} {types : List Bytes} {row : List Val} (h : RowFits L types row) : blank (encode L row) = false ↔ Visible row := by
  cases h with
  | nil => simp [encode, blank, Visible]
  | cons h h' =>
    rename_i t types v vs
    cases vs with
    | nil => simp [encode, blank, Visible, cell_empty L t v h]
    | cons => simp [encode, blank, Visible]

theorem recordText_nocr {sep : Bytes} (h : Csv.SepOK sep) {fs : List Bytes} (hf : ∀ f ∈ fs, (13 : UInt8) ∉ f) : (13 : UInt8) ∉ recordText sep fs := by
  have hd : ∀ f : Bytes, (13 : UInt8) ∉ f → (13 : UInt8) ∉ Csv.dbl f := by
    intro f hf
    induction f with
    | nil => simp [Csv.dbl]
    | cons c f ih =>
      simp only [List.mem_cons, not_or] at hf
      rw [Csv.dbl]
      split <;> simp [ih hf.2, hf.1]
  have ht : ∀ f : Bytes, (13 : UInt8) ∉ f → (13 : UInt8) ∉ Csv.fieldText sep f := by
    intro f hf
    unfold Csv.fieldText
    split
    · simp [hd f hf]
    · exact hf
  have hj : (13 : UInt8) ∉ Csv.joined sep fs := by
    induction fs with
    | nil => simp [Csv.joined]
    | cons f fs ih =>
      cases fs with
      | nil => exact ht f (hf f (by simp))
      | cons g gs =>
        rw [Csv.joined]
        · simp only [List.mem_append, not_or]
          exact ⟨⟨ht f (hf f (by simp)), h.cr⟩, ih (fun f' hf' => hf f' (by simp [hf']))⟩
        · simp
  simp [recordText, hj]

/-- **C25**: rows of the width of the table that fit their columns and do not disappear come back exactly, in order, with or without
a header, whatever the (usable) separator and the sizes of the reads. -/
theorem C25_round_trip (L : Lib) (o : Config.CSVOptions) (cols : List Tabular.Column) (types : List Bytes) (rows : List (List Val)) (ks : List Nat)
    (hv : validDelim (cfg o).comma = true) (hcols : cols.length = types.length)
    (hrows : ∀ row ∈ rows, RowFits L types row ∧ Visible row ∧ (o.variadicFields = true ∨ row.length = types.length))
    (hhead : o.headerRow = true → (∀ c ∈ cols, (13 : UInt8) ∉ c.title) ∧ blank (Tabular.titles cols) = false)
    (hks : (bodyText L o cols rows).length ≤ ks.sum) :
    Accepts (writer L o) (header o cols) (rows.map rowEntry) (bodyText L o cols rows) ∧
    ∃ st', Drains (reader L o types) (start o (ReplaceCr.reads true ks (bodyText L o cols rows)).1) (rows.map rowEntry) .eof st' := by
  refine ⟨C25_written L o cols rows hv, ?_⟩
  have hnocr : ∀ fs ∈ records L o cols rows, ∀ f ∈ fs, (13 : UInt8) ∉ f := by
    intro fs hfs f hf
    simp only [records, List.mem_append] at hfs
    rcases hfs with hfs | hfs
    · by_cases hh : o.headerRow = true
      · rw [if_pos hh, List.mem_singleton] at hfs
        subst hfs
        obtain ⟨c, hc, rfl⟩ := List.mem_map.mp hf
        exact (hhead hh).1 c hc
      · rw [if_neg hh] at hfs; simp at hfs
    · obtain ⟨row, hrow, rfl⟩ := List.mem_map.mp hfs
      obtain ⟨v, hvv, rfl⟩ := List.mem_map.mp hf
      obtain ⟨t, ht⟩ := rowFits_fits (hrows row hrow).1 v hvv
      exact cell_nocr L t v ht
  have hbody : (13 : UInt8) ∉ bodyText L o cols rows := by
    intro h
    obtain ⟨fs, hfs, h⟩ := List.mem_flatMap.mp h
    exact recordText_nocr (Csv.sepOK_of_valid hv) (hnocr fs hfs) h
  have hclean : ReplaceCr.Clean true (bodyText L o cols rows) := by
    intro u v e
    exact absurd (by rw [e]; simp) hbody
  rw [(ReplaceCr.C26_transparent true _ hclean ks).2 hks]
  unfold start
  rw [Csv.norm_nocr hbody]
  have hr : Rect (if o.variadicFields then -1 else 0) (records L o cols rows) := by
    by_cases hvf : o.variadicFields = true
    · left; rw [if_pos hvf]; decide
    · rw [if_neg hvf]
      refine .inr ⟨types.length, .inl rfl, ?_⟩
      intro fs hfs _
      simp only [records, List.mem_append] at hfs
      rcases hfs with hfs | hfs
      · by_cases hh : o.headerRow = true
        · rw [if_pos hh, List.mem_singleton] at hfs
          subst hfs
          simp [Tabular.titles, hcols]
        · rw [if_neg hh] at hfs; simp at hfs
      · obtain ⟨row, hrow, rfl⟩ := List.mem_map.mp hfs
        rcases (hrows row hrow).2.2 with h | h
        · exact absurd h hvf
        · simpa [encode] using h
  obtain ⟨st', h⟩ := drains_all L o types hv _ _ hr
  refine ⟨st', ?_⟩
  have e : ((((records L o cols rows).filter fun fs => !blank fs).drop (if o.headerRow then 1 else 0)).map fun fs => rowEntry (decode L types fs)) =
      rows.map rowEntry := by
    have e1 : (records L o cols rows).filter (fun fs => !blank fs) = records L o cols rows := by
      rw [List.filter_eq_self]
      intro fs hfs
      simp only [records, List.mem_append] at hfs
      rcases hfs with hfs | hfs
      · by_cases hh : o.headerRow = true
        · rw [if_pos hh, List.mem_singleton] at hfs
          rw [hfs, (hhead hh).2]; rfl
        · rw [if_neg hh] at hfs; simp at hfs
      · obtain ⟨row, hrow, rfl⟩ := List.mem_map.mp hfs
        rw [(blank_visible (hrows row hrow).1).2 (hrows row hrow).2.1]; rfl
    have e2 : (records L o cols rows).drop (if o.headerRow then 1 else 0) = rows.map (encode L) := by
      unfold records; split <;> simp
    rw [e1, e2, List.map_map]
    refine List.map_congr_left ?_
    intro row hrow
    simp only [Function.comp, C25_row L types row (hrows row hrow).1]
  rw [e] at h
  exact h

/-! what is lost -/

theorem univ_no_cr (s : Bytes) : (13 : UInt8) ∉ univ s := by
  induction s with
  | nil => simp [univ]
  | cons c s ih =>
    rw [univ]
    split
    · split
      · exact ih
      · simp [ih]
    · rename_i hc
      simp only [List.mem_cons, not_or]
      exact ⟨fun e => hc e.symm, ih⟩

/-- **C25**: a carriage return in a cell never comes back. -/
theorem C25_carriage_return_lost (s : Bytes) : univ s = s ↔ (13 : UInt8) ∉ s :=
  ⟨fun h => by rw [← h]; exact univ_no_cr s, Csv.univ_nocr⟩

/-- one read that takes everything satisfies the conditions on reads -/
theorem one_big_read (t : Bytes) (k : Nat) (h : 2 * t.length < k) (hl : (ReplaceCr.fix true t).getLast? ≠ some 13) :
    (ReplaceCr.reads true [k] t).2 = [] ∧
    ∀ j, (ReplaceCr.read true ([k].getD j 0) (ReplaceCr.reads true ([k].take j) t).2).1.getLast? ≠ some 13 := by
  have h1 := ReplaceCr.C26_one_read true t k h
  refine ⟨by simp [ReplaceCr.reads, h1], ?_⟩
  intro j
  cases j with
  | zero => simpa [ReplaceCr.reads, h1] using hl
  | succ j => simp [ReplaceCr.read]

theorem fix_last (t : Bytes) : (ReplaceCr.fix true t).getLast? ≠ some 13 := by
  induction t with
  | nil => simp [ReplaceCr.fix]
  | cons c t ih =>
    have hne : ∀ t, ReplaceCr.fix true t = [] → t = [] := by
      intro t h
      cases t with
      | nil => rfl
      | cons d t => rw [ReplaceCr.fix_cons] at h; split at h <;> simp at h
    have ap : ∀ d : UInt8, (d :: ReplaceCr.fix true t).getLast? = some 13 → ReplaceCr.fix true t = [] ∧ d = 13 := by
      intro d h
      cases hf : ReplaceCr.fix true t with
      | nil => rw [hf] at h; simp at h; exact ⟨rfl, h⟩
      | cons e u =>
        rw [hf] at h ih
        rw [List.getLast?_cons_cons] at h
        exact absurd h ih
    rw [ReplaceCr.fix_cons]
    split
    · intro h
      rw [List.getLast?_cons_cons] at h
      exact absurd (ap 10 h).2 (by decide)
    · rename_i hc
      intro h
      obtain ⟨h1, rfl⟩ := ap c h
      have := hne t h1
      subst this
      simp [ReplaceCr.lone] at hc

/-- **C25**: in particular this is what a reader with a large enough buffer delivers. -/
theorem C25_one_read (L : Lib) (o : Config.CSVOptions) (cols : List Tabular.Column) (types : List Bytes) (rows : List (List Val)) (k : Nat)
    (hv : validDelim (cfg o).comma = true)
    (hrect : o.variadicFields = true ∨ ∃ k : Nat, ∀ fs ∈ records L o cols rows, blank fs = false → fs.length = k)
    (hk : 2 * (bodyText L o cols rows).length < k) :
    ∃ st', Drains (reader L o types) (start o (ReplaceCr.reads true [k] (bodyText L o cols rows)).1)
      ((((records L o cols rows).filter fun fs => !blank fs).drop (if o.headerRow then 1 else 0)).map fun fs =>
        rowEntry (decode L types (fs.map univ))) .eof st' := by
  obtain ⟨h1, h2⟩ := one_big_read (bodyText L o cols rows) k hk (fix_last _)
  exact C25_closed_form L o cols types rows [k] hv hrect h1 h2

/-- **C25**: every row that is empty or holds one empty cell is lost: as many entries are missing as there are such rows. -/
theorem C25_blank_rows_lost (L : Lib) (o : Config.CSVOptions) (cols : List Tabular.Column) (types : List Bytes) (rows : List (List Val)) (k : Nat)
    (hv : validDelim (cfg o).comma = true) (hh : o.headerRow = false)
    (hrect : o.variadicFields = true ∨ ∃ k : Nat, ∀ row ∈ rows, blank (encode L row) = false → row.length = k)
    (hk : 2 * (bodyText L o cols rows).length < k) :
    ∃ es st', Drains (reader L o types) (start o (ReplaceCr.reads true [k] (bodyText L o cols rows)).1) es .eof st' ∧
      es.length + (rows.filter fun row => blank (encode L row)).length = rows.length := by
  have hrec : records L o cols rows = rows.map (encode L) := by simp [records, hh]
  have hrect' : o.variadicFields = true ∨ ∃ k : Nat, ∀ fs ∈ records L o cols rows, blank fs = false → fs.length = k := by
    rcases hrect with h | ⟨k, h⟩
    · exact .inl h
    · refine .inr ⟨k, ?_⟩
      intro fs hfs hb
      rw [hrec] at hfs
      obtain ⟨row, hrow, rfl⟩ := List.mem_map.mp hfs
      simpa [encode] using h row hrow hb
  obtain ⟨st', h⟩ := C25_one_read L o cols types rows k hv hrect' hk
  refine ⟨_, st', h, ?_⟩
  rw [hrec, hh]
  simp only [Bool.false_eq_true, if_false, List.drop_zero, List.length_map]
  clear hrec hrect' h hrect hk
  induction rows with
  | nil => rfl
  | cons r rows ih =>
    cases hb : blank (encode L r) with
    | true =>
      rw [List.map_cons, List.filter_cons_of_neg (by simp [hb]), List.filter_cons_of_pos (by simp [hb])]
      simp only [List.length_cons]; omega
    | false =>
      rw [List.map_cons, List.filter_cons_of_pos (by simp [hb]), List.filter_cons_of_neg (by simp [hb])]
      simp only [List.length_cons]; omega

/-- **C25**: a header of no titles, or of one empty title, is not seen by the reader, which takes the first visible row for the header. -/
theorem C25_lost_header (L : Lib) (o : Config.CSVOptions) (cols : List Tabular.Column) (types : List Bytes) (row : List Val) (rows : List (List Val)) (k : Nat)
    (hv : validDelim (cfg o).comma = true) (hh : o.headerRow = true) (hb : blank (Tabular.titles cols) = true)
    (hrows : ∀ r ∈ row :: rows, RowFits L types r ∧ Visible r ∧ r.length = types.length)
    (hk : 2 * (bodyText L o cols (row :: rows)).length < k) :
    ∃ st', Drains (reader L o types) (start o (ReplaceCr.reads true [k] (bodyText L o cols (row :: rows))).1) (rows.map rowEntry) .eof st' := by
  have hrec : (records L o cols (row :: rows)).filter (fun fs => !blank fs) = encode L row :: rows.map (encode L) := by
    simp only [records, hh, if_true, List.map_cons]
    rw [List.singleton_append, List.filter_cons_of_neg (by simp [hb]), ← List.map_cons, List.filter_eq_self]
    intro fs hfs
    obtain ⟨r, hr, rfl⟩ := List.mem_map.mp hfs
    rw [(blank_visible (hrows r hr).1).2 (hrows r hr).2.1]; rfl
  have hrect : o.variadicFields = true ∨ ∃ k : Nat, ∀ fs ∈ records L o cols (row :: rows), blank fs = false → fs.length = k := by
    refine .inr ⟨types.length, ?_⟩
    intro fs hfs hb'
    have : fs ∈ (records L o cols (row :: rows)).filter (fun fs => !blank fs) := by simp [hfs, hb']
    rw [hrec, ← List.map_cons] at this
    obtain ⟨r, hr, rfl⟩ := List.mem_map.mp this
    simpa [encode] using (hrows r hr).2.2
  obtain ⟨st', h⟩ := C25_one_read L o cols types (row :: rows) k hv hrect hk
  refine ⟨st', ?_⟩
  rw [hrec, hh] at h
  simp only [if_true, List.drop_succ_cons, List.drop_zero, List.map_map] at h
  have e : rows.map rowEntry = rows.map ((fun fs => rowEntry (decode L types (fs.map univ))) ∘ encode L) := by
    refine List.map_congr_left ?_
    intro r hr
    have hf := (hrows r (by simp [hr])).1
    have hu : (encode L r).map univ = encode L r := by
      have hm : ∀ l : List Bytes, (∀ f ∈ l, univ f = f) → l.map univ = l := by
        intro l
        induction l with
        | nil => simp
        | cons a l ih =>
          intro h
          rw [List.map_cons, h a (by simp), ih (fun f hf => h f (by simp [hf]))]
      refine hm _ ?_
      intro f hf'
      obtain ⟨v, hvv, rfl⟩ := List.mem_map.mp hf'
      obtain ⟨t, ht⟩ := rowFits_fits hf v hvv
      exact Csv.univ_nocr (cell_nocr L t v ht)
    simp only [Function.comp, hu, C25_row L types r hf]
  rw [e]
  exact h

/-- **C25**: null written to any column but one of nulls comes back as something else. -/
theorem C25_null_lost (L : Lib) (t : Bytes) (h : t ≠ b!"null") : decodeCell L t (encodeCell L .null) ≠ .null := by
  have hu : unmarshal L.F [] = none := by
    unfold unmarshal
    rfl
  rw [encodeCell]
  unfold decodeCell unmarshalObject unmarshalArray
  split
  · cases L.parse64 [] <;> simp
  split
  · cases Vals.parseInteger [] <;> simp
  split
  · cases Vals.parseBool [] <;> simp
  split
  · simp [hu]
  split
  · simp [hu]
  · simp

/-- **C25**: text that happens to be a literal of the column's type comes back as the value. -/
theorem C25_text_retyped (L : Lib) (t s : Bytes) (v : Val) (h : Literal L t s v) : decodeCell L t (encodeCell L (.str s)) = v :=
  (C24_cell L t s).1 v h

/-- **C25**: a platform integer comes back as a 64-bit integer; byte strings, infinities inside arrays and the like leave nothing. -/
theorem C25_other_cells (L : Lib) (i : Int) (s : Bytes) (l : List Val) (h : jsonOK (.arr l) = false) :
    encodeCell L (.gint i) = encodeCell L (.int i) ∧ encodeCell L (.bytes s) = [] ∧ encodeCell L (.arr l) = [] := by
  refine ⟨rfl, rfl, ?_⟩
  simp [encodeCell, marshalOrEmpty, h]

/-- **C25**: without `variadicFields` the first record fixes the width: a later record of another width is an error. -/
theorem C25_ragged (L : Lib) (o : Config.CSVOptions) (types : List Bytes) (fs gs : List Bytes) (r : Bytes)
    (hv : validDelim (cfg o).comma = true) (hh : o.headerRow = false) (hvf : o.variadicFields = false)
    (hf : blank fs = false) (hg : blank gs = false) (hl : fs.length ≠ gs.length) (hcr : (13 : UInt8) ∉ recordText (utf8Enc (cfg o).comma) fs ++ (recordText (utf8Enc (cfg o).comma) gs ++ r)) :
    ∃ st', Drains (reader L o types) (start o (recordText (utf8Enc (cfg o).comma) fs ++ (recordText (utf8Enc (cfg o).comma) gs ++ r)))
      [rowEntry (decode L types fs)] (.other b!"csv") st' ∧ st'.csv.rest = r := by
  have hpos : ∀ l : List Bytes, blank l = false → 0 < l.length := by
    intro l hl
    cases l with
    | nil => simp [blank] at hl
    | cons => simp
  have hp := hpos fs hf
  have h1 := Csv.read_written hv hf (recordText (utf8Enc (cfg o).comma) gs ++ r) 0
  have h2 := Csv.read_written hv hg r (fs.length : Int)
  rw [if_neg (by omega), if_pos rfl] at h1
  rw [if_pos ⟨by omega, by omega⟩, if_neg (by omega)] at h2
  let st₁ : RState := { readHeader := true, csv := { rest := recordText (utf8Enc (cfg o).comma) gs ++ r, fpr := (fs.length : Int) } }
  refine ⟨{ readHeader := true, csv := { rest := r, fpr := (fs.length : Int) } }, ⟨st₁, .cons (s₁ := st₁) ?_ (.nil _), ?_⟩, rfl⟩
  · unfold start
    rw [Csv.norm_nocr hcr, hvf]
    simp only [reader, hh, Bool.and_false, Bool.false_eq_true, if_false, readRow, h1]
    rfl
  · simp only [st₁, reader, Bool.not_true, Bool.false_and, Bool.false_eq_true, if_false, readRow, h2]
    rfl

/-- **C25**: a quote, carriage return or line feed as separator can neither be written nor read: every entry is refused, and every read
is an error that is not the end. -/
theorem C25_unusable_separator (L : Lib) (o : Config.CSVOptions) (cols : List Tabular.Column) (types : List Bytes) (hv : validDelim (cfg o).comma = false) :
    header o cols = [] ∧ (∀ e out, (writer L o e out).1 ≠ none ∧ (writer L o e out).2 = out) ∧
    ∀ st, (reader L o types st).1 = .fail (.other b!"csv") := by
  refine ⟨by simp [header, writeRecord, hv], ?_, ?_⟩
  · intro e out
    unfold writer
    split <;> simp [writeRecord, hv]
  · intro st
    unfold reader
    have h : ∀ c, Csv.read (cfg o) c = (.error .invalidDelim, c) := by intro c; simp [Csv.read, hv]
    split
    · simp [h, failure]
    · simp [readRow, h, failure]

/-- **C25**: which separators those are: a separator given in the options is one byte, standing for the character of that number. -/
theorem C25_separators (c : UInt8) (o : Config.CSVOptions) (h : o.separator = c.toNat) :
    validDelim (cfg o).comma = true ↔ c ≠ 34 ∧ c ≠ 13 ∧ c ≠ 10 := by
  have hc := c.toNat_lt
  have e34 : c = 34 ↔ c.toNat = 34 := by rw [← UInt8.toNat_inj]; rfl
  have e13 : c = 13 ↔ c.toNat = 13 := by rw [← UInt8.toNat_inj]; rfl
  have e10 : c = 10 ↔ c.toNat = 10 := by rw [← UInt8.toNat_inj]; rfl
  unfold cfg
  by_cases h0 : o.separator = 0
  · have : c.toNat = 0 := by omega
    simp only [h0, if_true, ne_eq, e34, e13, e10, this]
    decide
  · rw [if_neg h0, h, Int.toNat_natCast]
    have hne : c.toNat ≠ 0 := by omega
    have hv : ValidRune c.toNat := by unfold ValidRune; omega
    have hr : c.toNat ≠ runeError := by unfold runeError; omega
    simp [validDelim, hne, hv, hr, e34, e13, e10, and_assoc]

/-- **C25**: only arrays can be written; a refused entry leaves no trace. -/
theorem C25_refused (L : Lib) (o : Config.CSVOptions) (e : Entry) (out : Bytes) (hv : validDelim (cfg o).comma = true) :
    ((writer L o e out).1 = none ↔ ∃ vs, e.value = .arr vs) ∧ ((writer L o e out).1 ≠ none → (writer L o e out).2 = out) := by
  unfold writer
  cases e.value <;> simp [writeRecord, hv]

/-- **C25**: a header that cannot be read is reported, but the following record is then taken for the header: a good row is lost. -/
theorem C25_header_error_costs_a_row (L : Lib) :
    ∃ st', (reader L { headerRow := true } [b!"integer"] (start { headerRow := true } b!"a\"b\n1\n2\n")) = (.fail (.other b!"csv"), st') ∧
      ∃ st'', Drains (reader L { headerRow := true } [b!"integer"]) st' [rowEntry [.int 2]] .eof st'' := by
  have h1 : Csv.read (cfg { headerRow := true }) { rest := b!"a\"b\n1\n2\n", fpr := 0 } = (.error .bareQuote, { rest := b!"1\n2\n", fpr := 0 }) := by decide +kernel
  have h2 : Csv.read (cfg { headerRow := true }) { rest := b!"1\n2\n", fpr := 0 } = (.ok [b!"1"], { rest := b!"2\n", fpr := 1 }) := by decide +kernel
  have h3 : Csv.read (cfg { headerRow := true }) { rest := b!"2\n", fpr := 1 } = (.ok [b!"2"], { rest := [], fpr := 1 }) := by decide +kernel
  have h4 : Csv.read (cfg { headerRow := true }) { rest := [], fpr := 1 } = (.error .eof, { rest := [], fpr := 1 }) := by decide +kernel
  have h5 : decode L [b!"integer"] [b!"2"] = [.int 2] := by
    refine C25_row L [b!"integer"] [.int 2] (.cons ⟨rfl, by decide⟩ (.nil _))
  refine ⟨{ readHeader := false, csv := { rest := b!"1\n2\n", fpr := 0 } }, ?_, { readHeader := true, csv := { rest := [], fpr := 1 } },
    { readHeader := true, csv := { rest := [], fpr := 1 } }, .cons ?_ (.nil _), ?_⟩
  · have : start { headerRow := true } b!"a\"b\n1\n2\n" = { csv := { rest := b!"a\"b\n1\n2\n", fpr := 0 } } := by decide +kernel
    rw [this]
    simp only [reader, Bool.not_false, Bool.and_self, if_true, h1, failure]
  · simp only [reader, Bool.not_false, Bool.and_self, if_true, h2, readRow, h3, h5, rowEntry]
  · simp only [reader, Bool.not_true, Bool.false_and, Bool.false_eq_true, if_false, readRow, h4, failure]

/-! ## C57: reading ends -/

/-- the state after `n` calls, whatever they return -/
def after {σ : Type} (rd : Reader σ) : Nat → σ → σ
  | 0, s => s
  | n + 1, s => after rd n (rd s).2

theorem failure_eof {e : Csv.Err} : failure e = .eof ↔ e = .eof := by cases e <;> simp [failure]

theorem readRow_progress (L : Lib) (o : Config.CSVOptions) (types : List Bytes) (hv : validDelim (cfg o).comma = true) (c : Csv.RState) :
    ((readRow L o types c).1 = .fail .eof ∧ (readRow L o types c).2.csv.rest = []) ∨ (readRow L o types c).2.csv.rest.length < c.rest.length := by
  have h := Csv.read_progress hv c
  unfold readRow
  cases hr : Csv.read (cfg o) c with
  | mk a c' =>
    rw [hr] at h
    cases a with
    | error e =>
      rcases h with ⟨h, h'⟩ | h
      · left
        simp only [Except.error.injEq] at h
        exact ⟨by simp [h, failure], h'⟩
      · right; exact h
    | ok fs =>
      rcases h with ⟨h, _⟩ | h
      · cases h
      · right; exact h

/-- **C57**: every call takes at least one byte of the text, or says that the end is reached. -/
theorem C57_progress (L : Lib) (o : Config.CSVOptions) (types : List Bytes) (hv : validDelim (cfg o).comma = true) (st : RState) :
    ((reader L o types st).1 = .fail .eof ∧ (reader L o types st).2.csv.rest = []) ∨
      (reader L o types st).2.csv.rest.length < st.csv.rest.length := by
  unfold reader
  split
  · have h := Csv.read_progress hv st.csv
    cases hr : Csv.read (cfg o) st.csv with
    | mk a c' =>
      rw [hr] at h
      cases a with
      | error e =>
        rcases h with ⟨h, h'⟩ | h
        · left
          simp only [Except.error.injEq] at h
          exact ⟨by simp [h, failure], h'⟩
        · right; exact h
      | ok fs =>
        rcases h with ⟨h, _⟩ | h
        · cases h
        · have h2 := readRow_progress L o types hv c'
          simp only at h h2 ⊢
          rcases h2 with h2 | h2
          · exact .inl h2
          · right; omega
  · exact readRow_progress L o types hv st.csv

/-- **C57**: whatever the text, and whatever errors come on the way, the end is reported after at most as many calls as the text has bytes. -/
theorem C57_reading_ends (L : Lib) (o : Config.CSVOptions) (types : List Bytes) (hv : validDelim (cfg o).comma = true) (st : RState) :
    ∃ n ≤ st.csv.rest.length, (reader L o types (after (reader L o types) n st)).1 = .fail .eof := by
  suffices H : ∀ k (st : RState), st.csv.rest.length ≤ k → ∃ n ≤ st.csv.rest.length, (reader L o types (after (reader L o types) n st)).1 = .fail .eof from
    H _ st (Nat.le_refl _)
  intro k
  induction k with
  | zero =>
    intro st hk
    refine ⟨0, by omega, ?_⟩
    rcases C57_progress L o types hv st with h | h
    · exact h.1
    · omega
  | succ k ih =>
    intro st hk
    rcases C57_progress L o types hv st with h | h
    · exact ⟨0, by omega, h.1⟩
    · obtain ⟨n, hn, hr⟩ := ih (reader L o types st).2 (by omega)
      exact ⟨n + 1, by omega, hr⟩

/-- **C57**: and stays reported. -/
theorem C57_end_is_final (L : Lib) (o : Config.CSVOptions) (types : List Bytes) (st : RState) (h : (reader L o types st).1 = .fail .eof) (n : Nat) :
    (reader L o types (after (reader L o types) n (reader L o types st).2)).1 = .fail .eof := by
  by_cases hv : validDelim (cfg o).comma = true
  · have key : ∀ st : RState, st.csv.rest = [] → (reader L o types st).1 = .fail .eof ∧ (reader L o types st).2.csv.rest = [] := by
      intro st hs
      rcases C57_progress L o types hv st with h | h
      · exact h
      · rw [hs] at h; simp at h
    have h0 : (reader L o types st).2.csv.rest = [] := by
      have row : ∀ c, (readRow L o types c).1 = .fail .eof → (readRow L o types c).2.csv.rest = [] := by
        intro c hc
        unfold readRow at hc ⊢
        have hp := Csv.read_eof (cfg o) c
        cases hr : Csv.read (cfg o) c with
        | mk a c' =>
          rw [hr] at hp hc
          cases a with
          | error e =>
            simp only [RRes.fail.injEq, failure_eof] at hc
            exact hp (by rw [hc])
          | ok fs => simp at hc
      unfold reader at h ⊢
      split at h
      · rename_i hc
        rw [if_pos hc]
        have hp := Csv.read_eof (cfg o) st.csv
        cases hr : Csv.read (cfg o) st.csv with
        | mk a c' =>
          rw [hr] at hp h
          cases a with
          | error e =>
            simp only [RRes.fail.injEq, failure_eof] at h
            exact hp (by rw [h])
          | ok fs => exact row c' h
      · rename_i hc
        rw [if_neg hc]
        exact row st.csv h
    generalize (reader L o types st).2 = s at h0
    clear h
    induction n generalizing s with
    | zero => exact (key s h0).1
    | succ n ih => exact ih _ (key s h0).2
  · simp only [Bool.not_eq_true] at hv
    rw [(C25_unusable_separator L o [] types hv).2.2 st] at h
    cases h

/-! ## C58: spreadsheets -/

/-- a value the spreadsheet writer refuses -/
def Refused : Val → Prop
  | .bytes _ => True
  | .arr l => jsonOK (.arr l) = false
  | .obj m => jsonOK (.obj m) = false
  | _ => False

/-- **C58**: a row is refused exactly if one of its cells is a byte string or cannot be marshalled; otherwise the cells hold the texts that
the CSV writer would have written. -/
theorem C58_encode (L : Lib) (vs : List Val) :
    (encodeStrings L vs = none ↔ ∃ v ∈ vs, Refused v) ∧ (∀ strs, encodeStrings L vs = some strs → strs = encode L vs) := by
  induction vs with
  | nil => simp [encodeStrings, encode]
  | cons v vs ih =>
    obtain ⟨h1, h2⟩ := ih
    have step : ∀ s : Bytes, encodeCell L v = s → ¬ Refused v → encodeStrings L (v :: vs) = (encodeStrings L vs).map (s :: ·) →
        (encodeStrings L (v :: vs) = none ↔ ∃ w ∈ v :: vs, Refused w) ∧
          (∀ strs, encodeStrings L (v :: vs) = some strs → strs = encode L (v :: vs)) := by
      intro s hs hr he
      rw [he]
      refine ⟨by simp [h1, hr], ?_⟩
      intro strs h
      cases hx : encodeStrings L vs with
      | none => rw [hx] at h; simp at h
      | some t =>
        rw [hx] at h
        simp only [Option.map_some, Option.some.injEq] at h
        rw [← h, h2 t hx, encode, encode, List.map_cons, hs]
    have bad : Refused v → encodeStrings L (v :: vs) = none →
        (encodeStrings L (v :: vs) = none ↔ ∃ w ∈ v :: vs, Refused w) ∧
          (∀ strs, encodeStrings L (v :: vs) = some strs → strs = encode L (v :: vs)) := by
      intro hr he
      rw [he]
      exact ⟨by simp [hr], by simp⟩
    cases v with
    | null => exact step [] rfl (by simp [Refused]) rfl
    | bool b => exact step _ rfl (by simp [Refused]) rfl
    | int i => exact step _ rfl (by simp [Refused]) rfl
    | gint i => exact step _ rfl (by simp [Refused]) rfl
    | f64 x => exact step _ rfl (by simp [Refused]) rfl
    | str s => exact step _ rfl (by simp [Refused]) rfl
    | bytes s => exact bad trivial rfl
    | arr l =>
      cases hj : jsonOK (.arr l) with
      | true => exact step (enc L.F (.arr l)) (by simp [encodeCell, marshalOrEmpty, hj]) (by simp [Refused, hj]) (by simp [encodeStrings, hj])
      | false => exact bad hj (by simp [encodeStrings, hj])
    | obj m =>
      cases hj : jsonOK (.obj m) with
      | true => exact step (enc L.F (.obj m)) (by simp [encodeCell, marshalOrEmpty, hj]) (by simp [Refused, hj]) (by simp [encodeStrings, hj])
      | false => exact bad hj (by simp [encodeStrings, hj])

/-- **C58**: a refused entry sets no cell and uses up no row. -/
theorem C58_refused (L : Lib) (e : Entry) (st : Sheet) :
    ((xlsxWriter L e st).1 = none ↔ ∃ vs, e.value = .arr vs ∧ ∀ v ∈ vs, ¬ Refused v) ∧ ((xlsxWriter L e st).1 ≠ none → (xlsxWriter L e st).2 = st) := by
  unfold xlsxWriter
  cases hv : e.value with
  | arr vs =>
    have h := C58_encode L vs
    cases he : encodeStrings L vs with
    | none =>
      obtain ⟨v, hm, hr⟩ := h.1.1 he
      simp only [he]
      refine ⟨?_, fun _ => trivial⟩
      simp only [reduceCtorEq, Val.arr.injEq, exists_eq_left', false_iff]
      exact fun hn => hn v hm hr
    | some strs =>
      simp only [he]
      refine ⟨?_, fun hn => absurd rfl hn⟩
      simp only [Val.arr.injEq, exists_eq_left', true_iff]
      intro v hm hr
      have := h.1.2 ⟨v, hm, hr⟩
      rw [he] at this
      cases this
  | _ => simp

/-- the cell in column `j` of row `i`, counting from 0: letters and the row number counting from 1 -/
def address (i j : Nat) : Bytes := Names.colIndexToLetters j ++ fmtNat (i + 1)

theorem axis_eq (i j : Nat) : axis i j = address i j := by
  unfold axis address fmtInt
  rw [if_neg (by omega)]
  congr 1

theorem setCells_eq (r i : Nat) (strs : List Bytes) : setCells r i strs = (strs.zipIdx i).map fun p => (address r p.2, p.1) := by
  induction strs generalizing i with
  | nil => rfl
  | cons s strs ih => rw [setCells, ih, axis_eq]; simp

/-- **C58**: the cells after writing rows: cell `j` of the `i`-th accepted entry is put at column `j`, row `i + 1`, and nothing else is set. -/
theorem C58_cells (L : Lib) (es : List Entry) (st : Sheet) (h : Accepts (xlsxWriter L) {} es st) :
    ∃ rows : List (List Val), es.map (·.value) = rows.map .arr ∧ st.rowsWritten = rows.length ∧
      st.cells = (rows.zipIdx).flatMap fun r => (encode L r.1).zipIdx.map fun c => (address r.2 c.2, c.1) := by
  have H : ∀ (es : List Entry) (s : Sheet), Accepts (xlsxWriter L) s es st → ∃ rows : List (List Val), es.map (·.value) = rows.map .arr ∧
      st.rowsWritten = s.rowsWritten + rows.length ∧
      st.cells = s.cells ++ (rows.zipIdx s.rowsWritten).flatMap fun r => (encode L r.1).zipIdx.map fun c => (address r.2 c.2, c.1) := by
    intro es
    induction es with
    | nil => intro s h; cases h; exact ⟨[], rfl, by simp, by simp⟩
    | cons e es ih =>
      intro s h
      cases h with
      | cons h1 h2 =>
        unfold xlsxWriter at h1
        split at h1
        · rename_i vs hv
          split at h1
          · simp at h1
          · rename_i strs he
            obtain ⟨rows, a, b, c⟩ := ih _ h2
            simp only [Prod.mk.injEq, true_and] at h1
            rw [← h1] at b c
            refine ⟨vs :: rows, by simp [hv, a], ?_, ?_⟩
            · simp only [List.length_cons] at b ⊢; omega
            · rw [c, (C58_encode L vs).2 strs he, setCells_eq]
              simp [List.append_assoc]
        · simp at h1
  obtain ⟨rows, a, b, c⟩ := H es {} h
  exact ⟨rows, a, by simpa using b, by simpa using c⟩

theorem split_unique {p q : UInt8 → Prop} (hpq : ∀ c, p c → ¬ q c) {a b a' b' : Bytes} (ha : ∀ c ∈ a, p c) (ha' : ∀ c ∈ a', p c)
    (hb : ∀ c ∈ b, q c) (hb' : ∀ c ∈ b', q c) (h : a ++ b = a' ++ b') : a = a' ∧ b = b' := by
  induction a generalizing a' with
  | nil =>
    cases a' with
    | nil => exact ⟨rfl, h⟩
    | cons c a' =>
      rw [List.nil_append] at h
      exact absurd (hb c (by rw [h]; simp)) (hpq c (ha' c (by simp)))
  | cons c a ih =>
    cases a' with
    | nil =>
      rw [List.nil_append] at h
      exact absurd (hb' c (by rw [← h]; simp)) (hpq c (ha c (by simp)))
    | cons d a' =>
      simp only [List.cons_append, List.cons.injEq] at h
      obtain ⟨rfl, h⟩ := h
      obtain ⟨h1, h2⟩ := ih (fun x hx => ha x (by simp [hx])) (fun x hx => ha' x (by simp [hx])) h
      exact ⟨by rw [h1], h2⟩

theorem fmtNat_digits (n : Nat) : ∀ c ∈ fmtNat n, isDigit c = true :=
  ((parseNat_iff _ _).1 (parseNat_fmtNat n)).2.1

theorem fmtNat_inj {n m : Nat} (h : fmtNat n = fmtNat m) : n = m := by
  have := parseNat_fmtNat n
  rw [h, parseNat_fmtNat m] at this
  simpa using this.symm

/-- **C58**: no two cells share an address, for tables of up to 17576 columns. -/
theorem C58_addresses (i j i' j' : Nat) (hj : j < 17576) (hj' : j' < 17576) (h : address i j = address i' j') : i = i' ∧ j = j' := by
  have h1 := (Names.C11_letters j hj).1.2
  have h2 := (Names.C11_letters j' hj').1.2
  have := split_unique (p := fun c => 65 ≤ c.toNat) (q := fun c => c.toNat ≤ 57) (fun c h1 h2 => by omega)
    (fun c hc => (h1 c hc).1) (fun c hc => (h2 c hc).1)
    (fun c hc => ((isDigit_iff c).mp (fmtNat_digits _ c hc)).2) (fun c hc => ((isDigit_iff c).mp (fmtNat_digits _ c hc)).2) h
  have h3 := fmtNat_inj this.2
  exact ⟨by omega, Names.C11_distinct j j' hj hj' this.1⟩

/-- **C58**: the rows the library hands over are delivered in order, numbered, with the cells typed; so rows that fit their columns come
back as they were. -/
theorem C58_read (L : Lib) (types : List Bytes) (rows : List (List Bytes)) (i : Int) :
    Drains (xlsxReader L types) { rows := rows, idx := i } (Json.indexed i (rows.map fun r => .arr (decode L types r))) .eof
      { rows := [], idx := i + rows.length } := by
  induction rows generalizing i with
  | nil => exact ⟨_, .nil _, by simp [xlsxReader]⟩
  | cons r rows ih =>
    refine drains_cons (rd := xlsxReader L types) (s := { rows := r :: rows, idx := i }) (s₁ := { rows := rows, idx := i + 1 }) rfl ?_
    have := ih (i + 1)
    rw [show i + (r :: rows).length = i + 1 + (rows.length : Int) by simp; omega]
    exact this

/-- **C58**: put together: rows that fit their columns and survive the spreadsheet library come back. -/
theorem C58_round_trip (L : Lib) (types : List Bytes) (rows : List (List Val)) (strs : List (List Bytes)) (i : Int)
    (hrows : ∀ row ∈ rows, RowFits L types row) (hw : rows.map (encodeStrings L) = strs.map some) :
    Drains (xlsxReader L types) { rows := strs, idx := i } (Json.indexed i (rows.map .arr)) .eof { rows := [], idx := i + rows.length } := by
  have h := C58_read L types strs i
  have e : strs = rows.map (encode L) := by
    clear h hrows
    induction rows generalizing strs with
    | nil => cases strs <;> simp at hw ⊢
    | cons r rows ih =>
      cases strs with
      | nil => simp at hw
      | cons s strs =>
        simp only [List.map_cons, List.cons.injEq] at hw
        rw [ih strs hw.2, (C58_encode L r).2 s hw.1]; rfl
  have e2 : (strs.map fun r => Val.arr (decode L types r)) = rows.map .arr := by
    rw [e, List.map_map]
    refine List.map_congr_left ?_
    intro row hrow
    simp only [Function.comp, C25_row L types row (hrows row hrow)]
  have e3 : strs.length = rows.length := by rw [e]; simp
  rw [e2, e3] at h
  exact h

/-! ## Examples -/

section Examples

/-! ## C25: quotes, options and line ends -/

section
open Csv

/-- cells without any quoting, separators between them -/
def rawLine (sep : Bytes) : List Bytes → Bytes
  | [] => [10]
  | [f] => f ++ [10]
  | f :: fs => f ++ (sep ++ rawLine sep fs)

/-- a cell that can stand without quotes around it: the separator and line feed do not occur in it, and it does not begin with a quote -/
def Plain (sep f : Bytes) : Prop := occurs sep f = false ∧ (10 : UInt8) ∉ f ∧ f.head? ≠ some 34

theorem field_lazy {sep s : Bytes} (hs : s.head? ≠ some 34) : field sep true s = bare sep s := by
  unfold field
  split
  · simp at hs
  · simp

theorem field_strict {sep s f : Bytes} {e : End} (hs : s.head? ≠ some 34) (hb : bare sep s = (f, e)) :
    field sep false s = if (34 : UInt8) ∈ f then ([], .err .bareQuote (dropLine s)) else (f, e) := by
  unfold field
  split
  · simp at hs
  · simp [hb]

theorem plain_head {sep f : Bytes} (h : SepOK sep) (hp : Plain sep f) (r : Bytes) : (f ++ (sep ++ r)).head? ≠ some 34 ∧ (f ++ 10 :: r).head? ≠ some 34 := by
  cases f with
  | nil =>
    obtain ⟨b0, bs, hs, _⟩ := h.shape
    constructor
    · rw [hs]
      simp only [List.nil_append, List.cons_append, List.head?_cons, ne_eq, Option.some.injEq]
      exact fun e => h.quote (by rw [hs, e]; simp)
    · simp
  | cons c f => exact ⟨by simpa using hp.2.2, by simpa using hp.2.2⟩

theorem dropLine_append {a : Bytes} (h : (10 : UInt8) ∉ a) (r : Bytes) : dropLine (a ++ r) = dropLine r := by
  induction a with
  | nil => rfl
  | cons c a ih =>
    rw [List.cons_append, dropLine, if_neg (by rintro rfl; simp at h)]
    exact ih (fun hm => h (by simp [hm]))

theorem dropLine_raw {sep : Bytes} (h : SepOK sep) (fs : List Bytes) (hp : ∀ f ∈ fs, Plain sep f) (r : Bytes) : dropLine (rawLine sep fs ++ r) = r := by
  induction fs with
  | nil => rfl
  | cons f fs ih =>
    have hf := (hp f (by simp)).2.1
    cases fs with
    | nil =>
      rw [rawLine, List.append_assoc, dropLine_append hf]
      rfl
    | cons g gs =>
      rw [rawLine, List.append_assoc, List.append_assoc, dropLine_append hf, dropLine_append h.lf]
      · exact ih (fun f hm => hp f (by simp [hm]))
      · simp

theorem fields_raw_lazy {sep : Bytes} (h : SepOK sep) (fs : List Bytes) (hne : fs ≠ []) (hp : ∀ f ∈ fs, Plain sep f) (r : Bytes) (n : Nat) (hn : fs.length ≤ n) :
    fields sep false true n (rawLine sep fs ++ r) = (fs, none, r) := by
  induction fs generalizing n with
  | nil => exact absurd rfl hne
  | cons f fs ih =>
    cases n with
    | zero => simp at hn
    | succ n =>
      have hf := hp f (by simp)
      cases fs with
      | nil =>
        rw [rawLine, List.append_assoc, List.singleton_append, fields]
        simp only [lead, Bool.false_eq_true, if_false]
        rw [field_lazy (plain_head h hf r).2, bare_done h r hf.1 hf.2.1]
      | cons g gs =>
        rw [rawLine, List.append_assoc, List.append_assoc, fields]
        · simp only [lead, Bool.false_eq_true, if_false]
          rw [field_lazy (plain_head h hf _).1, bare_more h _ hf.1 hf.2.1]
          simp only [ih (by simp) (fun f hm => hp f (by simp [hm])) n (by simpa using hn)]
        · simp

theorem fields_raw_strict {sep : Bytes} (h : SepOK sep) (fs : List Bytes) (hne : fs ≠ []) (hp : ∀ f ∈ fs, Plain sep f) (r : Bytes) (n : Nat) (hn : fs.length ≤ n) :
    (∀ f ∈ fs, (34 : UInt8) ∉ f) ∧ fields sep false false n (rawLine sep fs ++ r) = (fs, none, r) ∨
      (∃ f ∈ fs, (34 : UInt8) ∈ f) ∧ (fields sep false false n (rawLine sep fs ++ r)).2 = (some .bareQuote, r) := by
  induction fs generalizing n with
  | nil => exact absurd rfl hne
  | cons f fs ih =>
    cases n with
    | zero => simp at hn
    | succ n =>
      have hf := hp f (by simp)
      cases fs with
      | nil =>
        have hd := dropLine_raw h [f] hp r
        rw [rawLine, List.append_assoc, List.singleton_append] at hd ⊢
        rw [fields]
        simp only [lead, Bool.false_eq_true, if_false]
        rw [field_strict (plain_head h hf r).2 (bare_done h r hf.1 hf.2.1), hd]
        by_cases hq : (34 : UInt8) ∈ f
        · right; simp [hq]
        · left; simp [hq]
      | cons g gs =>
        have hd := dropLine_raw h (f :: g :: gs) hp r
        rw [rawLine, List.append_assoc, List.append_assoc] at hd ⊢ <;> try simp
        rw [fields]
        simp only [lead, Bool.false_eq_true, if_false]
        rw [field_strict (plain_head h hf _).1 (bare_more h _ hf.1 hf.2.1), hd]
        by_cases hq : (34 : UInt8) ∈ f
        · right; simp [hq]
        · rw [if_neg hq]
          have := ih (by simp) (fun f hm => hp f (by simp [hm])) n (by simpa using hn)
          simp only [List.mem_cons, forall_eq_or_imp, exists_eq_or_imp] at this ⊢
          rcases this with ⟨h1, h2⟩ | ⟨h1, h2⟩
          · left; exact ⟨⟨hq, h1⟩, by simp only [h2]⟩
          · right; exact ⟨.inr h1, by simp only [h2]⟩

theorem rawLine_length {sep : Bytes} (h : SepOK sep) (fs : List Bytes) : fs.length ≤ (rawLine sep fs).length := by
  induction fs with
  | nil => simp
  | cons f fs ih =>
    cases fs with
    | nil => simp [rawLine]
    | cons g gs =>
      have : 0 < sep.length := List.length_pos_iff.mpr h.ne_nil
      rw [rawLine] <;> simp only [List.length_append, List.length_cons] at ih ⊢ <;> first | omega | simp

theorem raw_head {sep : Bytes} (h : SepOK sep) {fs : List Bytes} (hb : blank fs = false) (hp : ∀ f ∈ fs, Plain sep f) (r : Bytes) : ∃ c t, rawLine sep fs ++ r = c :: t ∧ c ≠ 10 := by
  match fs with
  | [] => simp [blank] at hb
  | f :: fs =>
    have hf := (hp f (by simp)).2.1
    cases f with
    | cons c f =>
      have : c ≠ 10 := by rintro rfl; simp at hf
      cases fs with
      | nil => exact ⟨c, f ++ [10] ++ r, by simp [rawLine], this⟩
      | cons g gs => exact ⟨c, f ++ (sep ++ rawLine sep (g :: gs)) ++ r, by simp [rawLine], this⟩
    | nil =>
      cases fs with
      | nil => simp [blank] at hb
      | cons g gs =>
        obtain ⟨b0, bs, hs, _⟩ := h.shape
        refine ⟨b0, bs ++ rawLine sep (g :: gs) ++ r, ?_, fun e => h.lf (by rw [hs, e]; simp)⟩
        simp [rawLine, hs]

/-- **C25**: in a line of cells without quotes around them, a quote inside a cell is text when quotes are lazy;
otherwise it costs the whole line -/
theorem C25_bare_quotes (o : Config.CSVOptions) (hv : validDelim (cfg o).comma = true) (fs : List Bytes) (hb : blank fs = false)
    (hp : ∀ f ∈ fs, Plain (utf8Enc (cfg o).comma) f) (r : Bytes) :
    read (cfg o) { rest := rawLine (utf8Enc (cfg o).comma) fs ++ r, fpr := -1 } =
      if o.lazyQuotes = false ∧ ∃ f ∈ fs, (34 : UInt8) ∈ f then (.error .bareQuote, { rest := r, fpr := -1 }) else (.ok fs, { rest := r, fpr := -1 }) := by
  have h := sepOK_of_valid hv
  have hne : fs ≠ [] := by rintro rfl; simp [blank] at hb
  obtain ⟨c, t, hc, hc'⟩ := raw_head h hb hp r
  have hlen : fs.length ≤ (rawLine (utf8Enc (cfg o).comma) fs ++ r).length + 1 := by
    have := rawLine_length h fs
    rw [List.length_append]; omega
  have hsk : skipBlank (rawLine (utf8Enc (cfg o).comma) fs ++ r) = rawLine (utf8Enc (cfg o).comma) fs ++ r := by rw [hc, skipBlank_cons hc']
  have htr : (cfg o).trim = false := rfl
  have hlz : (cfg o).lazy = o.lazyQuotes := rfl
  unfold Csv.read
  simp only [hv, Bool.not_true, Bool.false_eq_true, if_false, hsk]
  split
  · rename_i e; rw [hc] at e; simp at e
  · rw [htr, hlz]
    cases hl : o.lazyQuotes with
    | true =>
      rw [fields_raw_lazy h fs hne hp r _ hlen]
      simp
    | false =>
      rcases fields_raw_strict h fs hne hp r _ hlen with ⟨h1, h2⟩ | ⟨h1, h2⟩
      · rw [h2]; simpa using h1
      · rw [h2]; simpa using h1

/-- a quote that does not end the cell and does not begin a doubled one: some other byte than a quote or a line feed follows in the cell, and no separator -/
def Lone (sep : Bytes) : Bytes → Prop
  | [] => True
  | 34 :: s => (∃ d t, s = d :: t ∧ d ≠ 34 ∧ d ≠ 10 ∧ ∀ r, sep.isPrefixOf (d :: t ++ r) = false) ∧ Lone sep s
  | _ :: s => Lone sep s

theorem quoted_lone {sep : Bytes} (h : SepOK sep) (f r : Bytes) (hl : Lone sep f) : quoted sep true (f ++ 34 :: (sep ++ r)) = (f, .more r) := by
  induction f with
  | nil =>
    have := quoted_more h true [] r
    exact this
  | cons c f ih =>
    by_cases hc : c = 34
    · subst hc
      obtain ⟨⟨d, t, rfl, h1, h2, h3⟩, hl'⟩ := hl
      have := ih hl'
      rw [List.cons_append, quoted.eq_def]
      simp only [ne_eq, not_true_eq_false, if_false, List.cons_append]
      rw [if_neg h1, if_neg (by have := h3 (34 :: (sep ++ r)); rw [List.cons_append] at this; rw [this]; simp), if_neg h2]
      rw [List.cons_append] at this
      simp [this]
    · have hl' : Lone sep f := by
        unfold Lone at hl
        split at hl
        · simp_all
        · simp_all
        · rename_i e; cases e; exact hl
      rw [List.cons_append, quoted_ne hc, ih hl']

/-- **C25**: with lazy quotes, a quote inside a quoted cell that is not doubled and does not end the cell is text -/
theorem C25_lazy_quotes {c : Nat} (hv : validDelim c = true) (f r : Bytes) (hl : Lone (utf8Enc c) f) :
    field (utf8Enc c) true (34 :: (f ++ 34 :: (utf8Enc c ++ r))) = (f, .more r) := by
  rw [field, quoted_lone (sepOK_of_valid hv) f r hl]

/-- **C25**: without a configuration, or with one that does not parse, the separator is a comma, quotes are not lazy,
there is no header row and all rows must be as long as the first -/
theorem C25_defaults (config : Config.Opts) (h : config = none ∨ Config.newCSVOptions config = none) :
    cfg (options config) = { comma := 44, lazy := false, trim := false } ∧ (options config).headerRow = false ∧ (options config).variadicFields = false := by
  have : options config = {} := by
    rcases h with rfl | h
    · rfl
    · rw [options, h]; rfl
  rw [this]
  exact ⟨rfl, rfl, rfl⟩

/-- **C25**: a configuration that parses is in force as it stands -/
theorem C25_options (config : Config.Opts) (o : Config.CSVOptions) (h : Config.newCSVOptions config = some o) : options config = o := by
  rw [options, h]; rfl

/-- **C25**: for the library a carriage return at the end of a line or of the whole text belongs to the end, any other is text -/
theorem C25_line_ends (s : Bytes) (h : (13 : UInt8) ∉ s) (t : Bytes) :
    norm (s ++ 13 :: 10 :: t) = s ++ 10 :: norm t ∧ norm (s ++ [13]) = s ∧ ∀ c, c ≠ 10 → c ≠ 13 → norm (s ++ 13 :: c :: t) = s ++ 13 :: c :: norm t := by
  have hcons : ∀ (a b : Bytes), (13 : UInt8) ∉ a → norm (a ++ b) = a ++ norm b := by
    intro a b ha
    induction a with
    | nil => rfl
    | cons c a ih =>
      rw [List.cons_append, norm, if_neg (by rintro ⟨rfl, _⟩; simp at ha), ih (fun hm => ha (by simp [hm]))]
      rfl
  refine ⟨?_, ?_, fun c h1 h2 => ?_⟩
  · rw [hcons _ _ h]; simp [norm]
  · rw [hcons _ _ h]; simp [norm]
  · rw [hcons _ _ h, norm, if_neg (by simp [h1]), norm, if_neg (by simp [h2])]

/-- `2x"` is kept with lazy quotes and is an error without -/
example : read { lazy := true } { rest := b!"5,2x\"\n7\n", fpr := -1 } = (.ok [b!"5", b!"2x\""], { rest := b!"7\n", fpr := -1 }) ∧
    read {} { rest := b!"5,2x\"\n7\n", fpr := -1 } = (.error .bareQuote, { rest := b!"7\n", fpr := -1 }) := by decide +kernel

example : field [44] true b!"\"a\"b\",c" = (b!"a\"b", .more b!"c") ∧ (field [44] false b!"\"a\"b\",c").2 = .err .quote [] := by decide +kernel

end

def exL : Lib where
  parse64 := fun s => if s = b!"1.5" then some 0x3FF8000000000000 else none
  fmtF := fun _ => b!"1.5"
  F := { fmt := fun _ => b!"1.5", parse := fun s => if s = b!"1.5" then some 0x3FF8000000000000 else none }

def exTypes : List Bytes := [b!"integer", b!"string", b!"boolean"]

example : decode exL exTypes [b!"-12", b!"a", b!"T"] = [.int (-12), .str b!"a", .bool true] := by decide +kernel
example : decode exL exTypes [b!"12a", b!"12"] = [.str b!"12a", .str b!"12"] := by decide +kernel
example : decode exL exTypes [b!"1", b!"2", b!"t", b!"4"] = [.str b!"1", .str b!"2", .str b!"t", .str b!"4"] := by decide +kernel
example : decode exL [b!"array", b!"object", b!"number"] [b!" [true] ", b!"[true]", b!"1.5"] =
    [.arr [.bool true], .str b!"[true]", .f64 0x3FF8000000000000] := by decide +kernel
example : IntLit b!"+0042" 42 := ⟨b!"+", b!"0042", by decide, by decide, by decide, rfl, by decide, by decide, by decide⟩

/-- a row with everything that needs quoting -/
def exRow : List Val := [.int 7, .str b!" \"q\",\n;", .bool false]

def exCols : List Tabular.Column :=
  [{ title := b!"a,b", type := [b!"integer"] }, { title := b!"c", type := [b!"string", b!"null"] }, { title := b!"d", type := [b!"boolean"] }]

example : bodyText exL { headerRow := true } exCols [exRow] = b!"\"a,b\",c,d\n7,\" \"\"q\"\",\n;\",false\n" := by decide +kernel

example : RowFits exL exTypes exRow := by
  refine .cons ⟨rfl, by decide⟩ (.cons ⟨?_, by decide⟩ (.cons rfl (.nil _)))
  rintro v (⟨h, _⟩ | ⟨h, _⟩ | ⟨h, _⟩ | ⟨h, _⟩ | ⟨h, _⟩ | ⟨h, _⟩) <;> exact absurd h (by decide)

/-- every call for a text, up to `n` of them -/
def calls (L : Lib) (o : Config.CSVOptions) (types : List Bytes) : Nat → RState → List RRes
  | 0, _ => []
  | n + 1, st => (reader L o types st).1 :: calls L o types n (reader L o types st).2

example : calls exL { headerRow := true } exTypes 3 (start { headerRow := true } (bodyText exL { headerRow := true } exCols [exRow, exRow])) =
    [.entry (rowEntry exRow), .entry (rowEntry exRow), .fail .eof] := by decide +kernel
/-- empty cells alone in a row are lost -/
example : calls exL {} [b!"string"] 3 (start {} (bodyText exL {} [] [[.str b!"a"], [.str []], [.str b!"b"]])) =
    [.entry (rowEntry [.str b!"a"]), .entry (rowEntry [.str b!"b"]), .fail .eof] := by decide +kernel
/-- errors do not stop the reader -/
example : calls exL {} exTypes 4 (start {} b!"1,a,t\r\n1,b\n2,x\"y,f\n3,c,f") =
    [.entry (rowEntry [.int 1, .str b!"a", .bool true]), .fail (.other b!"csv"), .fail (.other b!"csv"),
      .entry (rowEntry [.int 3, .str b!"c", .bool false])] := by decide +kernel
example : blank (Tabular.titles [{ title := [], type := [b!"string"] }]) = true := by decide

example : (xlsxWriter exL (rowEntry exRow) { rowsWritten := 9 }).2.cells = [(b!"A10", b!"7"), (b!"B10", b!" \"q\",\n;"), (b!"C10", b!"false")] := by
  decide +kernel
example : (xlsxWriter exL (rowEntry [.int 7, .bytes []]) { rowsWritten := 9 }).1 = some b!"error encoding entry" := by decide +kernel

end Examples

end Verif.CsvIO
