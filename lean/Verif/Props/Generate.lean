import Verif.Model.Generate
import Verif.Props.Tabular
import Verif.Props.Csv
/-
C47: what the generator of rows delivers.
-/
set_option autoImplicit false
namespace Verif.Generate
open Tabular

/-! ### What may be generated -/

/-- what math/rand promises: `Intn` stays below its bound, `NormFloat64` gives numbers -/
def Lawful {ρ : Type} (S : Source ρ) : Prop := (∀ n r, 0 < n → (S.intn n r).1 < n) ∧ ∀ r, floatFinite (S.norm r).1 = true

/-- ASCII letters and digits, fewer than `max` -/
def IsText (max : Int) (v : Val) : Prop := ∃ s, v = .str s ∧ (s.length : Int) < max ∧ ∀ c ∈ s, isLetter c = true ∨ isDigit c = true
/-- an `int` that is not negative and not the largest -/
def IsInteger (v : Val) : Prop := ∃ i : Int, v = .gint i ∧ 0 ≤ i ∧ i < 2 ^ 63 - 1
def IsNumber (v : Val) : Prop := ∃ x, v = .f64 x ∧ floatFinite x = true

/-- values generated for a type name -/
def Of (max : Int) (t : Bytes) (v : Val) : Prop :=
  (t = b!"string" ∧ IsText max v) ∨ (t = b!"integer" ∧ IsInteger v) ∨ (t = b!"number" ∧ IsNumber v) ∨ (t = b!"boolean" ∧ v = .bool true) ∨
  (t = b!"object" ∧ v = .obj []) ∨ (t = b!"array" ∧ v = .arr []) ∨ (t = b!"null" ∧ v = .null) ∨
  (t ∉ [b!"string", b!"integer", b!"number", b!"boolean", b!"object", b!"array", b!"null"] ∧
    (v = .null ∨ IsInteger v ∨ IsText max v ∨ IsNumber v ∨ v = .bool true))

theorem letters_spec (c : UInt8) : c ∈ letters ↔ isLetter c = true ∨ isDigit c = true := by
  have h : ∀ n : Fin 256, UInt8.ofNat n.1 ∈ letters ↔ isLetter (UInt8.ofNat n.1) = true ∨ isDigit (UInt8.ofNat n.1) = true := by decide +kernel
  have := h ⟨c.toNat, c.toNat_lt⟩
  simpa using this

theorem letters_length : letters.length = 62 := by decide

theorem fill_spec {ρ : Type} {S : Source ρ} (hS : Lawful S) (n : Nat) (r : ρ) :
    (fill S n r).1.length = n ∧ ∀ c ∈ (fill S n r).1, isLetter c = true ∨ isDigit c = true := by
  induction n generalizing r with
  | zero => simp [fill]
  | succ n ih =>
    simp only [fill, List.length_cons, (ih _).1, List.mem_cons, true_and]
    rintro c (rfl | hc)
    · rw [← letters_spec]
      have h := hS.1 letters.length r (by decide)
      rw [List.getD_eq_getElem?_getD, List.getElem?_eq_getElem h, Option.getD_some]
      exact List.getElem_mem h
    · exact (ih _).2 c hc

theorem string_spec {ρ : Type} {S : Source ρ} (hS : Lawful S) {max : Int} (hm : 0 < max) (r : ρ) :
    ∃ v r', string S max r = some (v, r') ∧ IsText max v := by
  refine ⟨_, _, if_neg (by omega), _, rfl, ?_, (fill_spec hS _ _).2⟩
  rw [(fill_spec hS _ _).1]
  have := hS.1 max.toNat r (by omega)
  omega

theorem int_spec {ρ : Type} {S : Source ρ} (hS : Lawful S) (r : ρ) : IsInteger (int S r).1 := by
  refine ⟨_, rfl, by omega, ?_⟩
  have := hS.1 (2 ^ 63 - 1) r (by decide)
  omega

theorem bool_spec {ρ : Type} {S : Source ρ} (hS : Lawful S) (r : ρ) : (bool S r).1 = .bool true := by
  have := hS.1 1 r (by decide)
  have : (S.intn 1 r).1 = 0 := by omega
  simp [bool, this]

theorem value_spec {ρ : Type} {S : Source ρ} (hS : Lawful S) {max : Int} (hm : 0 < max) (r : ρ) :
    ∃ v r', value S max r = some (v, r') ∧ (v = .null ∨ IsInteger v ∨ IsText max v ∨ IsNumber v ∨ v = .bool true) := by
  unfold value
  dsimp only
  split
  · exact ⟨_, _, rfl, .inl rfl⟩
  split
  · exact ⟨_, _, rfl, .inr (.inl (int_spec hS _))⟩
  split
  · obtain ⟨v, r', h, hv⟩ := string_spec hS hm (S.intn 40 r).2
    exact ⟨v, r', h, .inr (.inr (.inl hv))⟩
  split
  · exact ⟨_, _, rfl, .inr (.inr (.inr (.inl ⟨_, rfl, hS.2 _⟩)))⟩
  split
  · exact ⟨_, _, rfl, .inr (.inr (.inr (.inr (bool_spec hS _))))⟩
  · exact ⟨_, _, rfl, .inl rfl⟩

theorem type_spec {ρ : Type} {S : Source ρ} (hS : Lawful S) {max : Int} (hm : 0 < max) (t : Bytes) (r : ρ) :
    ∃ v r', type S max t r = some (v, r') ∧ Of max t v := by
  unfold type
  split
  · rename_i h
    obtain ⟨v, r', e, hv⟩ := string_spec hS hm r
    exact ⟨v, r', e, .inl ⟨h, hv⟩⟩
  split
  · rename_i h; exact ⟨_, _, rfl, .inr (.inr (.inr (.inl ⟨h, bool_spec hS r⟩)))⟩
  split
  · rename_i h; exact ⟨_, _, rfl, .inr (.inr (.inl ⟨h, _, rfl, hS.2 r⟩))⟩
  split
  · rename_i h; exact ⟨_, _, rfl, .inr (.inl ⟨h, int_spec hS r⟩)⟩
  split
  · rename_i h; exact ⟨_, _, rfl, .inr (.inr (.inr (.inr (.inl ⟨h, rfl⟩))))⟩
  split
  · rename_i h; exact ⟨_, _, rfl, .inr (.inr (.inr (.inr (.inr (.inl ⟨h, rfl⟩)))))⟩
  split
  · rename_i h; exact ⟨_, _, rfl, .inr (.inr (.inr (.inr (.inr (.inr (.inl ⟨h, rfl⟩))))))⟩
  · obtain ⟨v, r', e, hv⟩ := value_spec hS hm r
    refine ⟨v, r', e, .inr (.inr (.inr (.inr (.inr (.inr (.inr ⟨?_, hv⟩))))))⟩
    simp [*]

/-! ### A source that follows a script -/

/-- takes the next number of a list, reduced to what was asked for -/
def script : Source (List Nat) where
  intn := fun n r => (r.headD 0 % n, r.tail)
  norm := fun r => (if floatFinite (UInt64.ofNat (r.headD 0)) then UInt64.ofNat (r.headD 0) else 0, r.tail)

theorem script_lawful : Lawful script := by
  refine ⟨fun n r hn => Nat.mod_lt _ hn, fun r => ?_⟩
  simp only [script]
  split
  · assumption
  · rfl

theorem fill_script (s : Bytes) (hs : ∀ c ∈ s, isLetter c = true ∨ isDigit c = true) :
    ∃ cs, ∀ rest, fill script s.length (cs ++ rest) = (s, rest) := by
  induction s with
  | nil => exact ⟨[], fun rest => rfl⟩
  | cons c s ih =>
    obtain ⟨cs, h⟩ := ih fun d hd => hs d (List.mem_cons_of_mem _ hd)
    obtain ⟨i, hi, e⟩ := List.getElem_of_mem ((letters_spec c).2 (hs c List.mem_cons_self))
    refine ⟨i :: cs, fun rest => ?_⟩
    simp only [List.length_cons, fill, script, List.cons_append, List.headD_cons, List.tail_cons, Nat.mod_eq_of_lt hi]
    have h' := h rest
    simp only [script] at h'
    rw [h', List.getD_eq_getElem?_getD, List.getElem?_eq_getElem hi, e, Option.getD_some]

theorem string_script {max : Int} {v : Val} (h : IsText max v) : ∃ cs, ∀ rest, string script max (cs ++ rest) = some (v, rest) := by
  obtain ⟨s, rfl, hl, hs⟩ := h
  obtain ⟨cs, h⟩ := fill_script s hs
  refine ⟨s.length :: cs, fun rest => ?_⟩
  have e : s.length % max.toNat = s.length := Nat.mod_eq_of_lt (by omega)
  rw [string, if_neg (by omega)]
  simp only [show script.intn max.toNat ((s.length :: cs) ++ rest) = (s.length, cs ++ rest) by simp [script, e], h rest]

theorem int_script {v : Val} (h : IsInteger v) : ∃ cs, ∀ rest, int script (cs ++ rest) = (v, rest) := by
  obtain ⟨i, rfl, h0, h1⟩ := h
  refine ⟨[i.toNat], fun rest => ?_⟩
  have e : i.toNat % (2 ^ 63 - 1) = i.toNat := Nat.mod_eq_of_lt (by omega)
  simp [int, script, e]
  omega

theorem float_script {v : Val} (h : IsNumber v) : ∃ cs, ∀ rest, float script (cs ++ rest) = (v, rest) := by
  obtain ⟨x, rfl, hx⟩ := h
  refine ⟨[x.toNat], fun rest => ?_⟩
  simp [float, script, hx]

theorem bool_script (r : List Nat) : bool script r = (.bool true, r.tail) := by
  simp [bool, script, Nat.mod_one]

theorem value_script {max : Int} {v : Val} (h : v = .null ∨ IsInteger v ∨ IsText max v ∨ IsNumber v ∨ v = .bool true) :
    ∃ cs, ∀ rest, value script max (cs ++ rest) = some (v, rest) := by
  have e : ∀ n (cs : List Nat), n < 40 → script.intn 40 (n :: cs) = (n, cs) := by
    intro n cs hn
    simp [script, Nat.mod_eq_of_lt hn]
  rcases h with rfl | h | h | h | rfl
  · exact ⟨[0], fun rest => by simp [value, e]⟩
  · obtain ⟨cs, h⟩ := int_script h
    exact ⟨1 :: cs, fun rest => by simp [value, e, h]⟩
  · obtain ⟨cs, h⟩ := string_script h
    exact ⟨11 :: cs, fun rest => by simp [value, e, h]⟩
  · obtain ⟨cs, h⟩ := float_script h
    exact ⟨21 :: cs, fun rest => by simp [value, e, h]⟩
  · exact ⟨[31, 0], fun rest => by simp [value, e, bool_script]⟩

theorem type_script {max : Int} {t : Bytes} {v : Val} (h : Of max t v) : ∃ cs, ∀ rest, type script max t (cs ++ rest) = some (v, rest) := by
  rcases h with ⟨rfl, h⟩ | ⟨rfl, h⟩ | ⟨rfl, h⟩ | ⟨rfl, rfl⟩ | ⟨rfl, rfl⟩ | ⟨rfl, rfl⟩ | ⟨rfl, rfl⟩ | ⟨ht, h⟩
  · obtain ⟨cs, h⟩ := string_script h
    exact ⟨cs, fun rest => by simp [type, h]⟩
  · obtain ⟨cs, h⟩ := int_script h
    exact ⟨cs, fun rest => by simp [type, h]⟩
  · obtain ⟨cs, h⟩ := float_script h
    exact ⟨cs, fun rest => by simp [type, h]⟩
  · exact ⟨[0], fun rest => by simp [type, bool_script]⟩
  · exact ⟨[], fun rest => by simp [type]⟩
  · exact ⟨[], fun rest => by simp [type]⟩
  · exact ⟨[], fun rest => by simp [type]⟩
  · obtain ⟨cs, h⟩ := value_script h
    simp only [List.mem_cons, List.not_mem_nil, or_false, not_or] at ht
    exact ⟨cs, fun rest => by simp [type, ht, h]⟩

/-! ### Rows -/

/-- one value for each column, of the column's first type -/
inductive RowOf (max : Int) : List Column → List Val → Prop
  | nil : RowOf max [] []
  | cons {c : Column} {t : Bytes} {ts : List Bytes} {v : Val} {cols : List Column} {vs : List Val} :
    c.type = t :: ts → Of max t v → RowOf max cols vs → RowOf max (c :: cols) (v :: vs)

theorem row_spec {ρ : Type} {S : Source ρ} (hS : Lawful S) {max : Int} (hm : 0 < max) (cols : List Column) (hc : ∀ c ∈ cols, c.type ≠ []) (r : ρ) :
    ∃ vs r', row S max cols r = some (vs, r') ∧ RowOf max cols vs := by
  induction cols generalizing r with
  | nil => exact ⟨_, _, rfl, .nil⟩
  | cons c cols ih =>
    cases ht : c.type with
    | nil => exact absurd ht (hc c List.mem_cons_self)
    | cons t ts =>
      obtain ⟨v, r₁, e₁, h₁⟩ := type_spec hS hm t r
      obtain ⟨vs, r₂, e₂, h₂⟩ := ih (fun d hd => hc d (List.mem_cons_of_mem _ hd)) r₁
      exact ⟨v :: vs, r₂, by simp [row, ht, e₁, e₂], .cons ht h₁ h₂⟩

theorem row_empty_type {ρ : Type} (S : Source ρ) (max : Int) (cols : List Column) (h : ∃ c ∈ cols, c.type = []) (r : ρ) : row S max cols r = none := by
  induction cols generalizing r with
  | nil => simp at h
  | cons c cols ih =>
    unfold row
    cases ht : c.type with
    | nil => rfl
    | cons t ts =>
      obtain ⟨d, hd, he⟩ := h
      simp only [List.mem_cons] at hd
      rcases hd with rfl | hd
      · rw [ht] at he; simp at he
      · dsimp only
        split
        · rfl
        · rw [ih ⟨d, hd, he⟩]; rfl

theorem row_script {max : Int} {cols : List Column} {vs : List Val} (h : RowOf max cols vs) :
    ∃ cs, ∀ rest, row script max cols (cs ++ rest) = some (vs, rest) := by
  induction h with
  | nil => exact ⟨[], fun rest => rfl⟩
  | cons ht hv _ ih =>
    obtain ⟨cs, h⟩ := ih
    obtain ⟨ds, h'⟩ := type_script hv
    refine ⟨ds ++ cs, fun rest => ?_⟩
    simp [row, ht, h', h]

/-- the columns of rows in terms of positions -/
theorem rowOf_iff (max : Int) (cols : List Column) (vs : List Val) :
    RowOf max cols vs ↔ vs.length = cols.length ∧ ∀ (i : Nat) c v, cols[i]? = some c → vs[i]? = some v → ∃ t ts, c.type = t :: ts ∧ Of max t v := by
  constructor
  · intro h
    induction h with
    | nil => simp
    | @cons c t ts v cols vs ht hv _ ih =>
      refine ⟨by simp [ih.1], ?_⟩
      intro i d w hd hw
      cases i with
      | zero =>
        simp only [List.getElem?_cons_zero, Option.some.injEq] at hd hw
        subst hd; subst hw
        exact ⟨t, ts, ht, hv⟩
      | succ i => exact ih.2 i d w (by simpa using hd) (by simpa using hw)
  · intro h
    induction cols generalizing vs with
    | nil =>
      have := List.length_eq_zero_iff.1 h.1
      subst this
      exact .nil
    | cons c cols ih =>
      cases vs with
      | nil => simp at h
      | cons v vs =>
        obtain ⟨t, ts, ht, hv⟩ := h.2 0 c v rfl rfl
        refine .cons ht hv (ih vs ⟨by simpa using h.1, fun i d w hd hw => h.2 (i + 1) d w (by simpa using hd) (by simpa using hw)⟩)

/-- **C47**: with a positive maximal length of strings and at least one type in every column, reading never ends, fails or panics: however many
entries are read they are numbered from the number of earlier ones, and each is a row with one value for each column, of its first type. -/
theorem C47_rows {ρ : Type} {S : Source ρ} (hS : Lawful S) (g : Gen ρ) (hm : 0 < g.maxLen) (hc : ∀ c ∈ g.cols, c.type ≠ []) (n : Nat) :
    ∃ es g', reads S n g = some (es, g') ∧ es.length = n ∧
      ∀ (i : Nat) e, es[i]? = some e → e.index = g.count + i ∧ e.key = [] ∧ ∃ vs, e.value = .arr vs ∧ vs.length = g.cols.length ∧
        ∀ (j : Nat) c v, g.cols[j]? = some c → vs[j]? = some v → ∃ t ts, c.type = t :: ts ∧ Of g.maxLen t v := by
  induction n generalizing g with
  | zero => exact ⟨[], g, rfl, rfl, by simp⟩
  | succ n ih =>
    obtain ⟨vs, r', e, h⟩ := row_spec hS hm g.cols hc g.random
    obtain ⟨es, g', e', hl, hes⟩ := ih { g with random := r', count := g.count + 1 } hm hc
    refine ⟨{ index := g.count, value := .arr vs } :: es, g', by simp [reads, readEntry, e, e'], by simp [hl], ?_⟩
    intro i x hx
    cases i with
    | zero =>
      simp only [List.getElem?_cons_zero, Option.some.injEq] at hx
      subst hx
      exact ⟨by simp, rfl, vs, rfl, (rowOf_iff _ _ _).1 h⟩
    | succ i =>
      obtain ⟨h1, h2⟩ := hes i x (by simpa using hx)
      exact ⟨by rw [h1]; simp; omega, h2⟩

/-- **C47**: and all such rows can come, in any sequence: these are exactly the results for some random source. -/
theorem C47_exactly (cols : List Column) (max : Int) (hm : 0 < max) (rows : List (List Val)) :
    (∃ (ρ : Type) (S : Source ρ) (r : ρ) (es : List Entry) (g' : Gen ρ), Lawful S ∧ reads S rows.length { cols, maxLen := max, random := r } = some (es, g') ∧
      es.map (·.value) = rows.map .arr) ↔
    ∀ vs ∈ rows, vs.length = cols.length ∧ ∀ (j : Nat) c v, cols[j]? = some c → vs[j]? = some v → ∃ t ts, c.type = t :: ts ∧ Of max t v := by
  simp only [← rowOf_iff]
  constructor
  · rintro ⟨ρ, S, r, es, g', hS, h, hv⟩ vs hvs
    have hc : ∀ c ∈ cols, c.type ≠ [] := by
      intro c hc he
      cases rows with
      | nil => simp at hvs
      | cons row rows => simp [reads, readEntry, row_empty_type S max cols ⟨c, hc, he⟩ r] at h
    obtain ⟨es', g'', h', hl, hes⟩ := C47_rows hS { cols, maxLen := max, random := r } hm hc rows.length
    rw [h, Option.some.injEq, Prod.mk.injEq] at h'
    obtain ⟨rfl, _⟩ := h'
    obtain ⟨i, hi, rfl⟩ := List.getElem_of_mem hvs
    have hie : i < es.length := by omega
    obtain ⟨_, _, ws, hw, hrow⟩ := hes i es[i] (List.getElem?_eq_getElem hie)
    have : (es.map (·.value))[i]? = (rows.map Val.arr)[i]? := by rw [hv]
    rw [List.getElem?_map, List.getElem?_map, List.getElem?_eq_getElem hie, List.getElem?_eq_getElem hi, Option.map_some, Option.map_some,
      Option.some.injEq, hw, Val.arr.injEq] at this
    rw [← this]
    exact (rowOf_iff _ _ _).2 hrow
  · intro h
    suffices H : ∃ cs, ∀ k : Int, ∃ es g', reads script rows.length { cols, maxLen := max, random := cs, count := k } = some (es, g') ∧
        es.map (·.value) = rows.map .arr by
      obtain ⟨cs, H⟩ := H
      obtain ⟨es, g', h1, h2⟩ := H 0
      exact ⟨List Nat, script, cs, es, g', script_lawful, h1, h2⟩
    clear hm
    induction rows with
    | nil => exact ⟨[], fun k => ⟨[], _, rfl, rfl⟩⟩
    | cons vs rows ih =>
      obtain ⟨cs, H⟩ := ih fun ws hw => h ws (List.mem_cons_of_mem _ hw)
      obtain ⟨ds, hd⟩ := row_script (h vs List.mem_cons_self)
      refine ⟨ds ++ cs, fun k => ?_⟩
      obtain ⟨es, g', h1, h2⟩ := H (k + 1)
      exact ⟨{ index := k, value := .arr vs } :: es, g', by simp [reads, readEntry, hd, h1], by simp [h2]⟩

/-- **C47**: every schema listing columns gives a generator, also with a random source of any kind and any options; reading from it panics exactly if
some column lists types without any name among them. -/
theorem C47_schema {ρ : Type} {S : Source ρ} (hS : Lawful S) {o : Nat → List (Bytes × Val) → List (Bytes × Val)} (ho : Order o) {sch : List (Bytes × Val)} {l : List Val}
    (h : Listed sch l) (hl : ColumnMaps l) (cfg : Config ρ) (hm : 0 < cfg.maxLen) :
    ∃ g, newTabular o cfg sch = .ok g ∧ g.count = 0 ∧ g.cols.length = l.length ∧
      (readEntry S g = none ↔ ∃ m ts, Val.obj m ∈ l ∧ mapGet m b!"type" = some (.arr ts) ∧ ∀ s, Val.str s ∉ ts) := by
  obtain ⟨cols, ps, hf, hlen, hcol⟩ := C32_columns ho h hl
  refine ⟨{ cols, maxLen := cfg.maxLen, random := cfg.random }, by simp [newTabular, hf], rfl, hlen, ?_⟩
  have hs : ∀ l, strings l = [] ↔ ∀ s, Val.str s ∉ l := by
    intro l
    induction l with
    | nil => simp [strings]
    | cons x l ih =>
      cases x with
      | str s => simp only [strings, reduceCtorEq, false_iff]; exact fun h => h s (by simp)
      | _ => simp [strings, ih]
  have hempty : (∃ c ∈ cols, c.type = []) ↔ ∃ m ts, Val.obj m ∈ l ∧ mapGet m b!"type" = some (.arr ts) ∧ ∀ s, Val.str s ∉ ts := by
    constructor
    · rintro ⟨c, hc, he⟩
      obtain ⟨j, hj, rfl⟩ := List.getElem_of_mem hc
      have hj' : j < l.length := by omega
      have := hcol j l[j] (List.getElem?_eq_getElem hj')
      rw [List.getElem?_eq_getElem hj, Option.some.injEq] at this
      rw [this] at he
      split at he
      · rename_i m hm'
        simp only [columnOf] at he
        split at he
        · simp at he
        · rename_i ts hts
          exact ⟨m, ts, hm' ▸ List.getElem_mem hj', hts, (hs ts).1 he⟩
        · simp at he
      · simp at he
    · rintro ⟨m, ts, hm', ht, hn⟩
      obtain ⟨j, hj, e⟩ := List.getElem_of_mem hm'
      have := hcol j _ (List.getElem?_eq_getElem hj)
      rw [e] at this
      exact ⟨_, List.mem_of_getElem? this, by simp [columnOf, ht, (hs ts).2 hn]⟩
  rw [← hempty]
  by_cases he : ∃ c ∈ cols, c.type = []
  · simp only [he, iff_true]
    simp [readEntry, row_empty_type S cfg.maxLen cols he cfg.random]
  · simp only [he, iff_false]
    obtain ⟨vs, r', e, _⟩ := row_spec hS hm cols (fun c hc h => he ⟨c, hc, h⟩) cfg.random
    simp [readEntry, e]

/-- **C47**: the coin never shows tails: booleans are always true. -/
theorem C47_always_true {ρ : Type} {S : Source ρ} (hS : Lawful S) (max : Int) (r : ρ) : ∃ r', type S max b!"boolean" r = some (.bool true, r') :=
  ⟨(bool S r).2, by simp [type, ← bool_spec hS r]⟩

/-- **C47**: a maximal length that is not positive makes strings panic. -/
theorem C47_no_length {ρ : Type} (S : Source ρ) (max : Int) (hm : max ≤ 0) (r : ρ) : type S max b!"string" r = none := by
  simp [type, string, hm]

/-! ### Through CSV -/

/-- what a CSV reader makes of a generated value: `int` becomes `int64` -/
def asRead : Val → Val
  | .gint i => .int i
  | v => v

/-- the types with a meaning -/
def Known (t : Bytes) : Prop := t ∈ [b!"string", b!"integer", b!"number", b!"boolean", b!"object", b!"array", b!"null"]

open CsvIO Streams in
theorem fits_asRead {L : CsvIO.Lib} (hL : ∀ x, floatFinite x = true → L.parse64 (L.fmtF x) = some x ∧ L.fmtF x ≠ [] ∧ (13 : UInt8) ∉ L.fmtF x)
    {max : Int} {t : Bytes} {v : Val} (ht : Known t) (h : Of max t v) : Fits L t (asRead v) ∧ encodeCell L (asRead v) = encodeCell L v := by
  rcases h with ⟨rfl, s, rfl, _, hs⟩ | ⟨rfl, i, rfl, h0, h1⟩ | ⟨rfl, x, rfl, hx⟩ | ⟨rfl, rfl⟩ | ⟨rfl, rfl⟩ | ⟨rfl, rfl⟩ | ⟨rfl, rfl⟩ | ⟨hn, _⟩
  · refine ⟨⟨?_, ?_⟩, rfl⟩
    · rintro v (⟨h, _⟩ | ⟨h, _⟩ | ⟨h, _⟩ | ⟨h, _⟩ | ⟨h, _⟩ | ⟨h, _⟩) <;> exact absurd h (by decide)
    · intro h13
      have := hs 13 h13
      revert this
      decide
  · refine ⟨⟨rfl, ?_⟩, rfl⟩
    unfold IsInt64
    omega
  · exact ⟨⟨rfl, hL x hx⟩, rfl⟩
  · exact ⟨rfl, rfl⟩
  · refine ⟨⟨rfl, ?_, by decide⟩, rfl⟩
    simp [Ndjson.Kept, Ndjson.KeptF, KeysSorted]
  · refine ⟨⟨rfl, ?_, by decide⟩, rfl⟩
    simp [Ndjson.Kept, Ndjson.KeptL]
  · exact ⟨rfl, rfl⟩
  · exact absurd ht hn

open CsvIO Streams in
theorem accepts_values {L : CsvIO.Lib} {o : Config.CSVOptions} {es : List Entry} {t t' : Bytes} {fs : List Entry} (h : Accepts (writer L o) t fs t')
    (he : es.map (writer L o ·) = fs.map (writer L o ·)) : Accepts (writer L o) t es t' := by
  induction h generalizing es with
  | nil t => cases es with
    | nil => exact .nil t
    | cons => simp at he
  | cons hw _ ih =>
    cases es with
    | nil => simp at he
    | cons e es =>
      simp only [List.map_cons, List.cons.injEq] at he
      exact .cons (by rw [he.1, hw]) (ih he.2)

open CsvIO Streams in
theorem rowFits_asRead {L : CsvIO.Lib} (hL : ∀ x, floatFinite x = true → L.parse64 (L.fmtF x) = some x ∧ L.fmtF x ≠ [] ∧ (13 : UInt8) ∉ L.fmtF x)
    {max : Int} {cols : List Column} {types : List Bytes} {vs : List Val} (ht : cols.map (·.type.head?) = types.map some) (hk : ∀ t ∈ types, Known t)
    (h : RowOf max cols vs) : RowFits L types (vs.map asRead) ∧ encode L (vs.map asRead) = encode L vs ∧ vs.length = types.length := by
  induction h generalizing types with
  | nil =>
    cases types with
    | nil => exact ⟨.nil _, rfl, rfl⟩
    | cons => simp at ht
  | cons hc hv _ ih =>
    cases types with
    | nil => simp at ht
    | cons t types =>
      simp only [List.map_cons, hc, List.head?_cons, List.cons.injEq, Option.some.injEq] at ht
      obtain ⟨rfl, ht⟩ := ht
      obtain ⟨h1, h2, h3⟩ := ih ht fun x hx => hk x (List.mem_cons_of_mem _ hx)
      obtain ⟨h4, h5⟩ := fits_asRead hL (hk _ List.mem_cons_self) hv
      refine ⟨.cons h4 h1, ?_, by simp [h3]⟩
      simp only [encode, List.map_cons] at h2 ⊢
      rw [h2, h5]

open CsvIO Streams in
/-- **C47**: what the command-line tool writes as CSV reads back as generated, integers as int64, if all types are the seven known ones and there are
at least two columns; a title with a carriage return would not. -/
theorem C47_csv {ρ : Type} {S : Source ρ} (hS : Lawful S) (g : Gen ρ) (hm : 0 < g.maxLen) (types : List Bytes)
    (ht : g.cols.map (·.type.head?) = types.map some) (hk : ∀ t ∈ types, Known t) (h2 : 2 ≤ types.length)
    (L : CsvIO.Lib) (hL : ∀ x, floatFinite x = true → L.parse64 (L.fmtF x) = some x ∧ L.fmtF x ≠ [] ∧ (13 : UInt8) ∉ L.fmtF x)
    (o : Config.CSVOptions) (hv : Csv.validDelim (cfg o).comma = true) (hcr : ∀ c ∈ g.cols, (13 : UInt8) ∉ c.title) (n : Nat) :
    ∃ (es : List Entry) (g' : Gen ρ) (rows : List (List Val)) (text : Bytes), reads S n g = some (es, g') ∧ es.map (·.value) = rows.map .arr ∧ Accepts (writer L o) (header o g.cols) es text ∧
      ∀ ks : List Nat, text.length ≤ ks.sum → ∃ st', Drains (reader L o types) (start o (ReplaceCr.reads true ks text).1)
        (rows.map fun vs => { value := .arr (vs.map asRead) }) .eof st' := by
  have hc : ∀ c ∈ g.cols, c.type ≠ [] := by
    intro c hc he
    have : (none : Option Bytes) ∈ types.map some := by
      rw [← ht]
      exact List.mem_map.2 ⟨c, hc, by rw [he]; rfl⟩
    simp at this
  have hlen : g.cols.length = types.length := by simpa using congrArg List.length ht
  obtain ⟨es, g', hr, hl, hes⟩ := C47_rows hS g hm hc n
  -- rows
  have hrow : ∃ rows : List (List Val), es.map (·.value) = rows.map .arr ∧ ∀ vs ∈ rows, RowOf g.maxLen g.cols vs := by
    have : ∀ e ∈ es, ∃ vs, e.value = .arr vs ∧ RowOf g.maxLen g.cols vs := by
      intro e he
      obtain ⟨i, hi, rfl⟩ := List.getElem_of_mem he
      obtain ⟨_, _, vs, hvs, hrow⟩ := hes i es[i] (List.getElem?_eq_getElem hi)
      exact ⟨vs, hvs, (rowOf_iff _ _ _).2 hrow⟩
    clear hr hl hes
    induction es with
    | nil => exact ⟨[], rfl, by simp⟩
    | cons e es ih =>
      obtain ⟨rows, h1, h2⟩ := ih fun x hx => this x (List.mem_cons_of_mem _ hx)
      obtain ⟨vs, h3, h4⟩ := this e List.mem_cons_self
      exact ⟨vs :: rows, by simp [h1, h3], by simpa using ⟨h4, h2⟩⟩
  obtain ⟨rows, hrows, hof⟩ := hrow
  have hfit : ∀ vs ∈ rows, RowFits L types (vs.map asRead) ∧ encode L (vs.map asRead) = encode L vs ∧ vs.length = types.length := by
    intro vs hvs
    exact rowFits_asRead hL ht hk (hof vs hvs)
  refine ⟨es, g', rows, bodyText L o g.cols rows, hr, hrows, ?_, ?_⟩
  · refine accepts_values (C25_written L o g.cols rows hv) ?_
    have e : ∀ es : List Entry, es.map (writer L o ·) = (es.map (·.value)).map fun v => writer L o { value := v } := by
      intro es
      rw [List.map_map]
      rfl
    rw [e, e, hrows]
    simp [List.map_map, Function.comp_def, rowEntry]
  · intro ks hks
    have hb : bodyText L o g.cols (rows.map (·.map asRead)) = bodyText L o g.cols rows := by
      have : (rows.map (·.map asRead)).map (encode L) = rows.map (encode L) := by
        rw [List.map_map]
        exact List.map_congr_left fun vs hvs => (hfit vs hvs).2.1
      simp only [bodyText, records, this]
    rw [← hb] at hks ⊢
    have := (C25_round_trip L o g.cols types (rows.map (·.map asRead)) ks hv hlen ?_ ?_ hks).2
    · simpa [List.map_map, Function.comp_def, rowEntry] using this
    · intro row hrow
      obtain ⟨vs, hvs, rfl⟩ := List.mem_map.1 hrow
      obtain ⟨h1, _, h3⟩ := hfit vs hvs
      have hl : (vs.map asRead).length = types.length := by simp [h3]
      refine ⟨h1, ⟨?_, ?_, ?_⟩, .inr hl⟩ <;> (intro e; rw [e] at hl; simp at hl; omega)
    · intro _
      refine ⟨hcr, ?_⟩
      have : 2 ≤ (titles g.cols).length := by simp [titles, hlen, h2]
      unfold Csv.blank
      simp only [Bool.or_eq_false_iff, decide_eq_false_iff_not]
      constructor <;> (intro e; rw [e] at this; simp at this)

/-- **C47**: in a table of one text column the empty string, which any length allows, is written as an empty line and not read back. -/
theorem C47_csv_one_column (L : CsvIO.Lib) (max : Int) (hm : 0 < max) (title : Bytes) :
    ∃ r g', reads script 1 { cols := [{ title, type := [b!"string"] }], maxLen := max, random := r } = some ([{ value := .arr [.str []] }], g') ∧
      ∃ text, Streams.Accepts (CsvIO.writer L {}) [] [{ value := .arr [.str []] }] text ∧
        ∀ k, 2 * text.length < k → ∃ st', Streams.Drains (CsvIO.reader L {} [b!"string"]) (CsvIO.start {} (ReplaceCr.reads true [k] text).1) [] .eof st' := by
  refine ⟨[0], _, by simp [reads, readEntry, row, type, string, script, fill, show ¬ max ≤ 0 by omega]; rfl, b!"\n", ?_, ?_⟩
  · exact CsvIO.C25_written L {} [] [[.str []]] (by decide)
  · intro k hk
    obtain ⟨es, st', h, hl⟩ := CsvIO.C25_blank_rows_lost L {} [] [b!"string"] [[.str []]] k (by decide) rfl (.inr ⟨0, by simp [CsvIO.encode, CsvIO.encodeCell, Csv.blank]⟩) hk
    have : es = [] := by
      have : (([[Val.str []]] : List (List Val)).filter fun row => Csv.blank (CsvIO.encode L row)).length = 1 := rfl
      simp only [this, List.length_cons, List.length_nil] at hl
      exact List.length_eq_zero_iff.1 (by omega)
    subst this
    exact ⟨st', h⟩

/-! ### examples -/

def exCols : List Column := [{ title := b!"a", type := [b!"string", b!"null"] }, { title := b!"b", type := [b!"integer"] }, { title := b!"c", type := [b!"boolean"] },
  { title := b!"d", type := [b!"date"] }, { title := b!"e", type := [b!"object"] }]

example : (reads script 2 { cols := exCols, maxLen := 8, random := [11, 0, 27, 61, 2 ^ 63 + 5, 7, 25, 0x3FF8000000000000] }).map (·.1) =
    some [{ index := 0, value := .arr [.str b!"aB9", .gint 6, .bool true, .f64 0x3FF8000000000000, .obj []] },
      { index := 1, value := .arr [.str [], .gint 0, .bool true, .null, .obj []] }] := by decide +kernel
example : readEntry script { cols := [{ title := b!"a", type := [] }], maxLen := 8, random := [] } = none := rfl
example : readEntry script { cols := exCols, maxLen := 0, random := [] } = none := rfl

end Verif.Generate
