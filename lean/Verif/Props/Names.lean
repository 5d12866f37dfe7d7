import Verif.Model.Names
import Mathlib.Data.List.Induction
/-
C09 (body file names and format detection), C10 (abstract column names), C11 (spreadsheet column letters),
C54 (kinds), and the format half of C44.
-/
set_option autoImplicit false
namespace Verif.Names

/-! ### C09: the file name of a body and the format detected from it -/

theorem extAux_app (e rest acc : Bytes) (h : ∀ b ∈ e, b ≠ 46 ∧ b ≠ 47) : extAux (e.reverse ++ 46 :: rest) acc = 46 :: (e ++ acc) := by
  induction e using List.reverseRecOn generalizing acc with
  | nil => simp [extAux]
  | append_singleton l a ih =>
    have ha := h a (by simp)
    simp only [List.reverse_append, List.reverse_cons, List.reverse_nil, List.nil_append, List.cons_append, extAux, if_neg ha.1, if_neg ha.2]
    rw [ih _ (fun b hb => h b (by simp [hb]))]
    simp

/-- a dotless last part with a dot before it is the extension -/
theorem ext_app (base e : Bytes) (h : ∀ b ∈ e, b ≠ 46 ∧ b ≠ 47) : ext (base ++ 46 :: e) = 46 :: e := by
  unfold ext
  have := extAux_app e base.reverse [] h
  simpa using this

theorem extAux_some (r acc : Bytes) (h : extAux r acc ≠ []) :
    ∃ e rest, extAux r acc = 46 :: (e ++ acc) ∧ r = e.reverse ++ 46 :: rest ∧ ∀ b ∈ e, b ≠ 46 ∧ b ≠ 47 := by
  induction r generalizing acc with
  | nil => simp [extAux] at h
  | cons c r ih =>
    simp only [extAux] at h ⊢
    by_cases h1 : c = 47
    · simp [h1] at h
    · by_cases h2 : c = 46
      · subst h2
        exact ⟨[], r, by simp, by simp, by simp⟩
      · simp only [if_neg h1, if_neg h2] at h ⊢
        obtain ⟨e, rest, h3, h4, h5⟩ := ih _ h
        refine ⟨e ++ [c], rest, by simp [h3], by simp [h4], ?_⟩
        intro b hb
        simp only [List.mem_append, List.mem_singleton] at hb
        rcases hb with hb | rfl
        · exact h5 b hb
        · exact ⟨h2, h1⟩

/-- an extension is a suffix of the path -/
theorem ext_some (p : Bytes) (h : ext p ≠ []) : ∃ base e, ext p = 46 :: e ∧ p = base ++ 46 :: e ∧ ∀ b ∈ e, b ≠ 46 ∧ b ≠ 47 := by
  obtain ⟨e, rest, h1, h2, h3⟩ := extAux_some _ _ h
  refine ⟨rest.reverse, e, by simpa [ext] using h1, ?_, h3⟩
  have := congrArg List.reverse h2
  simpa using this

theorem trimSuffix_app (a b : Bytes) : trimSuffix (a ++ b) b = a := by
  unfold trimSuffix
  rw [if_pos (by simp)]
  simp

/-- the accepted spellings of a format, apart from the empty one -/
theorem parse_cases (f : Bytes) (df : DataFormat) (h : parseDataFormat f = some df) (hu : df ≠ .unknown) :
    ∃ pre g, 46 :: f = pre ++ 46 :: g ∧ (∀ b ∈ g, b ≠ 46 ∧ b ≠ 47) ∧ formatOfExt (46 :: g) = some df ∧ parseCompression g = none ∧ f ≠ [] := by
  unfold parseDataFormat at h
  cases hf : formatTable.find? (fun e => decide (e.1 = f)) with
  | none => rw [hf] at h; cases h
  | some e =>
    rw [hf] at h
    obtain rfl : e.2 = df := by simpa using h
    have h1 := List.find?_some hf
    obtain rfl : e.1 = f := by simpa using h1
    have h2 := List.mem_of_find?_eq_some hf
    simp only [formatTable, List.mem_cons, List.not_mem_nil, or_false] at h2
    rcases h2 with rfl | rfl | rfl | rfl | rfl | rfl | rfl | rfl | rfl | rfl | rfl | rfl | rfl | rfl | rfl
    · exact absurd rfl hu
    · exact ⟨[46], b!"csv", rfl, by decide +kernel, by decide +kernel, by decide +kernel, by decide⟩
    · exact ⟨[], b!"csv", rfl, by decide +kernel, by decide +kernel, by decide +kernel, by decide⟩
    · exact ⟨[46], b!"json", rfl, by decide +kernel, by decide +kernel, by decide +kernel, by decide⟩
    · exact ⟨[], b!"json", rfl, by decide +kernel, by decide +kernel, by decide +kernel, by decide⟩
    · exact ⟨[46], b!"xml", rfl, by decide +kernel, by decide +kernel, by decide +kernel, by decide⟩
    · exact ⟨[], b!"xml", rfl, by decide +kernel, by decide +kernel, by decide +kernel, by decide⟩
    · exact ⟨[46], b!"xlsx", rfl, by decide +kernel, by decide +kernel, by decide +kernel, by decide⟩
    · exact ⟨[], b!"xlsx", rfl, by decide +kernel, by decide +kernel, by decide +kernel, by decide⟩
    · exact ⟨[], b!"cbor", rfl, by decide +kernel, by decide +kernel, by decide +kernel, by decide⟩
    · exact ⟨[46], b!"cbor", rfl, by decide +kernel, by decide +kernel, by decide +kernel, by decide⟩
    · exact ⟨[46], b!"ndjson", rfl, by decide +kernel, by decide +kernel, by decide +kernel, by decide⟩
    · exact ⟨[], b!"ndjson", rfl, by decide +kernel, by decide +kernel, by decide +kernel, by decide⟩
    · exact ⟨[46], b!"jsonl", rfl, by decide +kernel, by decide +kernel, by decide +kernel, by decide⟩
    · exact ⟨[], b!"jsonl", rfl, by decide +kernel, by decide +kernel, by decide +kernel, by decide⟩

theorem compression_cases (s : Bytes) (c : Compression) (h : parseCompression s = some c) :
    (∀ b ∈ s, b ≠ 46 ∧ b ≠ 47) ∧ s ≠ [] ∧ c ≠ .none := by
  unfold parseCompression at h
  cases hf : ([(b!"gzip", Compression.gzip), (b!"gz", .gzip), (b!"zst", .zstd), (b!"zstd", .zstd)] : List (Bytes × Compression)).find?
      (fun e => decide (e.1 = s)) with
  | none => rw [hf] at h; cases h
  | some e =>
    rw [hf] at h
    obtain rfl : e.2 = c := by simpa using h
    have h1 := List.find?_some hf
    obtain rfl : e.1 = s := by simpa using h1
    have h2 := List.mem_of_find?_eq_some hf
    simp only [List.mem_cons, List.not_mem_nil, or_false] at h2
    rcases h2 with rfl | rfl | rfl | rfl <;> decide +kernel

theorem formatOfExt_cases (e : Bytes) (f : DataFormat) (h : formatOfExt e = some f) :
    ∃ g, e = 46 :: g ∧ parseDataFormat g = some f ∧ f ≠ .unknown ∧ parseCompression g = none := by
  unfold formatOfExt at h
  cases hf : ([(b!".cbor", DataFormat.cbor), (b!".json", .json), (b!".csv", .csv), (b!".xml", .xml), (b!".xlsx", .xlsx), (b!".jsonl", .ndjson),
    (b!".ndjson", .ndjson)] : List (Bytes × DataFormat)).find? (fun x => decide (x.1 = e)) with
  | none => rw [hf] at h; cases h
  | some x =>
    rw [hf] at h
    obtain rfl : x.2 = f := by simpa using h
    have h1 := List.find?_some hf
    obtain rfl : x.1 = e := by simpa using h1
    have h2 := List.mem_of_find?_eq_some hf
    simp only [List.mem_cons, List.not_mem_nil, or_false] at h2
    rcases h2 with rfl | rfl | rfl | rfl | rfl | rfl | rfl <;> exact ⟨_, rfl, by decide +kernel, by decide, by decide +kernel⟩

/-- a compression the code names: nothing, or a spelling it parses -/
def IsCompression (s : Bytes) (c : Compression) : Prop := (s = [] ∧ c = .none) ∨ parseCompression s = some c

/-- **C09**: for every structure whose format and compression the package recognises, in whatever spelling, and for every
file name, the name with the structure's extensions added is detected as exactly that format and compression. -/
theorem C09_round_trip (base f s : Bytes) (df : DataFormat) (c : Compression) (hf : parseDataFormat f = some df) (hu : df ≠ .unknown)
    (hc : IsCompression s c) : formatFromFilename (addExtensions f s base) = some (df, c) := by
  obtain ⟨pre, g, h1, h2, h3, h4, h5⟩ := parse_cases f df hf hu
  have e1 : base ++ 46 :: f = (base ++ pre) ++ 46 :: g := by rw [h1]; simp
  rcases hc with ⟨rfl, rfl⟩ | hc
  · simp only [addExtensions, ne_eq, h5, not_false_eq_true, if_true, not_true_eq_false, if_false]
    rw [e1]
    unfold formatFromFilename
    rw [ext_app _ _ h2]
    simp [trimDot, h4, h3]
  · obtain ⟨h6, h7, _⟩ := compression_cases s c hc
    simp only [addExtensions, ne_eq, h5, not_false_eq_true, if_true, h7]
    unfold formatFromFilename
    rw [ext_app _ _ h6, trimSuffix_app, e1, ext_app _ _ h2]
    simp [trimDot, hc, h3]

example : formatFromFilename (addExtensions b!".csv" b!"gz" b!"a.b/v1.2") = some (.csv, .gzip) := by decide +kernel
example : bodyFilename b!"jsonl" b!"zstd" = b!"body.jsonl.zstd" := by decide +kernel

/-- **C09**, the other way: a detected format was spelled out at the end of the file name, and nothing else is detected. -/
theorem C09_detected_iff (path : Bytes) (df : DataFormat) (c : Compression) :
    formatFromFilename path = some (df, c) ↔
      ∃ base f s, path = addExtensions f s base ∧ parseDataFormat f = some df ∧ df ≠ .unknown ∧ IsCompression s c := by
  constructor
  · intro h
    unfold formatFromFilename at h
    cases hp : parseCompression (trimDot (ext path)) with
    | none =>
      rw [hp] at h
      cases hx : formatOfExt (ext path) with
      | none => rw [hx] at h; cases h
      | some f =>
        rw [hx] at h
        obtain ⟨rfl, rfl⟩ : f = df ∧ Compression.none = c := by simpa using h
        obtain ⟨g, h1, h2, h3, _⟩ := formatOfExt_cases _ _ hx
        obtain ⟨base, e, h4, h5, _⟩ := ext_some path (by rw [h1]; simp)
        obtain rfl : e = g := by rw [h4] at h1; simpa using h1
        refine ⟨base, e, [], ?_, h2, h3, Or.inl ⟨rfl, rfl⟩⟩
        have : e ≠ [] := by rintro rfl; exact h3 (by simpa [parseDataFormat, formatTable] using h2.symm)
        simp [addExtensions, this, h5]
    | some c' =>
      rw [hp] at h
      cases hx : formatOfExt (ext (trimSuffix path (ext path))) with
      | none => simp only [hx] at h; cases h
      | some f =>
        simp only [hx] at h
        obtain ⟨rfl, rfl⟩ : f = df ∧ c' = c := by simpa using h
        have hne : ext path ≠ [] := by
          intro h0
          rw [h0] at hp
          exact absurd hp (by simp [trimDot, parseCompression])
        obtain ⟨p1, s, h4, h5, _⟩ := ext_some path hne
        rw [h4] at hp hx
        rw [h5, trimSuffix_app] at hx
        obtain ⟨g, h1, h2, h3, _⟩ := formatOfExt_cases _ _ hx
        obtain ⟨base, e, h6, h7, _⟩ := ext_some p1 (by rw [h1]; simp)
        obtain rfl : e = g := by rw [h6] at h1; simpa using h1
        refine ⟨base, e, s, ?_, h2, h3, Or.inr hp⟩
        have : e ≠ [] := by rintro rfl; exact h3 (by simpa [parseDataFormat, formatTable] using h2.symm)
        have hs : s ≠ [] := (compression_cases s _ hp).2.1
        simp [addExtensions, this, hs, h5, h7]
  · rintro ⟨base, f, s, rfl, h1, h2, h3⟩
    exact C09_round_trip base f s df c h1 h2 h3

/-- Body file names of two recognised structures agree only if the structures name the same format and compression. -/
theorem C09_names_tell_apart (f f' s s' : Bytes) (df df' : DataFormat) (c c' : Compression) (b b' : Bytes) (hf : parseDataFormat f = some df)
    (hu : df ≠ .unknown) (hc : IsCompression s c) (hf' : parseDataFormat f' = some df') (hu' : df' ≠ .unknown) (hc' : IsCompression s' c')
    (h : addExtensions f s b = addExtensions f' s' b') : df = df' ∧ c = c' := by
  have h1 := C09_round_trip b f s df c hf hu hc
  rw [h, C09_round_trip b' f' s' df' c' hf' hu' hc'] at h1
  simpa [eq_comm] using h1

/-- A structure without a format has a body file name from which no format is detected. -/
theorem C09_no_format (s : Bytes) (c : Compression) (hc : IsCompression s c) : formatFromFilename (bodyFilename [] s) = none := by
  rcases hc with ⟨rfl, rfl⟩ | hc
  · decide +kernel
  · obtain ⟨h6, h7, _⟩ := compression_cases s c hc
    simp only [bodyFilename, addExtensions, ne_eq, not_true_eq_false, if_false, h7, not_false_eq_true, if_true]
    unfold formatFromFilename
    rw [ext_app _ _ h6, trimSuffix_app]
    simp only [trimDot, hc]
    rw [show formatOfExt (ext b!"body") = none by decide +kernel]
    rfl

/-! ### C44: the enumerations, formats and compression -/

/-- **C44** for data formats: the printed name parses to the format it was printed from. -/
theorem C44_format_parse_print (f : DataFormat) : parseDataFormat f.string = some f := by cases f <;> decide +kernel

/-- Every accepted spelling: a printed name, with or without a dot, or the second name of NDJSON. -/
theorem C44_format_spellings (s : Bytes) (f : DataFormat) : parseDataFormat s = some f ↔
    s = f.string ∨ (f ≠ .unknown ∧ s = 46 :: f.string) ∨ (f = .ndjson ∧ (s = b!"jsonl" ∨ s = b!".jsonl")) := by
  constructor
  · intro h
    unfold parseDataFormat at h
    cases hf : formatTable.find? (fun e => decide (e.1 = s)) with
    | none => rw [hf] at h; cases h
    | some e =>
      rw [hf] at h
      obtain rfl : e.2 = f := by simpa using h
      have h1 := List.find?_some hf
      obtain rfl : e.1 = s := by simpa using h1
      have h2 := List.mem_of_find?_eq_some hf
      simp only [formatTable, List.mem_cons, List.not_mem_nil, or_false] at h2
      rcases h2 with rfl | rfl | rfl | rfl | rfl | rfl | rfl | rfl | rfl | rfl | rfl | rfl | rfl | rfl | rfl <;> decide +kernel
  · rintro (rfl | ⟨h, rfl⟩ | ⟨rfl, rfl | rfl⟩)
    · exact C44_format_parse_print f
    · cases f <;> first | exact absurd rfl h | decide +kernel
    · decide +kernel
    · decide +kernel

/-- JSON: a format is written and read back as itself, except the unknown one, which is not written at all. -/
theorem C44_format_json (f : DataFormat) :
    (f ≠ .unknown → ∃ v, f.marshal = some v ∧ DataFormat.unmarshal v = some f) ∧ (f = .unknown → f.marshal = none) := by
  constructor
  · intro h
    exact ⟨.str f.string, by simp [DataFormat.marshal, h], C44_format_parse_print f⟩
  · rintro rfl; rfl

/-- **C44** for compression: the name of a compression parses to it; the empty name does not parse. -/
theorem C44_compression_parse_print (c : Compression) : parseCompression c.string = if c = .none then none else some c := by
  cases c <;> decide +kernel

example : parseDataFormat b!"CSV" = none ∧ parseDataFormat b!"jsonl" = some .ndjson ∧ parseCompression b!"gz" = some .gzip := by decide +kernel

/-! ### C10: abstract column names -/

theorem digits26_fuel (f g d : Nat) (hf : d ≤ f) (hg : d ≤ g) : digits26 f d = digits26 g d := by
  induction f generalizing g d with
  | zero =>
    obtain rfl : d = 0 := by omega
    cases g <;> simp [digits26]
  | succ f ih =>
    cases g with
    | zero =>
      obtain rfl : d = 0 := by omega
      simp [digits26]
    | succ g =>
      simp only [digits26]
      by_cases h : d = 0
      · simp [h]
      · simp only [h, if_false]
        rw [ih g (d / 26) (by omega) (by omega)]

theorem digits26_step (d : Nat) (h : d ≠ 0) : digits26 d d = (d % 26) :: digits26 (d / 26) (d / 26) := by
  obtain ⟨k, rfl⟩ : ∃ k, d = k + 1 := ⟨d - 1, by omega⟩
  rw [digits26, if_neg h]
  rw [digits26_fuel k ((k + 1) / 26) _ (by omega) (by omega)]

theorem digits26_lt (f d : Nat) : ∀ x ∈ digits26 f d, x < 26 := by
  induction f generalizing d with
  | zero => simp [digits26]
  | succ f ih =>
    intro x hx
    simp only [digits26] at hx
    split at hx
    · simp at hx
    · rcases List.mem_cons.1 hx with rfl | hx
      · exact Nat.mod_lt _ (by omega)
      · exact ih _ x hx

/-- the letter of a digit that is not the last -/
def hi (c : Nat) : UInt8 := if 0 < c then lower (c - 1) else lower c

theorem letters26_app (l : List Nat) (c : Nat) : letters26 (l ++ [c]) = l.map hi ++ [lower c] := by
  induction l with
  | nil => rfl
  | cons a l ih =>
    have : letters26 (a :: (l ++ [c])) = hi a :: letters26 (l ++ [c]) := by
      cases l <;> rfl
    simp [this, ih]

/-- the name of a column: the letters of its base 26 digits -/
theorem base26_eq (d : Nat) (h : d ≠ 0) :
    base26 d = (digits26 (d / 26) (d / 26)).reverse.map hi ++ [lower (d % 26)] := by
  simp only [base26, h, if_false]
  rw [digits26_step d h, List.reverse_cons, letters26_app]

theorem lower_toNat (n : Nat) (h : n < 26) : (lower n).toNat = 97 + n := by
  simp only [lower, UInt8.toNat_ofNat']
  omega

theorem lower_inj (a b : Nat) (ha : a < 26) (hb : b < 26) (h : lower a = lower b) : a = b := by
  have := congrArg UInt8.toNat h
  rw [lower_toNat a ha, lower_toNat b hb] at this
  omega

/-- an ASCII lower case letter -/
def IsLower (b : UInt8) : Prop := 97 ≤ b.toNat ∧ b.toNat ≤ 122

theorem lower_isLower (n : Nat) (h : n < 26) : IsLower (lower n) := by
  unfold IsLower; rw [lower_toNat n h]; omega

/-- **C10**: a column name is a non-empty word of lower case letters, for every column. -/
theorem C10_names_are_words (d : Nat) : base26 d ≠ [] ∧ ∀ b ∈ base26 d, IsLower b := by
  by_cases h : d = 0
  · subst h
    exact ⟨by decide, by intro b hb; obtain rfl : b = 97 := by simpa [base26] using hb
                         exact ⟨by decide, by decide⟩⟩
  · rw [base26_eq d h]
    refine ⟨by simp, ?_⟩
    intro b hb
    rcases List.mem_append.1 hb with hb | hb
    · simp only [List.mem_map, List.mem_reverse] at hb
      obtain ⟨x, hx, rfl⟩ := hb
      have := digits26_lt _ _ x hx
      unfold hi
      split
      · exact lower_isLower _ (by omega)
      · exact lower_isLower _ (by omega)
    · obtain rfl : b = lower (d % 26) := by simpa using hb
      exact lower_isLower _ (Nat.mod_lt _ (by omega))

theorem base26_one (d : Nat) (h : d < 26) : base26 d = [lower d] := by
  by_cases h0 : d = 0
  · subst h0; decide
  · rw [base26_eq d h0, Nat.div_eq_of_lt h, Nat.mod_eq_of_lt h]
    simp [digits26]

theorem digits26_small (d : Nat) (h0 : d ≠ 0) (h : d < 26) : digits26 d d = [d] := by
  rw [digits26_step d h0, Nat.div_eq_of_lt h, Nat.mod_eq_of_lt h]
  simp [digits26]

theorem base26_two (d : Nat) (h1 : 26 ≤ d) (h2 : d < 676) : base26 d = [lower (d / 26 - 1), lower (d % 26)] := by
  rw [base26_eq d (by omega), digits26_small (d / 26) (by omega) (by omega)]
  have : 0 < d / 26 := by omega
  simp [hi, this]

theorem base26_three (d : Nat) (h1 : 676 ≤ d) (h2 : d < 702) : base26 d = [lower 0, lower 0, lower (d - 676)] := by
  rw [base26_eq d (by omega)]
  have e1 : d / 26 = 26 := by omega
  have e2 : d % 26 = d - 676 := by omega
  rw [e1, e2]
  rfl

/-- **C10**: the names of the first 702 columns are pairwise different. -/
theorem C10_distinct (i j : Nat) (hi : i < 702) (hj : j < 702) (h : base26 i = base26 j) : i = j := by
  have c : ∀ n, n < 702 → (n < 26 ∨ (26 ≤ n ∧ n < 676) ∨ (676 ≤ n ∧ n < 702)) := by intro n; omega
  rcases c i hi with a | ⟨a, a'⟩ | ⟨a, a'⟩ <;> rcases c j hj with b | ⟨b, b'⟩ | ⟨b, b'⟩
  · rw [base26_one i a, base26_one j b] at h
    exact lower_inj i j a b (by simpa using h)
  · rw [base26_one i a, base26_two j b b'] at h; simp at h
  · rw [base26_one i a, base26_three j b b'] at h; simp at h
  · rw [base26_two i a a', base26_one j b] at h; simp at h
  · rw [base26_two i a a', base26_two j b b'] at h
    simp only [List.cons.injEq, and_true] at h
    have h1 := lower_inj _ _ (by omega) (by omega) h.1
    have h2 := lower_inj _ _ (by omega) (by omega) h.2
    omega
  · rw [base26_two i a a', base26_three j b b'] at h; simp at h
  · rw [base26_three i a a', base26_one j b] at h; simp at h
  · rw [base26_three i a a', base26_two j b b'] at h; simp at h
  · rw [base26_three i a a', base26_three j b b'] at h
    simp only [List.cons.injEq, and_true, true_and] at h
    have := lower_inj _ _ (by omega) (by omega) h
    omega

/-- **C10**, the other side: from column 676 on, the 26 columns from each multiple of 676 share their names with the 26 columns
that follow them. -/
theorem C10_collisions (a c : Nat) (ha : 0 < a) (hc : c < 26) : base26 (676 * a + c) = base26 (676 * a + 26 + c) := by
  rw [base26_eq _ (by omega), base26_eq (676 * a + 26 + c) (by omega)]
  have e1 : (676 * a + c) / 26 = 26 * a := by omega
  have e2 : (676 * a + 26 + c) / 26 = 26 * a + 1 := by omega
  have e3 : (676 * a + c) % 26 = c := by omega
  have e4 : (676 * a + 26 + c) % 26 = c := by omega
  rw [e1, e2, e3, e4, digits26_step (26 * a) (by omega), digits26_step (26 * a + 1) (by omega)]
  have e5 : 26 * a % 26 = 0 := by omega
  have e6 : (26 * a + 1) % 26 = 1 := by omega
  have e7 : 26 * a / 26 = a := by omega
  have e8 : (26 * a + 1) / 26 = a := by omega
  rw [e5, e6, e7, e8]
  simp [hi]

/-- so 702 is the exact bound: it is the first column whose name was given before -/
theorem C10_bound_is_sharp : base26 702 = base26 676 := (C10_collisions 1 0 (by omega) (by omega)).symm

example : base26 25 = b!"z" ∧ base26 26 = b!"aa" ∧ base26 675 = b!"yz" ∧ base26 676 = b!"aaa" := by decide +kernel

/-! ### C11: spreadsheet column letters -/

/-- the number a spreadsheet gives a column name: A is 1, Z is 26, AA is 27 -/
def columnNumber (s : Bytes) : Nat := s.foldl (fun acc b => acc * 26 + (b.toNat - 64)) 0

/-- a word of upper case letters -/
def IsUpperWord (s : Bytes) : Prop := s ≠ [] ∧ ∀ b ∈ s, 65 ≤ b.toNat ∧ b.toNat ≤ 90

theorem lle_one (x : Nat) (h : x < 26) : largestLesserExponent x = 1 := by
  unfold largestLesserExponent
  rw [largestLesserAux, if_neg (by omega)]

theorem lle_two (x : Nat) (h1 : 26 ≤ x) (h2 : x < 676) : largestLesserExponent x = 26 := by
  unfold largestLesserExponent
  obtain ⟨k, rfl⟩ : ∃ k, x = k + 1 := ⟨x - 1, by omega⟩
  rw [largestLesserAux, if_pos h1, largestLesserAux, if_neg (by omega)]

theorem lle_three (x : Nat) (h1 : 676 ≤ x) (h2 : x < 17576) : largestLesserExponent x = 676 := by
  unfold largestLesserExponent
  obtain ⟨k, rfl⟩ : ∃ k, x = k + 2 := ⟨x - 2, by omega⟩
  rw [largestLesserAux, if_pos (by omega), largestLesserAux, if_pos (by omega), largestLesserAux, if_neg (by omega)]

theorem letters_one (x : Nat) (h : x < 26) : colIndexToLetters x = [UInt8.ofNat (x + 65)] := by
  unfold colIndexToLetters intToBase26
  rw [lle_one x h]
  simp [intToBase26Aux, smoosh, smooshAux, formatColumnName]

theorem parts_two (x : Nat) (h1 : 26 ≤ x) (h2 : x < 676) : intToBase26 x = [x / 26, x % 26] := by
  unfold intToBase26
  rw [lle_two x h1 h2]
  simp [intToBase26Aux]

theorem parts_three (x : Nat) (h1 : 676 ≤ x) (h2 : x < 17576) : intToBase26 x = [x / 676, x % 676 / 26, x % 26] := by
  unfold intToBase26
  rw [lle_three x h1 h2]
  simp [intToBase26Aux]

theorem letters_two (x : Nat) (h1 : 26 ≤ x) (h2 : x < 676) : colIndexToLetters x = [UInt8.ofNat (x / 26 + 64), UInt8.ofNat (x % 26 + 65)] := by
  unfold colIndexToLetters
  rw [parts_two x h1 h2]
  have : 0 < x / 26 := by omega
  simp [smoosh, smooshAux, formatColumnName, this]

theorem letters_three (x : Nat) (h1 : 676 ≤ x) (h2 : x < 17576) : colIndexToLetters x =
    if x % 676 / 26 = 0 then (if x / 676 = 1 then [] else [UInt8.ofNat (x / 676 - 1 + 64)]) ++ [UInt8.ofNat (26 + 64), UInt8.ofNat (x % 26 + 65)]
    else [UInt8.ofNat (x / 676 + 64), UInt8.ofNat (x % 676 / 26 + 64), UInt8.ofNat (x % 26 + 65)] := by
  unfold colIndexToLetters
  rw [parts_three x h1 h2]
  have h3 : 0 < x / 676 := by omega
  by_cases h : x % 676 / 26 = 0
  · by_cases h4 : x / 676 = 1
    · simp [smoosh, smooshAux, h, formatColumnName, h4]
    · have : 0 < x / 676 - 1 := by omega
      simp [smoosh, smooshAux, h, formatColumnName, h4, h3, this]
  · have : 0 < x % 676 / 26 := by omega
    simp [smoosh, smooshAux, h, formatColumnName, h3, this]

theorem u8 (n : Nat) (h : n < 256) : (UInt8.ofNat n).toNat = n := by
  simp only [UInt8.toNat_ofNat']; omega

/-- **C11**: for every column index below 26³ (which covers the 16384 columns a spreadsheet can have) the letters are the
spreadsheet's own name of that column. -/
theorem C11_letters (x : Nat) (h : x < 17576) : IsUpperWord (colIndexToLetters x) ∧ columnNumber (colIndexToLetters x) = x + 1 := by
  have c : x < 26 ∨ (26 ≤ x ∧ x < 676) ∨ 676 ≤ x := by omega
  rcases c with a | ⟨a, b⟩ | a
  · rw [letters_one x a]
    have e := u8 (x + 65) (by omega)
    refine ⟨⟨by simp, ?_⟩, ?_⟩
    · simp; omega
    · simp only [columnNumber, List.foldl_cons, List.foldl_nil, e]; omega
  · rw [letters_two x a b]
    have e := u8 (x / 26 + 64) (by omega)
    have e' := u8 (x % 26 + 65) (by omega)
    refine ⟨⟨by simp, ?_⟩, ?_⟩
    · simp; omega
    · simp only [columnNumber, List.foldl_cons, List.foldl_nil, e, e']; omega
  · rw [letters_three x a h]
    have e1 := u8 (x / 676 + 64) (by omega)
    have e2 := u8 (x % 676 / 26 + 64) (by omega)
    have e3 := u8 (x % 26 + 65) (by omega)
    have e4 := u8 (26 + 64) (by omega)
    have e5 := u8 (x / 676 - 1 + 64) (by omega)
    by_cases h1 : x % 676 / 26 = 0
    · rw [if_pos h1]
      by_cases h2 : x / 676 = 1
      · rw [if_pos h2]
        refine ⟨⟨by simp, ?_⟩, ?_⟩
        · intro b hb
          simp only [List.nil_append, List.mem_cons, List.not_mem_nil, or_false] at hb
          rcases hb with rfl | rfl
          · rw [e4]; omega
          · rw [e3]; omega
        · simp only [columnNumber, List.nil_append, List.foldl_cons, List.foldl_nil, e4, e3]; omega
      · rw [if_neg h2]
        refine ⟨⟨by simp, ?_⟩, ?_⟩
        · intro b hb
          simp only [List.cons_append, List.nil_append, List.mem_cons, List.not_mem_nil, or_false] at hb
          rcases hb with rfl | rfl | rfl
          · rw [e5]; omega
          · rw [e4]; omega
          · rw [e3]; omega
        · simp only [columnNumber, List.cons_append, List.nil_append, List.foldl_cons, List.foldl_nil, e5, e4, e3]; omega
    · rw [if_neg h1]
      refine ⟨⟨by simp, ?_⟩, ?_⟩
      · intro b hb
        simp only [List.mem_cons, List.not_mem_nil, or_false] at hb
        rcases hb with rfl | rfl | rfl
        · rw [e1]; omega
        · rw [e2]; omega
        · rw [e3]; omega
      · simp only [columnNumber, List.foldl_cons, List.foldl_nil, e1, e2, e3]; omega

/-- so different columns get different letters -/
theorem C11_distinct (x y : Nat) (hx : x < 17576) (hy : y < 17576) (h : colIndexToLetters x = colIndexToLetters y) : x = y := by
  have h1 := (C11_letters x hx).2
  have h2 := (C11_letters y hy).2
  rw [h] at h1
  omega

theorem columnNumber_app (s : Bytes) (b : UInt8) : columnNumber (s ++ [b]) = columnNumber s * 26 + (b.toNat - 64) := by
  simp [columnNumber]

/-- the name a spreadsheet gives a column is determined by its number -/
theorem columnNumber_inj (s t : Bytes) (hs : ∀ b ∈ s, 65 ≤ b.toNat ∧ b.toNat ≤ 90) (ht : ∀ b ∈ t, 65 ≤ b.toNat ∧ b.toNat ≤ 90)
    (h : columnNumber s = columnNumber t) : s = t := by
  induction s using List.reverseRecOn generalizing t with
  | nil =>
    cases t using List.reverseRecOn with
    | nil => rfl
    | append_singleton t b =>
      have := ht b (by simp)
      rw [columnNumber_app] at h
      simp [columnNumber] at h
      omega
  | append_singleton s a ih =>
    have ha := hs a (by simp)
    cases t using List.reverseRecOn with
    | nil =>
      rw [columnNumber_app] at h
      simp [columnNumber] at h
      omega
    | append_singleton t b =>
      have hb := ht b (by simp)
      rw [columnNumber_app, columnNumber_app] at h
      have h1 : a.toNat = b.toNat := by omega
      have h2 : columnNumber s = columnNumber t := by omega
      obtain rfl := UInt8.toNat_inj.1 h1
      rw [ih t (fun c hc => hs c (by simp [hc])) (fun c hc => ht c (by simp [hc])) h2]

/-- **C11**: any upper case word whose number is the column's is what the code writes: the letters are *the* name. -/
theorem C11_unique (x : Nat) (h : x < 17576) (s : Bytes) (hs : IsUpperWord s) (hn : columnNumber s = x + 1) : colIndexToLetters x = s := by
  have h1 := C11_letters x h
  exact columnNumber_inj _ _ h1.1.2 hs.2 (by omega)

/-- The bound is sharp: column 17576 gets the letters of column 676. -/
theorem C11_bound_is_sharp : colIndexToLetters 17576 = colIndexToLetters 676 := by
  rw [letters_three 676 (by omega) (by omega)]
  have : largestLesserExponent 17576 = 17576 := by
    unfold largestLesserExponent
    rw [show 17576 + 1 = 17573 + 1 + 1 + 1 + 1 from rfl]
    simp [largestLesserAux]
  unfold colIndexToLetters intToBase26
  rw [this, show 17576 + 1 = 17572 + 1 + 1 + 1 + 1 + 1 from rfl]
  simp [intToBase26Aux, smoosh, smooshAux, formatColumnName]

example : colIndexToLetters 25 = b!"Z" ∧ colIndexToLetters 26 = b!"AA" ∧ colIndexToLetters 701 = b!"ZZ" ∧ colIndexToLetters 702 = b!"AAA" := by
  decide +kernel
example : columnNumber b!"XFD" = 16384 := by decide +kernel

/-! ### C54: kinds -/

/-- **C54**: a kind read from JSON is long enough for its type and its version to be taken from it, whatever the bytes. -/
theorem C54_accepted_kinds_split (v : Val) (k : Bytes) (h : kindUnmarshal v = some k) :
    ∃ t c ver, k = t ++ c :: ver ∧ t.length = 2 ∧ ver ≠ [] ∧ kindType k = some t ∧ kindVersion k = some ver := by
  unfold kindUnmarshal at h
  cases hj : jsonString v with
  | none => simp [hj] at h
  | some s =>
    simp only [hj, Option.bind_some] at h
    split at h
    · rename_i hv
      obtain rfl : s = k := by simpa using h
      simp only [kindValid, decide_eq_true_eq] at hv
      match s, hv with
      | a :: b :: c :: d :: r, _ => exact ⟨[a, b], c, d :: r, rfl, rfl, by simp, by simp [kindType], by simp [kindVersion]⟩
    · cases h

/-- exactly the strings of four bytes or more are accepted; the separator is not looked at -/
theorem C54_accepted_iff (s : Bytes) : (∃ k, kindUnmarshal (.str s) = some k) ↔ 4 ≤ s.length := by
  simp [kindUnmarshal, jsonString, kindValid]

/-- splitting and prefixing: the type of a kind put before a word is found again -/
theorem C54_prefix (k s p : Bytes) (h : componentTypePrefix k s = some p) : kindType p = kindType k ∧ kindVersion p = some s := by
  unfold componentTypePrefix kindType at h
  split at h
  · rename_i hk
    obtain rfl : k.take 2 ++ 58 :: s = p := by simpa using h
    match k, hk with
    | a :: b :: r, _ => simp [kindType, kindVersion]
  · cases h

/-- the kinds of the package: accepted, told apart by their types, all at version 0 -/
theorem C54_kinds : (∀ k ∈ kinds, kindUnmarshal (.str k) = some k ∧ kindVersion k = some b!"0") ∧ (kinds.map kindType).Nodup := by
  decide +kernel

/-- the witness that the separator is not looked at -/
theorem C54_separator_not_checked : kindUnmarshal (.str b!"abcd") = some b!"abcd" ∧ kindType b!"abcd" = some b!"ab" ∧ kindVersion b!"abcd" = some b!"d" := by
  decide +kernel

example : componentTypePrefix b!"ds:0" b!"hello" = some b!"ds:hello" ∧ kindUnmarshal (.str b!"ds:") = none := by decide +kernel
end Verif.Names
