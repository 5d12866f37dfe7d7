import Verif.Model.Vals
/-
C41 (literals), C42 (comparison), C43 (guessing types), C44 (value types), C55 (decoded data as values).
-/
set_option autoImplicit false
namespace Verif.Vals

/-! ### strconv.ParseInt -/

theorem parseUintLoop_some (s : Bytes) (n m : Nat) (h : parseUintLoop n s = .inl (some m)) : parseNatAux n s = some m := by
  induction s generalizing n with
  | nil => simpa [parseUintLoop, parseNatAux] using h
  | cons c s ih =>
    simp only [parseUintLoop] at h
    split at h
    · cases h
    · rename_i hd
      split at h
      · cases h
      · split at h
        · cases h
        · simp only [parseNatAux]
          rw [if_pos (by simpa using hd)]
          exact ih _ h

theorem parseNatAux_ge (s : Bytes) (n m : Nat) (h : parseNatAux n s = some m) : n ≤ m := by
  induction s generalizing n with
  | nil => simp [parseNatAux] at h; omega
  | cons c s ih =>
    simp only [parseNatAux] at h
    split at h
    · have := ih _ h; omega
    · cases h

theorem parseUintLoop_of_nat (s : Bytes) (n m : Nat) (h : parseNatAux n s = some m) (hm : m < 2 ^ 64) : parseUintLoop n s = .inl (some m) := by
  induction s generalizing n with
  | nil => simpa [parseUintLoop, parseNatAux] using h
  | cons c s ih =>
    simp only [parseNatAux] at h
    split at h
    · rename_i hd
      have hge := parseNatAux_ge _ _ _ h
      simp only [parseUintLoop]
      rw [if_neg (by simp [hd]), if_neg (by omega), if_neg (by omega)]
      exact ih _ h
    · cases h

theorem isInt64_iff (i : Int) : IsInt64 i ↔ -2 ^ 63 ≤ i ∧ i < 2 ^ 63 := by unfold IsInt64; omega

theorem parseUintLoop_iff (s : Bytes) (m : Nat) : parseUintLoop 0 s = .inl (some m) ↔ parseNatAux 0 s = some m ∧ m < 2 ^ 64 := by
  constructor
  · intro h
    refine ⟨parseUintLoop_some s 0 m h, ?_⟩
    have : ∀ (s : Bytes) (n : Nat), n < 2 ^ 64 → parseUintLoop n s = .inl (some m) → m < 2 ^ 64 := by
      intro s
      induction s with
      | nil => intro n hn h; simp only [parseUintLoop, Sum.inl.injEq, Option.some.injEq] at h; omega
      | cons c s ih =>
        intro n hn h
        simp only [parseUintLoop] at h
        split at h
        · cases h
        · split at h
          · cases h
          · split at h
            · cases h
            · exact ih _ (by omega) h
    exact this s 0 (by omega) h
  · rintro ⟨h, hm⟩
    exact parseUintLoop_of_nat s 0 m h hm

/-- the value of the digits, within a bound below 2^64 -/
theorem loop_bounded (ds : Bytes) (B : Nat) (hB : B ≤ 2 ^ 64) (n : Nat) (hn : n < B) :
    parseUintLoop 0 ds = .inl (some n) ↔ parseNatAux 0 ds = some n := by
  rw [parseUintLoop_iff]
  exact ⟨fun h => h.1, fun h => ⟨h, by omega⟩⟩

/-- the parser with its two kinds of errors accepts what `atoi` accepts -/
theorem parseIntE_ok (s : Bytes) (i : Int) : parseIntE s = .ok i ↔ atoi s = some i := by
  cases s with
  | nil => simp [parseIntE, atoi]
  | cons c s =>
    have key : ∀ ds : Bytes, ds ≠ [] → ∀ neg : Bool,
        ((match parseUintLoop 0 ds with
          | .inr _ => IntRes.rangeErr
          | .inl none => .syntaxErr
          | .inl (some n) => if neg = true then (if 2 ^ 63 < n then .rangeErr else .ok (-(n : Int))) else (if 2 ^ 63 ≤ n then .rangeErr else .ok n)) = .ok i
        ↔ (match parseNat ds with
          | none => none
          | some n => if IsInt64 (if neg = true then -(n : Int) else n) then some (if neg = true then -(n : Int) else n) else none) = some i) := by
      intro ds hds neg
      rw [parseNat_eq hds]
      cases hp : parseNatAux 0 ds with
      | none =>
        simp only [reduceCtorEq, iff_false]
        cases hl : parseUintLoop 0 ds with
        | inr u => simp
        | inl o =>
          cases o with
          | none => simp
          | some n => rw [parseUintLoop_some ds 0 n hl] at hp; cases hp
      | some n =>
        by_cases hn : n < 2 ^ 64
        · rw [(parseUintLoop_iff ds n).2 ⟨hp, hn⟩]
          simp only [isInt64_iff]
          cases neg
          · simp only [Bool.false_eq_true, if_false]
            by_cases hb : 2 ^ 63 ≤ n
            · rw [if_pos hb, if_neg (by omega)]; simp
            · rw [if_neg hb, if_pos (by omega)]; simp
          · simp only [if_true]
            by_cases hb : 2 ^ 63 < n
            · rw [if_pos hb, if_neg (by omega)]; simp
            · rw [if_neg hb, if_pos (by omega)]; simp
        · have hr : ¬ IsInt64 (if neg = true then -(n : Int) else n) := by
            rw [isInt64_iff]; cases neg
            · simp only [Bool.false_eq_true, if_false]; omega
            · simp only [if_true]; omega
          simp only [if_neg hr, reduceCtorEq, iff_false]
          cases hl : parseUintLoop 0 ds with
          | inr u => simp
          | inl o =>
            cases o with
            | none => simp
            | some m =>
              have := (parseUintLoop_iff ds m).1 hl
              rw [hp] at this
              have h1 : n = m := by simpa using this.1
              omega
    simp only [parseIntE, atoi]
    by_cases hs : c = 45 ∨ c = 43
    · simp only [if_pos hs]
      by_cases h0 : s = []
      · subst h0; simp [parseNat]
      · rw [if_neg h0]
        have := key s h0 (decide (c = 45))
        simp only [decide_eq_true_eq] at this
        exact this
    · simp only [if_neg hs]
      rw [if_neg (by simp)]
      have := key (c :: s) (by simp) (decide (c = 45))
      simp only [decide_eq_true_eq] at this
      exact this

theorem parseInteger_eq (s : Bytes) : parseInteger s = atoi s := by
  unfold parseInteger
  cases h : parseIntE s with
  | ok i => exact ((parseIntE_ok s i).1 h).symm
  | syntaxErr =>
    cases ha : atoi s with
    | none => rfl
    | some i => rw [(parseIntE_ok s i).2 ha] at h; cases h
  | rangeErr =>
    cases ha : atoi s with
    | none => rfl
    | some i => rw [(parseIntE_ok s i).2 ha] at h; cases h

/-! ### C41: printing a cell and parsing it -/

/-- the Go value a cell holds for its type; an integer cell holds an `int` when it is printed -/
inductive Cell (L : Lib) : VType → Val → Val → Prop
  | integer (i : Int) : IsInt64 i → Cell L .integer (.gint i) (.int i)
  | boolean (b : Bool) : Cell L .boolean (.bool b) (.bool b)
  | string (s : Bytes) : Cell L .string (.str s) (.str s)
  | number (x : UInt64) : L.parse64 (L.fmtG x) = some x → Cell L .number (.f64 x) (.f64 x)

/-- **C41**: a cell printed under its type and parsed under that type is the same value, only that an `int` comes back as an
`int64`.  For floats this rests on strconv printing them so that they parse back (the hypothesis of `Cell.number`). -/
theorem C41_print_parse (L : Lib) (t : VType) (v w : Val) (h : Cell L t v w) :
    ∃ s, t.valueToString L v = some s ∧ t.parse L s = some w := by
  cases h with
  | integer i hi =>
    refine ⟨fmtInt i, rfl, ?_⟩
    simp [VType.parse, parseInteger_eq, atoi_fmtInt i hi]
  | boolean b => cases b <;> exact ⟨_, rfl, by simp [VType.parse, parseBool]⟩
  | string s => exact ⟨s, rfl, rfl⟩
  | number x hx => exact ⟨L.fmtG x, rfl, by simp [VType.parse, hx]⟩

/-- **C41**, which cells can be printed: exactly values of the Go type the type names (an `int` for an integer). -/
theorem C41_printable (L : Lib) (v : Val) :
    ((∃ s, VType.integer.valueToString L v = some s) ↔ ∃ i, v = .gint i) ∧
    ((∃ s, VType.boolean.valueToString L v = some s) ↔ ∃ b, v = .bool b) ∧
    ((∃ s, VType.string.valueToString L v = some s) ↔ ∃ s, v = .str s) ∧
    ((∃ s, VType.number.valueToString L v = some s) ↔ ∃ x, v = .f64 x) := by
  cases v <;> simp [VType.valueToString]

/-- **C41**, the half that fails: no integer that was parsed from text can be printed again. -/
theorem C41_parsed_integers_do_not_print (L : Lib) (s : Bytes) (v : Val) (h : VType.integer.parse L s = some v) :
    VType.integer.valueToString L v = none := by
  simp only [VType.parse, Option.map_eq_some_iff] at h
  obtain ⟨i, _, rfl⟩ := h
  rfl

/-- parsed booleans, strings and numbers can be printed again -/
theorem C41_parsed_others_print (L : Lib) (t : VType) (s : Bytes) (v : Val) (ht : t = .boolean ∨ t = .string ∨ t = .number)
    (h : t.parse L s = some v) : ∃ s', t.valueToString L v = some s' := by
  rcases ht with rfl | rfl | rfl
  · simp only [VType.parse, Option.map_eq_some_iff] at h
    obtain ⟨b, _, rfl⟩ := h
    exact ⟨_, rfl⟩
  · simp only [VType.parse, Option.some.injEq] at h
    subst h
    exact ⟨_, rfl⟩
  · simp only [VType.parse, Option.map_eq_some_iff] at h
    obtain ⟨b, _, rfl⟩ := h
    exact ⟨_, rfl⟩

/-- a library without floats and JSON, for the examples -/
def noLib : Lib := { parse64 := fun _ => none, parse32 := fun _ => true, fmtG := fun _ => [], unmarshalMap := fun _ => none, unmarshalSlice := fun _ => none, marshal := fun _ => none }

example : VType.integer.valueToString noLib (.gint (-42)) = some b!"-42" ∧ VType.integer.parse noLib b!"-42" = some (.int (-42)) := by
  decide +kernel
example : Cell noLib .integer (.gint (-42)) (.int (-42)) := .integer _ (by decide)
/-- the witness: 7 is parsed from text and cannot be printed again -/
example : VType.integer.parse noLib b!"7" = some (.int 7) ∧ VType.integer.valueToString noLib (.int 7) = none := by decide +kernel

/-! ### C44: value types -/

/-- **C44** for value types: the printed name parses to the type; the byte type prints as nothing and is lost. -/
theorem C44_type_parse_print (t : VType) : typeFromString t.name = if t = .bytes then .unknown else t := by
  cases t <;> decide +kernel

/-- every name that is not a printed name is the unknown type -/
theorem C44_type_unknown (s : Bytes) (h : typeFromString s ≠ .unknown) : s = (typeFromString s).name := by
  unfold typeFromString at h ⊢
  cases hf : ([(b!"string", VType.string), (b!"integer", .integer), (b!"number", .number), (b!"boolean", .boolean), (b!"object", .object),
    (b!"array", .array), (b!"null", .null)] : List (Bytes × VType)).find? (fun e => decide (e.1 = s)) with
  | none => rw [hf] at h; exact absurd rfl h
  | some e =>
    have h1 := List.find?_some hf
    obtain rfl : e.1 = s := by simpa using h1
    have h2 := List.mem_of_find?_eq_some hf
    simp only [List.mem_cons, List.not_mem_nil, or_false] at h2
    rcases h2 with rfl | rfl | rfl | rfl | rfl | rfl | rfl <;> rfl

/-- JSON: a type written and read is itself, except the unknown and the byte type, which are written but not read -/
theorem C44_type_json (t : VType) : VType.unmarshal t.marshal = if t = .unknown ∨ t = .bytes then none else some t := by
  cases t <;> decide +kernel

example : typeFromString b!"integer" = .integer ∧ typeFromString b!"Integer" = .unknown ∧ VType.bytes.name = [] := by decide +kernel

/-! ### C43: guessing the type of a text -/

/-- `strconv`: a text that is a float32 is a float64 -/
def FloatsWiden (L : Lib) : Prop := ∀ s, L.parse32 s = true → (L.parse64 s).isSome

theorem parseTypeLoop_cases (L : Lib) (s r : Bytes) :
    parseTypeLoop L s r = .string ∨ parseTypeLoop L s r = .object ∨ parseTypeLoop L s r = .array ∨
    (parseTypeLoop L s r = .integer ∧ L.parse32 s = true ∧ isInteger s = true) ∨
    (parseTypeLoop L s r = .number ∧ L.parse32 s = true ∧ isInteger s = false) := by
  induction r with
  | nil => simp [parseTypeLoop]
  | cons b r ih =>
    simp only [parseTypeLoop]
    split
    · simp
    · split
      · by_cases h : L.parse32 s = false
        · simp [h]
        · simp only [h]
          have h' : L.parse32 s = true := by simpa using h
          by_cases hi : isInteger s = true
          · simp [hi]
          · simp [hi]
      · split
        · simp
        · split
          · simp
          · split
            · exact ih
            · simp

/-- **C43** for booleans: a text guessed to be a boolean parses as one. -/
theorem C43_boolean (L : Lib) (s : Bytes) (h : parseType L s = .boolean) : ∃ b, VType.boolean.parse L s = some (.bool b) := by
  unfold parseType at h
  by_cases hb : isBoolean s = true
  · simp only [isBoolean, decide_eq_true_eq, List.mem_cons, List.not_mem_nil, or_false] at hb
    rcases hb with rfl | rfl | rfl | rfl | rfl | rfl | rfl | rfl | rfl | rfl <;> simp [VType.parse, parseBool]
  · rw [if_neg hb] at h
    split at h
    · cases h
    · rcases parseTypeLoop_cases L s s with h1 | h1 | h1 | h1 | h1 <;> simp [h1] at h

/-- **C43** for numbers -/
theorem C43_number (L : Lib) (hL : FloatsWiden L) (s : Bytes) (h : parseType L s = .number) : ∃ x, VType.number.parse L s = some (.f64 x) := by
  unfold parseType at h
  split at h
  · cases h
  · split at h
    · cases h
    · rcases parseTypeLoop_cases L s s with h1 | h1 | h1 | h1 | h1
      · simp [h1] at h
      · simp [h1] at h
      · simp [h1] at h
      · simp [h1.1] at h
      · have := hL s h1.2.1
        obtain ⟨x, hx⟩ := Option.isSome_iff_exists.1 this
        exact ⟨x, by simp [VType.parse, hx]⟩

/-- **C43** for integers, exactly: a text guessed to be an integer parses as one iff it is not outside the 64 bit range. -/
theorem C43_integer (L : Lib) (s : Bytes) (h : parseType L s = .integer) :
    (∃ i, VType.integer.parse L s = some (.int i)) ↔ parseIntE s ≠ .rangeErr := by
  have hi : isInteger s = true := by
    unfold parseType at h
    split at h
    · cases h
    · split at h
      · cases h
      · rcases parseTypeLoop_cases L s s with h1 | h1 | h1 | h1 | h1
        · simp [h1] at h
        · simp [h1] at h
        · simp [h1] at h
        · exact h1.2.2
        · simp [h1.1] at h
  cases s with
  | nil => simp [isInteger] at hi
  | cons c s =>
    simp only [isInteger] at hi
    split at hi
    · cases hi
    · cases hp : parseIntE (c :: s) with
      | ok i => simp [VType.parse, parseInteger, hp]
      | syntaxErr => simp [hp] at hi
      | rangeErr => simp [VType.parse, parseInteger, hp]

/-- **C43** is false for null: no text parses as null, although "null" is guessed to be one. -/
theorem C43_null_never_parses (L : Lib) (s : Bytes) : VType.null.parse L s = none ∧ parseType L b!"null" = .null := ⟨rfl, rfl⟩

/-- **C43** is false for integers beyond 64 bits, even with a fraction or an exponent behind them. -/
theorem C43_large_integers_fail (L : Lib) (h1 : L.parse32 b!"99999999999999999999" = true) (h2 : L.parse32 b!"99999999999999999999.5" = true) :
    parseType L b!"99999999999999999999" = .integer ∧ VType.integer.parse L b!"99999999999999999999" = none ∧
    parseType L b!"99999999999999999999.5" = .integer ∧ VType.integer.parse L b!"99999999999999999999.5" = none := by
  refine ⟨?_, ?_, ?_, ?_⟩
  · have e : isInteger b!"99999999999999999999" = true := by decide +kernel
    simp [parseType, isBoolean, parseTypeLoop, isDigit, h1, e]
  · have e : parseIntE b!"99999999999999999999" = .rangeErr := by decide +kernel
    simp [VType.parse, parseInteger, e]
  · have e : isInteger b!"99999999999999999999.5" = true := by decide +kernel
    simp [parseType, isBoolean, parseTypeLoop, isDigit, h2, e]
  · have e : parseIntE b!"99999999999999999999.5" = .rangeErr := by decide +kernel
    simp [VType.parse, parseInteger, e]

theorem fmtInt_head (i : Int) : ∃ c t, fmtInt i = c :: t ∧ (c = 45 ∨ isDigit c = true) := by
  unfold fmtInt
  split
  · exact ⟨45, _, rfl, Or.inl rfl⟩
  · obtain ⟨c, t, h, hc⟩ := fmtNat_head i.toNat
    exact ⟨c, t, h, Or.inr hc⟩

theorem isBoolean_head (c : UInt8) (t : Bytes) (h : c = 45 ∨ isDigit c = true) : isBoolean (c :: t) = false ∧ c :: t ≠ b!"null" := by
  have hc : c ≠ 116 ∧ c ≠ 102 ∧ c ≠ 84 ∧ c ≠ 70 ∧ c ≠ 110 := by
    refine ⟨?_, ?_, ?_, ?_, ?_⟩ <;> rintro rfl <;> revert h <;> decide
  simp [isBoolean, hc]

/-- **C43**, completeness: the text of every 64 bit integer is guessed to be an integer and parses to it (as far as strconv
accepts its digits as a float32). -/
theorem C43_integers_recognised (L : Lib) (i : Int) (hi : IsInt64 i) (hL : L.parse32 (fmtInt i) = true) :
    parseType L (fmtInt i) = .integer ∧ VType.integer.parse L (fmtInt i) = some (.int i) := by
  have ha := atoi_fmtInt i hi
  have he := (parseIntE_ok _ i).2 ha
  refine ⟨?_, by simp [VType.parse, parseInteger_eq, ha]⟩
  obtain ⟨c, t, hf, hc⟩ := fmtInt_head i
  obtain ⟨hb, hn⟩ := isBoolean_head c t hc
  have hii : isInteger (fmtInt i) = true := by
    rw [hf] at he ⊢
    simp only [isInteger, he]
    rw [if_neg]
    rintro ⟨h1, h2, _⟩
    rcases hc with rfl | hc
    · exact h2 rfl
    · simp [h1] at hc
  unfold parseType
  rw [hf, hb, if_neg (by simp), if_neg hn]
  have h34 : c ≠ 34 := by rintro rfl; revert hc; decide
  simp only [parseTypeLoop]
  rw [if_neg h34, if_pos (by rcases hc with hc | hc <;> simp [hc]), ← hf, hL, hii]
  simp

/-- a text with a leading plus sign or space is never guessed to be a number, though strconv reads the first as one -/
theorem C43_plus_is_text (L : Lib) (s : Bytes) : parseType L (43 :: s) = .string := by
  unfold parseType
  have hb : isBoolean (43 :: s) = false := by simp [isBoolean]
  rw [hb, if_neg (by simp), if_neg (by simp)]
  simp [parseTypeLoop, isDigit]

example : parseType noLib b!"12" = .integer ∧ parseType noLib b!" [1" = .array ∧ parseType noLib b!"True" = .boolean := by decide +kernel
example : parseInteger b!"+7" = some 7 ∧ parseType noLib b!"+7" = .string := by decide +kernel

/-! ### C42: comparison -/

/-- texts that have a place in the order of a type: the empty text, and texts of that type other than NaN -/
inductive Ordered (L : Lib) : VType → Bytes → Prop
  | empty (t : VType) : t = .string ∨ t = .integer ∨ t = .number → Ordered L t []
  | string (s : Bytes) : Ordered L .string s
  | integer (s : Bytes) (i : Int) : parseInteger s = some i → Ordered L .integer s
  | number (s : Bytes) (x : UInt64) : L.parse64 s = some x → f64NaN x = false → Ordered L .number s

/-- the order of the values: integers as integers, numbers as floats, strings bytewise; the empty text first -/
def Before (L : Lib) (t : VType) (a b : Bytes) : Prop :=
  (a = [] ∧ b ≠ []) ∨ (a ≠ [] ∧ b ≠ [] ∧ match t with
    | .integer => ∃ i j, parseInteger a = some i ∧ parseInteger b = some j ∧ i < j
    | .number => ∃ x y, L.parse64 a = some x ∧ L.parse64 b = some y ∧ f64Key x < f64Key y
    | _ => bytesLt a b = true)

/-- **C42**: on ordered texts the comparison never fails and tells exactly which text comes before the other. -/
theorem C42_compare (L : Lib) (t : VType) (a b : Bytes) (ha : Ordered L t a) (hb : Ordered L t b) :
    ∃ c, compareTypeBytes L a b t = some c ∧ (c = -1 ∨ c = 0 ∨ c = 1) ∧ (c = -1 ↔ Before L t a b) ∧ (c = 1 ↔ Before L t b a) := by
  by_cases h1 : a = []
  · by_cases h2 : b = []
    · subst h1; subst h2
      exact ⟨0, by simp [compareTypeBytes], by simp, by simp [Before], by simp [Before]⟩
    · subst h1
      exact ⟨-1, by simp [compareTypeBytes, h2], by simp, by simp [Before, h2], by simp [Before, h2]⟩
  · by_cases h2 : b = []
    · subst h2
      exact ⟨1, by simp [compareTypeBytes, h1], by simp, by simp [Before, h1], by simp [Before, h1]⟩
    · have e1 : compareTypeBytes L a b .string = some (bytesCompare a b) := by simp [compareTypeBytes, h1, h2]
      have e2 : compareTypeBytes L a b .integer = compareIntegerBytes a b := by simp [compareTypeBytes, h1, h2]
      have e3 : compareTypeBytes L a b .number = compareNumberBytes L a b := by simp [compareTypeBytes, h1, h2]
      cases ha with
      | empty => exact absurd rfl h1
      | string =>
        refine ⟨bytesCompare a b, e1, ?_, ?_, ?_⟩
        · unfold bytesCompare; split
          · simp
          · split <;> simp
        · simp only [Before, h1, h2, ne_eq, false_and, false_or, not_false_eq_true, true_and, bytesCompare]
          by_cases hl : bytesLt a b = true
          · simp [hl]
          · simp only [hl, Bool.false_eq_true, if_false]; split <;> simp
        · simp only [Before, h1, h2, ne_eq, false_and, false_or, not_false_eq_true, true_and, bytesCompare]
          by_cases hl : bytesLt a b = true
          · simp [hl, bytesLt_asymm hl]
          · by_cases hab : a = b
            · subst hab; simp [bytesLt_irrefl]
            · simp only [hl, hab]
              cases hb' : bytesLt b a with
              | true => simp
              | false => exact absurd (bytesLt_connex (by simpa using hl) hb') hab
      | integer _ i hi =>
        cases hb with
        | empty => exact absurd rfl h2
        | integer _ j hj =>
          refine ⟨if j < i then 1 else if i = j then 0 else -1, by rw [e2]; simp [compareIntegerBytes, hi, hj], ?_, ?_, ?_⟩
          · split
            · simp
            · split <;> simp
          · simp only [Before, h1, h2, ne_eq, false_and, false_or, not_false_eq_true, true_and, hi, hj]
            by_cases h3 : j < i
            · simp [h3]; omega
            · by_cases h4 : i = j
              · simp [h4]
              · simp [h3, h4]; omega
          · simp only [Before, h1, h2, ne_eq, false_and, false_or, not_false_eq_true, true_and, hi, hj]
            by_cases h3 : j < i
            · simp [h3]
            · by_cases h4 : i = j
              · simp [h4]
              · simp [h3, h4]
      | number _ x hx hnx =>
        cases hb with
        | empty => exact absurd rfl h2
        | number _ y hy hny =>
          refine ⟨if f64Gt x y then 1 else if f64Eq x y then 0 else -1, by rw [e3]; simp [compareNumberBytes, hx, hy], ?_, ?_, ?_⟩
          · split
            · simp
            · split <;> simp
          · simp only [Before, h1, h2, ne_eq, false_and, false_or, not_false_eq_true, true_and, hx, hy, f64Gt, f64Eq, hnx, hny]
            by_cases h3 : f64Key y < f64Key x
            · simp [h3]; omega
            · by_cases h4 : f64Key x = f64Key y
              · simp [h4]
              · simp [h3, h4]; omega
          · simp only [Before, h1, h2, ne_eq, false_and, false_or, not_false_eq_true, true_and, hx, hy, f64Gt, f64Eq, hnx, hny]
            by_cases h3 : f64Key y < f64Key x
            · simp [h3]
            · by_cases h4 : f64Key x = f64Key y
              · simp [h4]
              · simp [h3, h4]

theorem before_irrefl (L : Lib) (t : VType) (a : Bytes) : ¬Before L t a a := by
  rintro (⟨h, h'⟩ | ⟨_, _, h⟩)
  · exact h' h
  · split at h
    · obtain ⟨i, j, h1, h2, h3⟩ := h; rw [h1] at h2; cases h2; omega
    · obtain ⟨i, j, h1, h2, h3⟩ := h; rw [h1] at h2; cases h2; omega
    · rw [bytesLt_irrefl] at h; cases h

theorem before_trans (L : Lib) (t : VType) (a b c : Bytes) (h : Before L t a b) (h' : Before L t b c) : Before L t a c := by
  rcases h with ⟨rfl, _⟩ | ⟨ha, hb, h⟩
  · rcases h' with ⟨hb, _⟩ | ⟨_, hc, _⟩
    · contradiction
    · exact Or.inl ⟨rfl, hc⟩
  · rcases h' with ⟨rfl, _⟩ | ⟨_, hc, h'⟩
    · exact absurd rfl hb
    · refine Or.inr ⟨ha, hc, ?_⟩
      revert h h'
      cases t <;> simp only
      all_goals first
        | exact bytesLt_trans
        | (rintro ⟨i, j, h1, h2, h3⟩ ⟨j', k, h4, h5, h6⟩
           rw [h2] at h4; cases h4
           exact ⟨i, k, h1, h5, by omega⟩)

/-- **C42**: reflexive. -/
theorem C42_reflexive (L : Lib) (t : VType) (a : Bytes) (ha : Ordered L t a) : compareTypeBytes L a a t = some 0 := by
  obtain ⟨c, h, hc, h1, h2⟩ := C42_compare L t a a ha ha
  have := before_irrefl L t a
  rcases hc with rfl | rfl | rfl
  · exact absurd (h1.1 rfl) this
  · exact h
  · exact absurd (h2.1 rfl) this

/-- **C42**: exchanging the arguments changes the sign. -/
theorem C42_antisymmetric (L : Lib) (t : VType) (a b : Bytes) (ha : Ordered L t a) (hb : Ordered L t b) :
    ∃ c, compareTypeBytes L a b t = some c ∧ compareTypeBytes L b a t = some (-c) := by
  obtain ⟨c, h, hc, h1, h2⟩ := C42_compare L t a b ha hb
  obtain ⟨d, g, hd, g1, g2⟩ := C42_compare L t b a hb ha
  refine ⟨c, h, ?_⟩
  rw [g]
  have e1 : c = -1 ↔ d = 1 := h1.trans g2.symm
  have e2 : c = 1 ↔ d = -1 := h2.trans g1.symm
  rcases hc with rfl | rfl | rfl <;> rcases hd with rfl | rfl | rfl <;> simp at e1 e2 ⊢

/-- **C42**: transitive — "not after" composes, and so does "strictly before". -/
theorem C42_transitive (L : Lib) (t : VType) (a b c : Bytes) (ha : Ordered L t a) (hb : Ordered L t b) (hc : Ordered L t c) (x y z : Int)
    (hx : compareTypeBytes L a b t = some x) (hy : compareTypeBytes L b c t = some y) (hz : compareTypeBytes L a c t = some z)
    (h1 : x ≤ 0) (h2 : y ≤ 0) : z ≤ 0 ∧ (x < 0 ∨ y < 0 → z < 0) := by
  obtain ⟨x', e1, r1, p1, q1⟩ := C42_compare L t a b ha hb
  obtain ⟨y', e2, r2, p2, q2⟩ := C42_compare L t b c hb hc
  obtain ⟨z', e3, r3, p3, q3⟩ := C42_compare L t a c ha hc
  rw [hx] at e1; cases e1
  rw [hy] at e2; cases e2
  rw [hz] at e3; cases e3
  have nab : ¬Before L t b a := fun h => by have := q1.2 h; omega
  have nbc : ¬Before L t c b := fun h => by have := q2.2 h; omega
  -- comparing is negatively transitive too: it compares keys
  have neg : ∀ u v w, Ordered L t u → Ordered L t v → Ordered L t w → Before L t u w → Before L t u v ∨ Before L t v w := by
    intro u v w hu hv hw h
    rcases h with ⟨rfl, hw'⟩ | ⟨hu', hw', h⟩
    · by_cases hv' : v = []
      · right; exact Or.inl ⟨hv', hw'⟩
      · left; exact Or.inl ⟨rfl, hv'⟩
    · by_cases hv' : v = []
      · right; exact Or.inl ⟨hv', hw'⟩
      · cases hv with
        | empty => exact absurd rfl hv'
        | string =>
          simp only at h
          by_cases h3 : bytesLt u v = true
          · left; exact Or.inr ⟨hu', hv', h3⟩
          · right
            refine Or.inr ⟨hv', hw', ?_⟩
            simp only
            cases h4 : bytesLt v u with
            | true => exact bytesLt_trans h4 h
            | false => rw [← bytesLt_connex (by simpa using h3) h4]; exact h
        | integer _ j hj =>
          obtain ⟨i, k, h3, h4, h5⟩ := h
          by_cases h6 : i < j
          · left; exact Or.inr ⟨hu', hv', i, j, h3, hj, h6⟩
          · right; exact Or.inr ⟨hv', hw', j, k, hj, h4, by omega⟩
        | number _ j hj =>
          obtain ⟨i, k, h3, h4, h5⟩ := h
          by_cases h6 : f64Key i < f64Key j
          · left; exact Or.inr ⟨hu', hv', i, j, h3, hj, h6⟩
          · right; exact Or.inr ⟨hv', hw', j, k, hj, h4, by omega⟩
  have nca : ¬Before L t c a := by
    intro h
    rcases neg c b a hc hb ha h with h | h
    · exact nbc h
    · exact nab h
  refine ⟨?_, ?_⟩
  · rcases r3 with h | h | h
    · omega
    · omega
    · exact absurd (q3.1 h) nca
  · rintro (h | h)
    · have hb1 : Before L t a b := p1.1 (by omega)
      rcases neg a c b ha hc hb hb1 with h3 | h3
      · have := p3.2 h3; omega
      · exact absurd h3 nbc
    · have hb1 : Before L t b c := p2.1 (by omega)
      rcases neg b a c hb ha hc hb1 with h3 | h3
      · exact absurd h3 nab
      · have := p3.2 h3; omega

/-- **C42** is false with NaN among the numbers: it is before itself. -/
theorem C42_nan (L : Lib) (s : Bytes) (x : UInt64) (hs : s ≠ []) (hx : L.parse64 s = some x) (hn : f64NaN x = true) :
    compareTypeBytes L s s .number = some (-1) := by
  simp [compareTypeBytes, hs, compareNumberBytes, hx, f64Gt, f64Eq, hn]

/-- other types are not compared at all, unless one of the texts is empty -/
theorem C42_other_types (L : Lib) (t : VType) (a b : Bytes) (ha : a ≠ []) (hb : b ≠ []) (ht : t ≠ .string ∧ t ≠ .integer ∧ t ≠ .number) :
    compareTypeBytes L a b t = none := by
  cases t <;> simp_all [compareTypeBytes]

/-- a library that knows two floats, for the examples -/
def twoLib : Lib := { noLib with parse64 := fun s => if s = b!"1.5" then some 0x3FF8000000000000 else if s = b!"-2" then some 0xC000000000000000 else if s = b!"NaN" then some 0x7FF8000000000001 else none }

example : compareTypeBytes twoLib b!"1.5" b!"-2" .number = some 1 ∧ compareTypeBytes twoLib b!"9" b!"10" .integer = some (-1) ∧
    compareTypeBytes twoLib b!"9" b!"10" .string = some 1 ∧ compareTypeBytes twoLib b!"NaN" b!"NaN" .number = some (-1) := by decide +kernel
example : Ordered twoLib .number b!"-2" := .number _ 0xC000000000000000 (by decide +kernel) (by decide +kernel)

/-! ### C55: decoded data as values -/

mutual
/-- the same data: integers whatever their Go type, floats as Go compares them, containers member by member -/
inductive Same : Val → Val → Prop
  | null : Same .null .null
  | bool (b : Bool) : Same (.bool b) (.bool b)
  | ii (i : Int) : Same (.int i) (.int i)
  | ig (i : Int) : Same (.int i) (.gint i)
  | gi (i : Int) : Same (.gint i) (.int i)
  | gg (i : Int) : Same (.gint i) (.gint i)
  | float (x y : UInt64) : f64Eq x y = true → Same (.f64 x) (.f64 y)
  | str (s : Bytes) : Same (.str s) (.str s)
  | arr (l m : List Val) : SameL l m → Same (.arr l) (.arr m)
  | obj (l m : List (Bytes × Val)) : SameF l m → Same (.obj l) (.obj m)
inductive SameL : List Val → List Val → Prop
  | nil : SameL [] []
  | cons (a b : Val) (l m : List Val) : Same a b → SameL l m → SameL (a :: l) (b :: m)
inductive SameF : List (Bytes × Val) → List (Bytes × Val) → Prop
  | nil : SameF [] []
  | cons (k : Bytes) (a b : Val) (l m : List (Bytes × Val)) : Same a b → SameF l m → SameF ((k, a) :: l) ((k, b) :: m)
end

mutual
/-- no `[]byte` anywhere inside -/
inductive NoBytes : Val → Prop
  | null : NoBytes .null
  | bool (b : Bool) : NoBytes (.bool b)
  | int (i : Int) : NoBytes (.int i)
  | gint (i : Int) : NoBytes (.gint i)
  | f64 (x : UInt64) : NoBytes (.f64 x)
  | str (s : Bytes) : NoBytes (.str s)
  | arr (l : List Val) : NoBytesL l → NoBytes (.arr l)
  | obj (m : List (Bytes × Val)) : NoBytesF m → NoBytes (.obj m)
inductive NoBytesL : List Val → Prop
  | nil : NoBytesL []
  | cons (v : Val) (l : List Val) : NoBytes v → NoBytesL l → NoBytesL (v :: l)
inductive NoBytesF : List (Bytes × Val) → Prop
  | nil : NoBytesF []
  | cons (k : Bytes) (v : Val) (m : List (Bytes × Val)) : NoBytes v → NoBytesF m → NoBytesF ((k, v) :: m)
end

mutual
theorem convert_of_noBytes : ∀ v : Val, NoBytes v → ∃ x, convertDecoded v = some x
  | .null, _ => ⟨_, rfl⟩
  | .bool _, _ => ⟨_, rfl⟩
  | .int _, _ => ⟨_, rfl⟩
  | .gint _, _ => ⟨_, rfl⟩
  | .f64 _, _ => ⟨_, rfl⟩
  | .str _, _ => ⟨_, rfl⟩
  | .bytes _, h => nomatch h
  | .arr l, .arr _ h => by
    obtain ⟨x, hx⟩ := convertL_of_noBytes l h
    exact ⟨.array true x, by simp [convertDecoded, hx]⟩
  | .obj m, .obj _ h => by
    obtain ⟨x, hx⟩ := convertF_of_noBytes m h
    exact ⟨.object true x, by simp [convertDecoded, hx]⟩
theorem convertL_of_noBytes : ∀ l : List Val, NoBytesL l → ∃ x, convertL l = some x
  | [], _ => ⟨[], rfl⟩
  | v :: l, .cons _ _ h1 h2 => by
    obtain ⟨x, hx⟩ := convert_of_noBytes v h1
    obtain ⟨y, hy⟩ := convertL_of_noBytes l h2
    exact ⟨x :: y, by simp [convertL, hx, hy]⟩
theorem convertF_of_noBytes : ∀ m : List (Bytes × Val), NoBytesF m → ∃ x, convertF m = some x
  | [], _ => ⟨[], rfl⟩
  | (k, v) :: m, .cons _ _ _ h1 h2 => by
    obtain ⟨x, hx⟩ := convert_of_noBytes v h1
    obtain ⟨y, hy⟩ := convertF_of_noBytes m h2
    exact ⟨(k, x) :: y, by simp [convertF, hx, hy]⟩
end

mutual
theorem noBytes_of_convert : ∀ (v : Val) (x : Value), convertDecoded v = some x → NoBytes v
  | .null, _, _ => .null
  | .bool b, _, _ => .bool b
  | .int i, _, _ => .int i
  | .gint i, _, _ => .gint i
  | .f64 y, _, _ => .f64 y
  | .str s, _, _ => .str s
  | .bytes _, _, h => by simp [convertDecoded] at h
  | .arr l, _, h => by
    simp only [convertDecoded, Option.map_eq_some_iff] at h
    obtain ⟨y, hy, _⟩ := h
    exact .arr l (noBytesL_of_convert l y hy)
  | .obj m, _, h => by
    simp only [convertDecoded, Option.map_eq_some_iff] at h
    obtain ⟨y, hy, _⟩ := h
    exact .obj m (noBytesF_of_convert m y hy)
theorem noBytesL_of_convert : ∀ (l : List Val) (x : List Value), convertL l = some x → NoBytesL l
  | [], _, _ => .nil
  | v :: l, _, h => by
    simp only [convertL, Option.bind_eq_some_iff, Option.map_eq_some_iff] at h
    obtain ⟨a, ha, b, hb, _⟩ := h
    exact .cons v l (noBytes_of_convert v a ha) (noBytesL_of_convert l b hb)
theorem noBytesF_of_convert : ∀ (m : List (Bytes × Val)) (x : List (Bytes × Value)), convertF m = some x → NoBytesF m
  | [], _, _ => .nil
  | (k, v) :: m, _, h => by
    simp only [convertF, Option.bind_eq_some_iff, Option.map_eq_some_iff] at h
    obtain ⟨a, ha, b, hb, _⟩ := h
    exact .cons k v m (noBytes_of_convert v a ha) (noBytesF_of_convert m b hb)
end

/-- **C55**: data is converted exactly when no raw bytes are in it. -/
theorem C55_convert_iff (v : Val) : (∃ x, convertDecoded v = some x) ↔ NoBytes v :=
  ⟨fun ⟨x, h⟩ => noBytes_of_convert v x h, convert_of_noBytes v⟩

mutual
theorem deepEqual_iff : ∀ (v w : Val) (x y : Value), convertDecoded v = some x → convertDecoded w = some y →
    (deepEqual x y = true ↔ Same v w)
  | .null, w, x, y, hv, hw => by
    simp only [convertDecoded, Option.some.injEq] at hv
    subst hv
    cases w <;> simp only [convertDecoded, Option.some.injEq, Option.map_eq_some_iff, reduceCtorEq] at hw
    all_goals first
      | (subst hw
         refine ⟨fun h => ?_, fun h => ?_⟩
         · simp [deepEqual] at h <;> first | exact .float _ _ h | (subst h; constructor) | constructor
         · cases h <;> simp_all [deepEqual])
      | (obtain ⟨b, _, rfl⟩ := hw
         exact ⟨fun h => by simp [deepEqual] at h, fun h => nomatch h⟩)
  | .bool _, w, x, y, hv, hw => by
    simp only [convertDecoded, Option.some.injEq] at hv
    subst hv
    cases w <;> simp only [convertDecoded, Option.some.injEq, Option.map_eq_some_iff, reduceCtorEq] at hw
    all_goals first
      | (subst hw
         refine ⟨fun h => ?_, fun h => ?_⟩
         · simp [deepEqual] at h <;> first | exact .float _ _ h | (subst h; constructor) | constructor
         · cases h <;> simp_all [deepEqual])
      | (obtain ⟨b, _, rfl⟩ := hw
         exact ⟨fun h => by simp [deepEqual] at h, fun h => nomatch h⟩)
  | .int _, w, x, y, hv, hw => by
    simp only [convertDecoded, Option.some.injEq] at hv
    subst hv
    cases w <;> simp only [convertDecoded, Option.some.injEq, Option.map_eq_some_iff, reduceCtorEq] at hw
    all_goals first
      | (subst hw
         refine ⟨fun h => ?_, fun h => ?_⟩
         · simp [deepEqual] at h <;> first | exact .float _ _ h | (subst h; constructor) | constructor
         · cases h <;> simp_all [deepEqual])
      | (obtain ⟨b, _, rfl⟩ := hw
         exact ⟨fun h => by simp [deepEqual] at h, fun h => nomatch h⟩)
  | .gint _, w, x, y, hv, hw => by
    simp only [convertDecoded, Option.some.injEq] at hv
    subst hv
    cases w <;> simp only [convertDecoded, Option.some.injEq, Option.map_eq_some_iff, reduceCtorEq] at hw
    all_goals first
      | (subst hw
         refine ⟨fun h => ?_, fun h => ?_⟩
         · simp [deepEqual] at h <;> first | exact .float _ _ h | (subst h; constructor) | constructor
         · cases h <;> simp_all [deepEqual])
      | (obtain ⟨b, _, rfl⟩ := hw
         exact ⟨fun h => by simp [deepEqual] at h, fun h => nomatch h⟩)
  | .f64 _, w, x, y, hv, hw => by
    simp only [convertDecoded, Option.some.injEq] at hv
    subst hv
    cases w <;> simp only [convertDecoded, Option.some.injEq, Option.map_eq_some_iff, reduceCtorEq] at hw
    all_goals first
      | (subst hw
         refine ⟨fun h => ?_, fun h => ?_⟩
         · simp [deepEqual] at h <;> first | exact .float _ _ h | (subst h; constructor) | constructor
         · cases h <;> simp_all [deepEqual])
      | (obtain ⟨b, _, rfl⟩ := hw
         exact ⟨fun h => by simp [deepEqual] at h, fun h => nomatch h⟩)
  | .str _, w, x, y, hv, hw => by
    simp only [convertDecoded, Option.some.injEq] at hv
    subst hv
    cases w <;> simp only [convertDecoded, Option.some.injEq, Option.map_eq_some_iff, reduceCtorEq] at hw
    all_goals first
      | (subst hw
         refine ⟨fun h => ?_, fun h => ?_⟩
         · simp [deepEqual] at h <;> first | exact .float _ _ h | (subst h; constructor) | constructor
         · cases h <;> simp_all [deepEqual])
      | (obtain ⟨b, _, rfl⟩ := hw
         exact ⟨fun h => by simp [deepEqual] at h, fun h => nomatch h⟩)
  | .bytes _, w, x, y, hv, hw => by simp [convertDecoded] at hv
  | .arr l, w, x, y, hv, hw => by
    simp only [convertDecoded, Option.map_eq_some_iff] at hv
    obtain ⟨a, ha, rfl⟩ := hv
    cases w with
    | arr m =>
      simp only [convertDecoded, Option.map_eq_some_iff] at hw
      obtain ⟨b, hb, rfl⟩ := hw
      simp only [deepEqual, BEq.rfl, Bool.true_and]
      rw [deepEqualL_iff l m a b ha hb]
      exact ⟨fun h => .arr _ _ h, fun h => by cases h; assumption⟩
    | obj m =>
      simp only [convertDecoded, Option.map_eq_some_iff] at hw
      obtain ⟨b, hb, rfl⟩ := hw
      exact ⟨fun h => by simp [deepEqual] at h, fun h => nomatch h⟩
    | _ =>
      simp only [convertDecoded, Option.some.injEq, reduceCtorEq] at hw
      try subst hw
      try exact ⟨fun h => by simp [deepEqual] at h, fun h => nomatch h⟩
  | .obj l, w, x, y, hv, hw => by
    simp only [convertDecoded, Option.map_eq_some_iff] at hv
    obtain ⟨a, ha, rfl⟩ := hv
    cases w with
    | obj m =>
      simp only [convertDecoded, Option.map_eq_some_iff] at hw
      obtain ⟨b, hb, rfl⟩ := hw
      simp only [deepEqual, BEq.rfl, Bool.true_and]
      rw [deepEqualF_iff l m a b ha hb]
      exact ⟨fun h => .obj _ _ h, fun h => by cases h; assumption⟩
    | arr m =>
      simp only [convertDecoded, Option.map_eq_some_iff] at hw
      obtain ⟨b, hb, rfl⟩ := hw
      exact ⟨fun h => by simp [deepEqual] at h, fun h => nomatch h⟩
    | _ =>
      simp only [convertDecoded, Option.some.injEq, reduceCtorEq] at hw
      try subst hw
      try exact ⟨fun h => by simp [deepEqual] at h, fun h => nomatch h⟩
theorem deepEqualL_iff : ∀ (l m : List Val) (x y : List Value), convertL l = some x → convertL m = some y →
    (deepEqualL x y = true ↔ SameL l m)
  | [], [], x, y, hl, hm => by
    simp only [convertL, Option.some.injEq] at hl hm
    subst hl; subst hm
    simp [deepEqualL, SameL.nil]
  | [], b :: m, x, y, hl, hm => by
    simp only [convertL, Option.some.injEq, Option.bind_eq_some_iff, Option.map_eq_some_iff] at hl hm
    subst hl
    obtain ⟨_, _, _, _, rfl⟩ := hm
    exact ⟨fun h => by simp [deepEqualL] at h, fun h => nomatch h⟩
  | a :: l, [], x, y, hl, hm => by
    simp only [convertL, Option.some.injEq, Option.bind_eq_some_iff, Option.map_eq_some_iff] at hl hm
    subst hm
    obtain ⟨_, _, _, _, rfl⟩ := hl
    exact ⟨fun h => by simp [deepEqualL] at h, fun h => nomatch h⟩
  | a :: l, b :: m, x, y, hl, hm => by
    simp only [convertL, Option.bind_eq_some_iff, Option.map_eq_some_iff] at hl hm
    obtain ⟨a', ha, l', hl', rfl⟩ := hl
    obtain ⟨b', hb, m', hm', rfl⟩ := hm
    simp only [deepEqualL, Bool.and_eq_true]
    rw [deepEqual_iff a b a' b' ha hb, deepEqualL_iff l m l' m' hl' hm']
    exact ⟨fun h => .cons _ _ _ _ h.1 h.2, fun h => by cases h; exact ⟨by assumption, by assumption⟩⟩
theorem deepEqualF_iff : ∀ (l m : List (Bytes × Val)) (x y : List (Bytes × Value)), convertF l = some x → convertF m = some y →
    (deepEqualF x y = true ↔ SameF l m)
  | [], [], x, y, hl, hm => by
    simp only [convertF, Option.some.injEq] at hl hm
    subst hl; subst hm
    simp [deepEqualF, SameF.nil]
  | [], (j, b) :: m, x, y, hl, hm => by
    simp only [convertF, Option.some.injEq, Option.bind_eq_some_iff, Option.map_eq_some_iff] at hl hm
    subst hl
    obtain ⟨_, _, _, _, rfl⟩ := hm
    exact ⟨fun h => by simp [deepEqualF] at h, fun h => nomatch h⟩
  | (k, a) :: l, [], x, y, hl, hm => by
    simp only [convertF, Option.some.injEq, Option.bind_eq_some_iff, Option.map_eq_some_iff] at hl hm
    subst hm
    obtain ⟨_, _, _, _, rfl⟩ := hl
    exact ⟨fun h => by simp [deepEqualF] at h, fun h => nomatch h⟩
  | (k, a) :: l, (j, b) :: m, x, y, hl, hm => by
    simp only [convertF, Option.bind_eq_some_iff, Option.map_eq_some_iff] at hl hm
    obtain ⟨a', ha, l', hl', rfl⟩ := hl
    obtain ⟨b', hb, m', hm', rfl⟩ := hm
    simp only [deepEqualF, Bool.and_eq_true, beq_iff_eq]
    rw [deepEqual_iff a b a' b' ha hb, deepEqualF_iff l m l' m' hl' hm']
    constructor
    · rintro ⟨⟨rfl, h1⟩, h2⟩; exact .cons _ _ _ _ _ h1 h2
    · intro h; cases h; exact ⟨⟨rfl, by assumption⟩, by assumption⟩
end

/-- **C55**: two separately decoded pieces of data are equal as values exactly when they are the same data. -/
theorem C55_equal_iff (v w : Val) (x y : Value) (hv : convertDecoded v = some x) (hw : convertDecoded w = some y) :
    equal x y = true ↔ Same v w := by
  have key := deepEqual_iff v w x y hv hw
  have e : equal x y = deepEqual x y := by
    cases v <;> cases w <;> simp only [convertDecoded, Option.some.injEq, Option.map_eq_some_iff, reduceCtorEq] at hv hw
    all_goals first
      | (obtain ⟨a, _, rfl⟩ := hv
         obtain ⟨b, _, rfl⟩ := hw
         simp [equal, Value.type, deepEqual])
      | (obtain ⟨a, _, rfl⟩ := hv
         subst hw
         simp [equal, Value.type, deepEqual])
      | (obtain ⟨b, _, rfl⟩ := hw
         subst hv
         simp [equal, Value.type, deepEqual])
      | (subst hv; subst hw
         simp [equal, Value.type, deepEqual])
  rw [e, key]

/-- Not so across the two ways of building values: an array held directly (as reading JSON text gives it) never equals the
same array behind a pointer (as converted data gives it). -/
theorem C55_pointers_differ (l m : List Value) : equal (.array true l) (.array false m) = false := by
  simp [equal, Value.type, deepEqual]

example : ∃ x y, convertDecoded (.arr [.int 1, .null]) = some x ∧ convertDecoded (.arr [.gint 1, .null]) = some y ∧ equal x y = true := by
  refine ⟨_, _, rfl, rfl, ?_⟩
  simp [equal, Value.type, deepEqual, deepEqualL]
example : convertDecoded (.arr [.bytes [1]]) = none := by simp [convertDecoded, convertL]
end Verif.Vals
