import Verif.Props.FloatText
import Verif.Props.Json
import Verif.Props.Csv
import Verif.Props.Generate
import Verif.Props.Vals
import Verif.Props.ValsJson
/-
C82: what becomes of numbers in JSON and CSV bodies, with the texts that the library really reads and writes (C81).
-/
set_option autoImplicit false
namespace Verif.FloatText
open Ieee JsonG Json

attribute [local irreducible] near magVal unit infKey shortest key

/-! ### Whole numbers -/

/-- the float is a whole number -/
def Whole (x : UInt64) : Prop := ∃ i : ℤ, value x = i

theorem value_unit (x : UInt64) : value x = (val x : ℚ) / (unit : ℕ) := by rw [unit_cast]; rfl

theorem unit_pos_q : (0 : ℚ) < (unit : ℕ) := by exact_mod_cast unit_pos

theorem val_mag (x : UInt64) : (val x).natAbs = magVal (f64Mag x) := by
  unfold val; split <;> omega

theorem abs_value (x : UInt64) : |value x| = (magVal (f64Mag x) : ℚ) / (unit : ℕ) := by
  rw [value_unit, abs_div, abs_of_pos unit_pos_q, ← Int.cast_abs, Int.abs_eq_natAbs, val_mag]
  simp

theorem value_eq {x : UInt64} {i : ℤ} : value x = i ↔ val x = i * unit := by
  rw [value_unit, div_eq_iff unit_pos_q.ne']
  constructor
  · intro h; exact_mod_cast h
  · intro h; rw [h]; push_cast; ring

theorem whole_iff (x : UInt64) : Whole x ↔ ∃ v, magVal (f64Mag x) = v * unit := by
  constructor
  · rintro ⟨i, h⟩
    rw [value_eq] at h
    refine ⟨i.natAbs, ?_⟩
    rw [← val_mag, h, Int.natAbs_mul]; simp
  · rintro ⟨v, h⟩
    refine ⟨if isNeg x then -(v : ℤ) else v, value_eq.2 ?_⟩
    unfold val
    rw [h]
    split
    · push_cast; ring
    · push_cast; ring

theorem abs_lt_nat {x : UInt64} {v : ℕ} (h : magVal (f64Mag x) = v * unit) (n : ℕ) : (|value x| < n ↔ v < n) ∧ ((n : ℚ) ≤ |value x| ↔ n ≤ v) ∧ (|value x| ≤ n ↔ v ≤ n) := by
  have e : |value x| = v := by
    rw [abs_value, h, Nat.cast_mul, mul_div_assoc, div_self unit_pos_q.ne', mul_one]
  rw [e]
  exact ⟨by exact_mod_cast Iff.rfl, by exact_mod_cast Iff.rfl, by exact_mod_cast Iff.rfl⟩

theorem magVal_1e21 : magVal (key 10 1 21) = 10 ^ 21 * unit := by unfold key magVal unit; decide +kernel

theorem large_iff (x : UInt64) : key 10 1 21 ≤ f64Mag x ↔ (10 : ℚ) ^ 21 ≤ |value x| := by
  rw [abs_value, le_div_iff₀ unit_pos_q]
  have h : ((10 : ℚ) ^ 21 * (unit : ℕ) ≤ (magVal (f64Mag x) : ℚ)) ↔ 10 ^ 21 * unit ≤ magVal (f64Mag x) := by exact_mod_cast Iff.rfl
  rw [h, ← magVal_1e21]
  constructor
  · exact fun h => magVal_le h
  · intro h
    rcases Nat.lt_or_ge (f64Mag x) (key 10 1 21) with hl | hl
    · have := magVal_lt hl; omega
    · exact hl

/-! ### JSON -/

theorem fracExp_float {u : Bytes} (h : FracExp u) : ∃ c ∈ u, c = 46 ∨ c = 101 ∨ c = 69 := by
  cases h with
  | frac t _ _ => exact ⟨46, by simp, by simp⟩
  | exp e sign t he _ _ _ => exact ⟨e, by simp, by rcases he with rfl | rfl <;> simp⟩
  | both u e sign t _ _ _ _ _ _ => exact ⟨46, by simp, by simp⟩

theorem fmtNat_no_float (n : ℕ) (c : UInt8) (h : c ∈ fmtNat n) : ¬ (c = 46 ∨ c = 101 ∨ c = 69) := by
  have := fmtNat_dig n c h
  rintro (rfl | rfl | rfl) <;> simp [isDigit] at this

/-- every finite float is written as a JSON number -/
theorem json_numeral {x : UInt64} (h : Ieee.Finite x) : JsonStd.Numeral (fmtJSON x) := by
  have hs : (if isNeg x then [45] else [] : Bytes) = [] ∨ (if isNeg x then [45] else [] : Bytes) = [45] := by cases isNeg x <;> simp
  rcases json_shape h with ⟨⟨t, u, ht, hu, e⟩, _⟩ | ⟨w, v, e, _⟩
  · exact ⟨_, t, u, hs, ht, .inr hu, e⟩
  · exact ⟨_, fmtNat w, [], hs, fmtNat_intPart w, .inl rfl, by rw [e]; simp⟩

theorem key_milli : key 10 1 (-6) = 0x3EB0C6F7A0B5ED8D := by unfold key unit; decide +kernel

theorem small_iff (x : UInt64) : f64Mag x < key 10 1 (-6) ↔ |value x| < value 0x3EB0C6F7A0B5ED8D := by
  have hv : val 0x3EB0C6F7A0B5ED8D = magVal 0x3EB0C6F7A0B5ED8D := by unfold val magVal; decide +kernel
  rw [key_milli, abs_value, value_unit, hv, div_lt_div_iff_of_pos_right unit_pos_q]
  constructor
  · intro h
    exact_mod_cast magVal_lt h
  · intro h
    rcases Nat.lt_or_ge (f64Mag x) 0x3EB0C6F7A0B5ED8D with hl | hl
    · exact hl
    · have := magVal_le hl
      have h' : magVal (f64Mag x) < magVal 0x3EB0C6F7A0B5ED8D := by exact_mod_cast h
      omega

theorem expText_split (ds : Bytes) (dp : ℤ) : ∃ b n, ∀ pad, expText pad ds dp = b ++ expDigits pad n := by
  unfold expText
  rcases ds with _ | ⟨d, _ | ⟨d', t⟩⟩
  · exact ⟨[48, 101, 43], 0, fun pad => by simp⟩
  · exact ⟨[d, 101, if dp - 1 < 0 then 45 else 43], (dp - 1).natAbs, fun pad => by simp⟩
  · exact ⟨d :: 46 :: d' :: t ++ [101, if dp - 1 < 0 then 45 else 43], (dp - 1).natAbs, fun pad => by simp⟩

/-- **C82**: the text of a number in JSON is that with an exponent, a single digit not being padded, if the number is less than 1e-6 or at least 1e21 in absolute
value and not zero, else the plain one, which has no exponent. -/
theorem C82_json_text (x : UInt64) (h : Ieee.Finite x) : (101 : UInt8) ∉ fmtF x ∧
    ((f64Mag x ≠ 0 ∧ (|value x| < value 0x3EB0C6F7A0B5ED8D ∨ (10 : ℚ) ^ 21 ≤ |value x|)) → ∃ b n, fmtE x = b ++ (if n < 10 then 48 :: fmtNat n else fmtNat n) ∧ fmtJSON x = b ++ fmtNat n) ∧
    (¬ (f64Mag x ≠ 0 ∧ (|value x| < value 0x3EB0C6F7A0B5ED8D ∨ (10 : ℚ) ^ 21 ≤ |value x|)) → fmtJSON x = fmtF x) := by
  rw [← large_iff, ← small_iff]
  refine ⟨?_, fun hc => ?_, fun hc => ?_⟩
  · unfold fmtF
    rw [signed_finite h]
    have hd : ∀ c ∈ digits (f64Mag x), isDigit c = true := by
      unfold digits
      split
      · simp
      · exact fmtNat_dig _
    have hne : ∀ c, isDigit c = true → c ≠ 101 := by rintro _ h rfl; revert h; decide
    have hz : ∀ n, (101 : UInt8) ∉ zeros n := by
      intro n hm
      unfold zeros at hm
      have := List.eq_of_mem_replicate hm
      revert this; decide
    have hds : (101 : UInt8) ∉ digits (f64Mag x) := fun hm => hne _ (hd _ hm) rfl
    have ht : ∀ n, (101 : UInt8) ∉ (digits (f64Mag x)).take n := fun n hm => hds (List.mem_of_mem_take hm)
    have hdr : ∀ n, (101 : UInt8) ∉ (digits (f64Mag x)).drop n := fun n hm => hds (List.mem_of_mem_drop hm)
    generalize digits (f64Mag x) = ds at *
    unfold plainText
    have hs : (101 : UInt8) ∉ (if isNeg x then [45] else [] : Bytes) := by split <;> decide
    rw [List.mem_append, not_or]
    refine ⟨hs, ?_⟩
    split
    · split
      · decide
      · simp [hz, hds]
    · split
      · simp [ht, hdr]
      · simp [hz, hds]
  · unfold fmtE fmtJSON
    rw [signed_finite h, signed_finite h, if_pos hc]
    obtain ⟨b, n, hb⟩ := expText_split (digits (f64Mag x)) (point (f64Mag x))
    exact ⟨(if isNeg x then [45] else []) ++ b, n, by rw [hb]; simp [expDigits], by rw [hb]; simp [expDigits]⟩
  · unfold fmtJSON fmtF
    rw [signed_finite h, signed_finite h, if_neg hc]

theorem minus_zero : fmtJSON 0x8000000000000000 = b!"-0" := by decide +kernel

theorem fmtInt_sign (s : Bool) (w : ℕ) (h : s = true → 0 < w) : (if s then [45] else []) ++ fmtNat w = fmtInt (if s then -(w : ℤ) else w) := by
  unfold fmtInt
  cases s
  · simp
  · have := h rfl
    simp only [if_true]
    rw [if_pos (by omega)]
    simp

/-- **C82**: which numbers keep their kind in JSON: exactly those that are not whole or have an absolute value of 1e21 or more. -/
theorem C82_json_float (x : UInt64) (h : Ieee.Finite x) : FloatOK goF x ↔ ¬ Whole x ∨ (10 : ℚ) ^ 21 ≤ |value x| := by
  rw [← large_iff, whole_iff]
  have hs : (if isNeg x then [45] else [] : Bytes) = [] ∨ (if isNeg x then [45] else [] : Bytes) = [45] := by cases isNeg x <;> simp
  rcases json_shape h with ⟨⟨t, u, ht, hu, e⟩, hw⟩ | ⟨w, v, e, hk, hv, hl⟩
  · refine ⟨fun _ => hw, fun _ => ⟨_, t, u, hs, ht, hu, e, (C81_round_trip x h).2.2.2⟩⟩
  · constructor
    · rintro ⟨sg, t, u, hsg, ht, hu, e', _⟩
      exfalso
      obtain ⟨c, hc, hf⟩ := fracExp_float hu
      have hm : c ∈ fmtJSON x := by
        have : fmtJSON x = sg ++ (t ++ u) := e'
        rw [this]; simp [hc]
      rw [e] at hm
      rcases List.mem_append.1 hm with hm | hm
      · rcases hs with h' | h' <;> rw [h'] at hm
        · cases hm
        · simp only [List.mem_singleton] at hm; subst hm; revert hf; decide
      · exact fmtNat_no_float w c hm hf
    · rintro (hn | hn)
      · exact absurd ⟨v, hv⟩ hn
      · omega

/-- **C82**: whole numbers below 2^63 turn into integers: the text is that of an integer whose float it is, and up to 2^53 the very number. -/
theorem C82_json_whole (x : UInt64) (h : Ieee.Finite x) (hw : Whole x) (hl : |value x| < 2 ^ 63) (hz : x ≠ 0x8000000000000000) :
    ∃ i, IsInt64 i ∧ fmtJSON x = fmtInt i ∧ ofInt i = x ∧ (|value x| < 2 ^ 53 → value x = i) := by
  rw [whole_iff] at hw
  have h63 : |value x| < ((2 ^ 63 : ℕ) : ℚ) := by push_cast; exact hl
  rcases json_shape h with ⟨⟨t, u, ht, hu, e⟩, hc⟩ | ⟨w, v, e, hk, hv, hl21⟩
  · exfalso
    rcases hc with hc | hc
    · exact hc hw
    · rw [large_iff] at hc
      have : (2 : ℚ) ^ 63 < 10 ^ 21 := by norm_num
      linarith
  · have hv63 := (abs_lt_nat hv (2 ^ 63)).1.1 h63
    have hw63 := (whole_two63 hv hk).1 hv63
    have hneg : isNeg x = true → 0 < w := by
      intro hn
      rcases Nat.eq_zero_or_pos w with rfl | hp
      · exfalso
        rw [← key_whole, key_zero 10 (by decide)] at hk
        apply hz
        rw [← mk_eta x, hn, ← hk]
        decide
      · exact hp
    have hi : (if isNeg x then -(w : ℤ) else (w : ℤ)).natAbs = w := by split <;> simp
    have hd : decide ((if isNeg x then -(w : ℤ) else (w : ℤ)) < 0) = isNeg x := by
      cases hn : isNeg x
      · simp
      · have := hneg hn
        simp; omega
    refine ⟨if isNeg x then -(w : ℤ) else w, ?_, by rw [e, fmtInt_sign _ _ hneg], ?_, ?_⟩
    · unfold IsInt64; split <;> omega
    · unfold ofInt
      rw [hi, hk, hd, mk_eta]
    · intro h53
      have h53' : |value x| < ((2 ^ 53 : ℕ) : ℚ) := by push_cast; exact h53
      have := whole_small hv ((abs_lt_nat hv (2 ^ 53)).1.1 h53') hk
      subst this
      rw [value_eq]
      unfold val
      rw [hv]
      split
      · push_cast; ring
      · push_cast; ring

theorem atoi_large (s : Bool) (w : ℕ) (h : 2 ^ 63 < w) : atoi ((if s then [45] else []) ++ fmtNat w) = none := by
  have hp := parseNat_fmtNat w
  cases s
  · obtain ⟨c, t, ht, hc⟩ := fmtNat_head w
    simp only [Bool.false_eq_true, if_false, List.nil_append]
    rw [ht] at hp ⊢
    obtain ⟨_, _, h1, h2, _⟩ := isDigit_ne hc
    simp only [atoi, h1, h2, or_self, if_false, hp]
    rw [if_neg (by unfold IsInt64; omega)]
  · simp only [if_true, List.singleton_append, atoi, true_or, hp]
    rw [if_neg (by unfold IsInt64; omega)]

theorem two63_text (x : UInt64) (hm : f64Mag x = 1086 * 2 ^ 52) : fmtJSON x = (if isNeg x then [45] else []) ++ fmtNat 9223372036854776000 := by
  have h := mk_eta x
  rw [hm] at h
  cases hn : isNeg x
  · rw [hn] at h; rw [← h]; decide +kernel
  · rw [hn] at h; rw [← h]; decide +kernel

/-- **C82**: whole numbers from 2^63 on and below 1e21 are written as digits that stand for no int64. -/
theorem C82_json_large (x : UInt64) (h : Ieee.Finite x) (hw : Whole x) (h1 : (2 : ℚ) ^ 63 ≤ |value x|) (h2 : |value x| < 10 ^ 21) :
    ∃ w, 2 ^ 63 < w ∧ fmtJSON x = (if isNeg x then [45] else []) ++ fmtNat w := by
  rw [whole_iff] at hw
  have h63 : ((2 ^ 63 : ℕ) : ℚ) ≤ |value x| := by push_cast; exact h1
  rcases json_shape h with ⟨⟨t, u, ht, hu, e⟩, hc⟩ | ⟨w, v, e, hk, hv, hl21⟩
  · exfalso
    rcases hc with hc | hc
    · exact hc hw
    · rw [large_iff] at hc; linarith
  · have hv63 := (abs_lt_nat hv (2 ^ 63)).2.1.1 h63
    rcases Nat.lt_or_eq_of_le hv63 with hlt | heq
    · exact ⟨w, (whole_two63 hv hk).2 hlt, e⟩
    · refine ⟨9223372036854776000, by decide, two63_text x ?_⟩
      rw [← heq, ← two63] at hv
      exact magVal_inj hv

/-- a number that is no int64 makes a JSON body unreadable -/
theorem large_unreadable (F : FloatCodec) (x : UInt64) (hx : floatFinite x = true) (s : Bool) (w : ℕ) (hw : 2 ^ 63 < w) (hF : F.fmt x = (if s then [45] else []) ++ fmtNat w) :
    (writeAll F .array [] [{ value := .f64 x }]).1 = [.ok ()] ∧ readAll F .array (writeAll F .array [] [{ value := .f64 x }]).2 = ([], .err .atoi) := by
  have hwr : writeAll F .array [] [{ value := .f64 x }] = ([.ok ()], 91 :: (F.fmt x ++ [93])) := by
    simp [writeAll, writeLoop, writeEntry, valBytes, jsonOK, hx, opening, separator, marshal, enc, close, openCh, closeCh]
  rw [hwr]
  refine ⟨rfl, ?_⟩
  have hat := atoi_large s w hw
  rw [← hF] at hat
  have hch : ∀ d ∈ F.fmt x, isDigit d = true ∨ d = 45 := by
    intro d hd
    rw [hF] at hd
    rcases List.mem_append.1 hd with hd | hd
    · cases s
      · cases hd
      · simp at hd; exact .inr hd
    · exact .inl (fmtNat_dig w d hd)
  have hne : F.fmt x ≠ [] := by
    rw [hF]
    have := List.ne_nil_of_length_pos (fmtNat_len_pos w)
    simp [this]
  generalize F.fmt x = t at *
  have hnum : ∀ d ∈ t, isNumCh d = true := by
    intro d hd
    rcases hch d hd with h | rfl
    · simp [isNumCh, h]
    · decide
  have htake : (t ++ [93]).takeWhile isNumCh = t := by
    rw [List.takeWhile_append_of_pos hnum]; simp [isNumCh, isDigit, isFloatCh]
  have hnf : t.any isFloatCh = false := by
    rw [List.any_eq_false]
    intro d hd
    rcases hch d hd with h | rfl
    · obtain ⟨_, h46, _, h43, _⟩ := isDigit_ne h
      have := (isDigit_iff d).mp h
      simp only [isFloatCh, Bool.or_eq_true, decide_eq_true_eq]
      rintro (((rfl | rfl) | rfl) | rfl) <;> simp at this
    · decide
  cases t with
  | nil => exact absurd rfl hne
  | cons c t =>
    have hc := hch c (by simp)
    have hcw : Json.isWhitespace c = false := by
      rcases hc with h | rfl
      · exact notWS_digit h
      · decide
    have hcn : c ≠ 110 ∧ c ≠ 116 ∧ c ≠ 102 ∧ c ≠ 34 ∧ c ≠ 93 := by
      rcases hc with h | rfl
      · have hd := (isDigit_iff c).mp h
        refine ⟨?_, ?_, ?_, ?_, ?_⟩ <;> (rintro rfl; simp at hd)
      · decide
    have hc' : c = 45 ∨ isDigit c = true := hc.symm
    have hrn : readNumber F (c :: t ++ [93]) = .err .atoi ((c :: t ++ [93]).dropWhile isNumCh) := by
      simp only [readNumber, convNumber, htake, hnf, hat, Bool.false_eq_true, if_false]
    have hrv : readValue F (fuelFor (c :: t ++ [93])) (c :: t ++ [93]) = .err .atoi ((c :: t ++ [93]).dropWhile isNumCh) := by
      rw [← hrn, List.cons_append]
      unfold fuelFor
      simp only [readValue, Json.skipWS_cons hcw, hcn, if_false, hc', if_true]
    simp only [readAll, readLoop, readEntry, openCh, closeCh, Bool.false_eq_true, if_false,
      token_self (show isWhitespace 91 = false by decide)]
    have : token 93 (c :: t ++ [93]) = none := by rw [List.cons_append]; exact token_ne hcw hcn.2.2.2.2 _
    rw [this]
    simp only [readBody, hrv]

/-- the array body of one number, as written and read again -/
def jsonTrip (x : UInt64) : List Entry × End := readAll goF .array (writeAll goF .array [] [{ value := .f64 x }]).2

/-- **C82**: a number written as a JSON body and read again comes back as it was, as an integer whose float it is, not at all, or, for minus zero, as the
integer 0. -/
theorem C82_json_body (x : UInt64) (h : Ieee.Finite x) :
    ((¬ Whole x ∨ (10 : ℚ) ^ 21 ≤ |value x|) → jsonTrip x = ([{ index := 0, value := .f64 x }], .eof)) ∧
    (Whole x → |value x| < 2 ^ 63 → ∃ i, jsonTrip x = ([{ index := 0, value := .int i }], .eof) ∧ value (ofInt i) = value x ∧ (|value x| < 2 ^ 53 → value x = i)) ∧
    (Whole x → (2 : ℚ) ^ 63 ≤ |value x| → |value x| < 10 ^ 21 → jsonTrip x = ([], .err .atoi)) := by
  have hf : floatFinite x = true := (finite_iff x).2 h
  refine ⟨fun hc => ?_, fun hw hl => ?_, fun hw h1 h2 => ?_⟩
  · have hs : Supported goF (.f64 x) := ⟨(C82_json_float x h).2 hc, hf⟩
    exact (C16_array_roundtrip goF [] ws_nil [{ value := .f64 x }] (by simpa using hs)).2
  · by_cases hz : x = 0x8000000000000000
    · subst hz
      refine ⟨0, by unfold jsonTrip; decide +kernel, ?_, fun _ => ?_⟩
      · unfold value
        have h1 : val (ofInt 0) = 0 := by decide +kernel
        have h2 : val 0x8000000000000000 = 0 := by decide +kernel
        rw [h1, h2]
      · rw [value_eq]; decide +kernel
    · obtain ⟨i, hi, he, ho, hv⟩ := C82_json_whole x h hw hl hz
      refine ⟨i, ?_, by rw [ho], hv⟩
      have hW : Writable goF (.f64 x) := ⟨.inr ⟨i, hi, he⟩, hf⟩
      have := C16_array_normalised goF [] ws_nil [{ value := .f64 x }] (by simpa using hW)
      have hn : norm goF (.f64 x) = .int i := by
        have ha : atoi (goF.fmt x) = some i := by
          have : goF.fmt x = fmtInt i := he
          rw [this]; exact atoi_fmtInt i hi
        simp only [norm, ha]
      unfold jsonTrip
      rw [this]
      simp [normL, hn, indexed]
  · obtain ⟨w, hw63, e⟩ := C82_json_large x h hw h1 h2
    exact (large_unreadable goF x hf (isNeg x) w hw63 e).2

/-- **C82**: the integer need not be the number: 2^60 is written with sixteen digits and zeros, so it comes back as an integer that is 24 greater. -/
theorem C82_changed : jsonTrip 0x43B0000000000000 = ([{ index := 0, value := .int 1152921504606847000 }], .eof) ∧ value 0x43B0000000000000 = 1152921504606846976 := by
  refine ⟨by unfold jsonTrip; decide +kernel, ?_⟩
  have := (value_eq (x := 0x43B0000000000000) (i := 1152921504606846976)).2 (by unfold val magVal unit; decide +kernel)
  rw [this]; norm_cast

/-- **C82**: a number survives in NDJSON bodies, in array and object cells of CSV bodies and in documents exactly if it is finite. -/
theorem C82_kept (x : UInt64) : Ndjson.Kept goF (.f64 x) ↔ Ieee.Finite x := by
  constructor
  · rintro ⟨_, _, h⟩
    exact (finite_iff x).1 h
  · intro h
    exact ⟨json_numeral h, (C81_round_trip x h).2.2.2, (finite_iff x).2 h⟩

/-! ### CSV -/

/-- the functions that CSV bodies use -/
def goCsv : CsvIO.Lib := { parse64 := parse64, fmtF := fmtF, F := goF }

theorem decimal_nocr {s xs : Bytes} {neg : Bool} {m : ℕ} {e : ℤ} (h : Decimal s xs neg m e) : (13 : UInt8) ∉ s ∧ s ≠ [] := by
  refine ⟨fun hc => ?_, ?_⟩
  · rcases decimal_ch h 13 hc with h | h | h | h | h | h
    · revert h; decide
    all_goals exact absurd h (by decide)
  · cases h with
    | mk sign a f b x _ E hs ha hf hne hx =>
      intro e
      simp only [List.append_eq_nil_iff] at e
      obtain ⟨_, rfl, rfl, _⟩ := e
      cases hf
      exact hne rfl

/-- **C82**: the number cells of CSV bodies bring back every number but those of the NaNs that are not the usual one; infinities included. -/
theorem C82_csv (x : UInt64) : CsvIO.Fits goCsv b!"number" (.f64 x) ↔ f64NaN x = false ∨ x = nan := by
  have hsp : ∀ f, f64NaN x = false → ¬ Ieee.Finite x → signed x f ≠ [] ∧ (13 : UInt8) ∉ signed x f := by
    intro f hn hx
    have hi : isInf x = true := by
      cases h' : isInf x with
      | true => rfl
      | false => exact absurd (finite_of hn h') hx
    unfold signed
    rw [hn, hi]
    cases isNeg x <;> simp
  constructor
  · rintro ⟨_, h, _⟩
    cases hn : f64NaN x with
    | false => exact .inl rfl
    | true =>
      right
      have hx : ¬ Ieee.Finite x := fun hf => by rw [hf.notNaN] at hn; cases hn
      have h' := (C81_special x hx).1
      rw [hn] at h'
      have : parse64 (fmtF x) = some x := h
      rw [this] at h'
      simpa using h'
  · intro h
    by_cases hx : Ieee.Finite x
    · obtain ⟨xs, m, e, d, _⟩ := fmtF_means hx
      exact ⟨rfl, (C81_round_trip x hx).1, (decimal_nocr d).2, (decimal_nocr d).1⟩
    · rcases h with hn | rfl
      · obtain ⟨h1, h2⟩ := hsp (fun k => plainText (digits k) (point k)) hn hx
        have h' := (C81_special x hx).1
        rw [hn] at h'
        exact ⟨rfl, by simpa [goCsv] using h', h1, h2⟩
      · refine ⟨rfl, ?_, ?_, ?_⟩
        · have h' := (C81_special nan hx).1
          rw [nan_nan] at h'
          exact h'
        · have : goCsv.fmtF nan = b!"NaN" := by decide +kernel
          rw [this]; decide
        · have : goCsv.fmtF nan = b!"NaN" := by decide +kernel
          rw [this]; decide

/-! ### Cells whose type is guessed -/

/-- the functions that package vals uses -/
def goVals : Vals.Lib :=
  { parse64 := parse64, parse32 := parse32, fmtG := fmtG, unmarshalMap := CsvIO.unmarshalObject goF, unmarshalSlice := CsvIO.unmarshalArray goF,
    marshal := fun v => if jsonOK v then some (enc goF v) else none }

theorem key_inf_base {b m : ℕ} {e : ℤ} (hb : 0 < b) (h : (scaled b m e).1 < (2 ^ 128 - 2 ^ 103) * (scaled b m e).2) : key b m e ≠ infKey := by
  have hd := scaled_pos hb m e
  unfold key
  generalize scaled b m e = p at *
  intro he
  have h0 := near_above (p.1 * unit) p.2 hd (infKey - 1)
  have h1 : infKey - 1 + 1 = infKey := by unfold infKey; decide
  have h2 : (infKey - 1) % 2 = 1 := by unfold infKey; decide
  rw [h1, h2, mid_last] at h0
  rw [rnd_near] at he
  have hB : 2 ^ 128 - 2 ^ 103 ≤ 2 ^ 1024 - 2 ^ 970 := by decide +kernel
  generalize 2 ^ 1024 - 2 ^ 970 = B at *
  generalize 2 ^ 128 - 2 ^ 103 = A at *
  have e1 : 2 * (B * unit) * p.2 = 2 * ((B * p.2) * unit) := by ring
  rw [e1] at h0
  have h3 : infKey ≤ near (p.1 * unit) p.2 := by omega
  have h4 : B * p.2 * unit ≤ p.1 * unit := by have := h0.1 h3; omega
  have h5 := Nat.le_of_mul_le_mul_right h4 unit_pos
  have h6 := Nat.mul_le_mul_right p.2 hB
  omega

/-- **C82**: a text that is a float32 is a float64, so a cell guessed to be a number parses as one. -/
theorem C82_widen : Vals.FloatsWiden goVals := by
  intro s h
  unfold goVals at h ⊢
  simp only at h ⊢
  unfold parse32 at h
  unfold parse64
  cases hs : special s with
  | some x => rfl
  | none =>
    simp only [hs, Option.isSome_none, Bool.false_or] at h
    cases hr : readFloat s with
    | none => rw [hr] at h; cases h
    | some n =>
      rw [hr] at h
      simp only [decide_eq_true_eq] at h
      have := key_inf_base (by cases n.hex <;> simp) h
      simp only [this, if_false, Option.isSome_some]

/-- no space -/
abbrev NoWS (c : UInt8) : Prop := ¬ (c = 32 ∨ c = 10 ∨ c = 13 ∨ c = 9)

theorem digit_noWS (hex : Bool) (c : UInt8) (h : (digitVal hex c).isSome) : NoWS c := by
  have key : ∀ (hex : Bool) (n : Fin 256), (digitVal hex (UInt8.ofNat n.1)).isSome → ¬ (UInt8.ofNat n.1 = 32 ∨ UInt8.ofNat n.1 = 10 ∨ UInt8.ofNat n.1 = 13 ∨ UInt8.ofNat n.1 = 9) := by
    decide +kernel
  have := key hex ⟨c.toNat, c.toNat_lt⟩
  simp only [UInt8.ofNat_toNat] at this
  exact this h

theorem scanMant_noWS (hex : Bool) (a : Mant) (s : Bytes) : ∃ p, s = p ++ (scanMant hex a s).2 ∧ ∀ c ∈ p, NoWS c := by
  induction s generalizing a with
  | nil => exact ⟨[], rfl, by simp⟩
  | cons c s ih =>
    have ext : ∀ a' r, NoWS c → scanMant hex a (c :: s) = scanMant hex a' s → r = (scanMant hex a (c :: s)).2 → ∃ p, c :: s = p ++ r ∧ ∀ c ∈ p, NoWS c := by
      intro a' r hc he hr
      obtain ⟨p, h1, h2⟩ := ih a'
      refine ⟨c :: p, by rw [hr, he, List.cons_append, ← h1], fun x hx => ?_⟩
      rcases List.mem_cons.1 hx with rfl | hx
      · exact hc
      · exact h2 x hx
    have stop : ∀ r, scanMant hex a (c :: s) = (a, c :: s) → r = (scanMant hex a (c :: s)).2 → ∃ p, c :: s = p ++ r ∧ ∀ c ∈ p, NoWS c := by
      intro r he hr
      exact ⟨[], by rw [hr, he]; rfl, by simp⟩
    by_cases h1 : c = 95
    · subst h1
      exact ext _ _ (by decide) (by simp only [scanMant, if_true]; rfl) rfl
    · by_cases h2 : c = 46
      · subst h2
        cases hd : a.dot with
        | true => exact stop _ (by simp [scanMant, hd]) rfl
        | false => exact ext _ _ (by decide) (by simp [scanMant, hd]; rfl) rfl
      · cases hv : digitVal hex c with
        | none => exact stop _ (by simp [scanMant, h1, h2, hv]) rfl
        | some d => exact ext _ _ (digit_noWS hex c (by simp [hv])) (by simp only [scanMant, h1, h2, if_false, hv]; rfl) rfl

theorem scanExp_noWS (e : ℕ) (s : Bytes) (h : (scanExp e s).2 = []) : ∀ c ∈ s, NoWS c := by
  induction s generalizing e with
  | nil => simp
  | cons c s ih =>
    intro x hx
    by_cases h1 : c = 95
    · subst h1
      simp only [scanExp, if_true] at h
      rcases List.mem_cons.1 hx with rfl | hx
      · decide
      · exact ih _ h x hx
    · simp only [scanExp, h1, if_false] at h
      by_cases hd : isDigit c = true
      · simp only [hd, if_true] at h
        rcases List.mem_cons.1 hx with rfl | hx
        · exact digit_noWS false _ (by simp [digitVal, hd])
        · exact ih _ h x hx
      · simp [hd] at h

theorem expo_noWS {v : Bytes} {E : ℤ} (h : expo v = some (E, [])) : ∀ c ∈ v, NoWS c := by
  have hu : ∀ u : Bytes, (match u with | [] => none | d :: _ => if isDigit d then (let r := scanExp 0 u; some (if v.head? = some 45 then -(r.1 : ℤ) else r.1, r.2)) else none) = some (E, []) →
      ∀ c ∈ u, NoWS c := by
    intro u hu
    cases u with
    | nil => cases hu
    | cons d t =>
      simp only at hu
      by_cases hd : isDigit d = true
      · simp only [hd, if_true, Option.some.injEq, Prod.mk.injEq] at hu
        exact scanExp_noWS 0 _ hu.2
      · simp [hd] at hu
  have := hu (if v.head? = some 45 ∨ v.head? = some 43 then v.tail else v) (by
    unfold expo at h
    simp only at h
    exact h)
  cases v with
  | nil => simp
  | cons c v =>
    by_cases hc : c = 45 ∨ c = 43
    · have hc' : (some c = some (45 : UInt8) ∨ some c = some (43 : UInt8)) := by simpa using hc
      simp only [List.head?_cons, hc', if_true, List.tail_cons] at this
      intro x hx
      rcases List.mem_cons.1 hx with rfl | hx
      · rcases hc with rfl | rfl <;> decide
      · exact this x hx
    · have hc' : ¬ (some c = some (45 : UInt8) ∨ some c = some (43 : UInt8)) := by simpa using hc
      simpa only [List.head?_cons, hc', if_false] using this

theorem unsign_noWS {s : Bytes} (h : ∀ c ∈ unsign s, NoWS c) : ∀ c ∈ s, NoWS c := by
  unfold unsign at h
  cases s with
  | nil => simp
  | cons c s =>
    by_cases hc : c = 45 ∨ c = 43
    · have hc' : (some c = some (45 : UInt8) ∨ some c = some (43 : UInt8)) := by simpa using hc
      simp only [List.head?_cons, hc', if_true, List.tail_cons] at h
      intro x hx
      rcases List.mem_cons.1 hx with rfl | hx
      · rcases hc with rfl | rfl <;> decide
      · exact h x hx
    · have hc' : ¬ (some c = some (45 : UInt8) ∨ some c = some (43 : UInt8)) := by simpa using hc
      simpa only [List.head?_cons, hc', if_false] using h

theorem lower_noWS {s t : Bytes} (h : lowerAscii s = t) (ht : ∀ c ∈ t, NoWS c) : ∀ c ∈ s, NoWS c := by
  intro c hc
  have := ht (if 65 ≤ c ∧ c ≤ 90 then c + 32 else c) (by rw [← h]; exact List.mem_map.2 ⟨c, hc, rfl⟩)
  intro hw
  apply this
  rcases hw with rfl | rfl | rfl | rfl <;> decide

/-- **C82**: texts of floats contain no space. -/
theorem C82_no_spaces : Vals.NoSpaces goVals := by
  intro s h
  unfold goVals at h
  simp only at h
  unfold parse32 at h
  rw [Bool.or_eq_true] at h
  rcases h with h | h
  · unfold special at h
    simp only at h
    by_cases h1 : lowerAscii (unsign s) = b!"inf" ∨ lowerAscii (unsign s) = b!"infinity"
    · apply unsign_noWS
      rcases h1 with h1 | h1 <;> exact lower_noWS h1 (by unfold NoWS; decide)
    · simp only [h1, if_false] at h
      by_cases h2 : lowerAscii s = b!"nan"
      · exact lower_noWS h2 (by unfold NoWS; decide)
      · simp [h2] at h
  · cases hr : readFloat s with
    | none => rw [hr] at h; cases h
    | some n =>
      clear h
      apply unsign_noWS
      unfold readFloat at hr
      simp only at hr
      obtain ⟨p, hp, hpw⟩ := scanMant_noWS (hexPrefix (unsign s)) {} (if hexPrefix (unsign s) then (unsign s).drop 2 else unsign s)
      have hin : ∀ c ∈ (if hexPrefix (unsign s) then (unsign s).drop 2 else unsign s), NoWS c := by
        cases hdg : (scanMant (hexPrefix (unsign s)) {} (if hexPrefix (unsign s) then (unsign s).drop 2 else unsign s)).1.digs with
        | false => simp [hdg] at hr
        | true =>
          simp only [hdg, Bool.true_eq_false, if_false] at hr
          generalize (scanMant (hexPrefix (unsign s)) {} (if hexPrefix (unsign s) then (unsign s).drop 2 else unsign s)).2 = r at *
          rw [hp]
          cases r with
          | nil => simpa using hpw
          | cons c v =>
            simp only at hr
            generalize hexPrefix (unsign s) = hx at hr
            by_cases hc : c ||| 32 = (if hx then 112 else 101)
            · rw [if_pos hc] at hr
              cases hex : expo v with
              | none => simp [hex] at hr
              | some q =>
                obtain ⟨E, q⟩ := q
                cases q with
                | cons y q => simp [hex] at hr
                | nil =>
                  intro x hx'
                  rcases List.mem_append.1 hx' with hx' | hx'
                  · exact hpw x hx'
                  · rcases List.mem_cons.1 hx' with rfl | hx'
                    · intro hw
                      rcases hw with rfl | rfl | rfl | rfl <;> (revert hc; cases hx <;> decide)
                    · exact expo_noWS hex x hx'
            · rw [if_neg hc] at hr
              cases hr
      cases hh : hexPrefix (unsign s) with
      | false => simpa [hh] using hin
      | true =>
        simp only [hh, if_true] at hin
        generalize unsign s = t at *
        match t, hh with
        | c :: x :: y :: t, hh =>
          simp only [hexPrefix, Bool.and_eq_true, decide_eq_true_eq] at hh
          intro z hz
          rcases List.mem_cons.1 hz with rfl | hz
          · rw [hh.1]; decide
          · rcases List.mem_cons.1 hz with rfl | hz
            · intro hw
              rcases hw with rfl | rfl | rfl | rfl <;> exact absurd hh.2 (by decide)
            · exact hin z (by simpa using hz)

theorem fmtInt_decimal (i : ℤ) : ∃ neg, Decimal (fmtInt i) [] neg i.natAbs 0 := by
  unfold fmtInt
  split
  · have d := Decimal.mk [45] (fmtNat (-i).toNat) [] [] [] [] 0 (by simp) (fmtNat_dig _) .none (by simpa using List.ne_nil_of_length_pos (fmtNat_len_pos _)) .none
    rw [List.append_nil (fmtNat (-i).toNat), natOf_fmtNat, show (-i).toNat = i.natAbs by omega] at d
    exact ⟨true, by simpa [show (-i).toNat = i.natAbs by omega] using d⟩
  · have d := Decimal.mk [] (fmtNat i.toNat) [] [] [] [] 0 (by simp) (fmtNat_dig _) .none (by simpa using List.ne_nil_of_length_pos (fmtNat_len_pos _)) .none
    rw [List.append_nil (fmtNat i.toNat), natOf_fmtNat, show i.toNat = i.natAbs by omega] at d
    exact ⟨false, by simpa [show i.toNat = i.natAbs by omega] using d⟩

theorem parse32_small {s xs : Bytes} {neg : Bool} {m : ℕ} {e : ℤ} (h : Decimal s xs neg m e) (hl : natOf xs < 100000)
    (hm : (scaled 10 m e).1 < (2 ^ 128 - 2 ^ 103) * (scaled 10 m e).2) : parse32 s = true := by
  obtain ⟨e', h1, h2, _⟩ := readFloat_decimal h
  have := h2 hl
  subst this
  unfold parse32
  rw [special_num (decimal_ch h), h1]
  simp only [Bool.or_eq_true, decide_eq_true_eq]
  exact .inr hm

/-- **C82**: so every int64 is recognised as an integer (C43). -/
theorem C82_integers (i : ℤ) (hi : IsInt64 i) : goVals.parse32 (fmtInt i) = true := by
  obtain ⟨neg, d⟩ := fmtInt_decimal i
  refine parse32_small d (by decide) ?_
  unfold scaled
  simp only [show (0 : ℤ) ≤ 0 from Int.le_refl 0, if_true]
  unfold IsInt64 at hi
  have : (10 : ℕ) ^ (0 : ℤ).toNat = 1 := rfl
  rw [this]
  omega

/-- **C82**: the library takes a decimal text for a float32 unless the number is too large for one. -/
theorem C82_range32 {s xs : Bytes} {neg : Bool} {m : ℕ} {e : ℤ} (h : Decimal s xs neg m e) (hl : s.length ≤ 9000) :
    parse32 s = true ↔ |dec neg m e| < 2 ^ 128 - 2 ^ 103 := by
  rw [parse32_short h hl, abs_dec, div_lt_iff₀ (by exact_mod_cast scaled_pos (by decide) m e), decide_eq_true_eq]
  have hb : ((2 : ℚ) ^ 128 - 2 ^ 103) = ((2 ^ 128 - 2 ^ 103 : ℕ) : ℚ) := by norm_num
  rw [hb]
  generalize 2 ^ 128 - 2 ^ 103 = B at *
  exact_mod_cast Iff.rfl

/-- **C82**: so a decimal number beginning with a digit or a minus sign is guessed to be text exactly if it is too large for a float32. -/
theorem C82_guess {s xs : Bytes} {neg : Bool} {m : ℕ} {e : ℤ} (h : Decimal s xs neg m e) (hl : s.length ≤ 9000)
    (hh : ∃ c t, s = c :: t ∧ (c = 45 ∨ isDigit c = true)) : Vals.parseType goVals s = .string ↔ 2 ^ 128 - 2 ^ 103 ≤ |dec neg m e| := by
  have h32 := C82_range32 h hl
  obtain ⟨c, t, rfl, hc⟩ := hh
  obtain ⟨hb, hn⟩ := Vals.isBoolean_head c t hc
  unfold Vals.parseType
  rw [hb, if_neg (by simp), if_neg hn]
  have h34 : c ≠ 34 := by rintro rfl; revert hc; decide
  simp only [Vals.parseTypeLoop]
  rw [if_neg h34, if_pos (by rcases hc with hc | hc <;> simp [hc]), ← not_lt, ← h32]
  show (if parse32 (c :: t) = false then Vals.VType.string else _) = _ ↔ _
  cases parse32 (c :: t) with
  | false => simp
  | true => simp only [Bool.true_eq_false, if_false, not_true_eq_false, iff_false]; split <;> simp

/-- **C82**: a number beyond that which is a number for the library all the same. -/
theorem C82_guessed_text : Vals.parseType goVals b!"1e39" = .string ∧ Vals.VType.number.parse goVals b!"1e39" = some (.f64 0x48078287F49C4A1D) := by
  constructor <;> decide +kernel

/-- **C82**: which numbers come back from a printed cell (C41): all but the NaNs that are not the usual one. -/
theorem C82_cells (x : UInt64) : Vals.Cell goVals .number (.f64 x) (.f64 x) ↔ f64NaN x = false ∨ x = nan := by
  have hg : parse64 (fmtG x) = some x ↔ f64NaN x = false ∨ x = nan := by
    by_cases hx : Ieee.Finite x
    · simp [(C81_round_trip x hx).2.2.1, hx.notNaN]
    · rw [(C81_special x hx).2]
      cases hn : f64NaN x <;> simp [eq_comm]
  rw [← hg]
  exact ⟨fun h => by cases h with | number _ h => exact h, fun h => .number x h⟩

open CsvIO Streams in
/-- **C82**: what the command-line tool generates as CSV reads back (C47), whatever the library. -/
theorem C82_generated {ρ : Type} {S : Generate.Source ρ} (hS : Generate.Lawful S) (g : Generate.Gen ρ) (hm : 0 < g.maxLen) (types : List Bytes)
    (ht : g.cols.map (·.type.head?) = types.map some) (hk : ∀ t ∈ types, Generate.Known t) (h2 : 2 ≤ types.length)
    (o : Config.CSVOptions) (hv : Csv.validDelim (cfg o).comma = true) (hcr : ∀ c ∈ g.cols, (13 : UInt8) ∉ c.title) (n : Nat) :
    ∃ (es : List Entry) (g' : Generate.Gen ρ) (rows : List (List Val)) (text : Bytes), Generate.reads S n g = some (es, g') ∧ es.map (·.value) = rows.map .arr ∧
      Accepts (writer goCsv o) (header o g.cols) es text ∧
      ∀ ks : List Nat, text.length ≤ ks.sum → ∃ st', Drains (reader goCsv o types) (start o (ReplaceCr.reads true ks text).1)
        (rows.map fun vs => { value := .arr (vs.map Generate.asRead) }) .eof st' := by
  refine Generate.C47_csv hS g hm types ht hk h2 goCsv (fun x hx => ?_) o hv hcr n
  obtain ⟨_, h⟩ := (C82_csv x).2 (.inl ((finite_iff x).1 hx).notNaN)
  exact h

/-! ### Examples -/

example : Ieee.Finite 0x43B0000000000000 ∧ Whole 0x43B0000000000000 ∧ ¬ Whole 0x3FF8000000000000 := by
  refine ⟨by unfold Ieee.Finite infKey; decide +kernel, ⟨1152921504606846976, by rw [C82_changed.2]; norm_cast⟩, ?_⟩
  rintro ⟨i, h⟩
  rw [value_eq] at h
  have h1 : val 0x3FF8000000000000 = 3 * 2 ^ 1073 := by unfold val magVal; decide +kernel
  have h2 : (unit : ℤ) = 2 * 2 ^ 1073 := by unfold unit; decide +kernel
  rw [h1, h2] at h
  have : (0 : ℤ) < 2 ^ 1073 := by positivity
  generalize (2 : ℤ) ^ 1073 = U at *
  have h3 : (3 : ℤ) = i * 2 := by
    have : 3 * U = (i * 2) * U := by rw [h]; ring
    exact mul_right_cancel₀ (by omega) this
  omega
example : jsonTrip 0x43E0000000000000 = ([], .err .atoi) ∧ jsonTrip 0x3FF8000000000000 = ([{ index := 0, value := .f64 0x3FF8000000000000 }], .eof) ∧
    jsonTrip 0x8000000000000000 = ([{ index := 0, value := .int 0 }], .eof) := by unfold jsonTrip; decide +kernel
example : Vals.parseType goVals b!"-12" = .integer ∧ Vals.parseType goVals b!"1e3" = .number ∧ Vals.parseType goVals b!"3.4e38" = .number ∧ Vals.parseType goVals b!"3.5e38" = .string := by
  decide +kernel

end Verif.FloatText
