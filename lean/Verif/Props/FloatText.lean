import Verif.Lemmas.FloatWhole
import Verif.Lemmas.IeeeRound
import Verif.Spec.FloatValue
import Mathlib.Tactic.Linarith
/-
C81: numbers as text.  A decimal text is read as the float nearest to the number it means, and is refused only if that number is out of range; every float
is written in a way that is read as the same float, with as few digits as any text for it has.
-/
set_option autoImplicit false
namespace Verif.FloatText
open Ieee JsonG Json

attribute [local irreducible] near magVal unit infKey shortest key

/-! ### Fractions -/

theorem unit_cast : ((unit : ℕ) : ℚ) = 2 ^ 1074 := by
  have : unit = 2 ^ 1074 := by unfold unit; rfl
  rw [this, Nat.cast_pow, Nat.cast_ofNat]

theorem scaled_cast (m : ℕ) (e : ℤ) : (m : ℚ) * 10 ^ e = ((scaled 10 m e).1 : ℚ) / (scaled 10 m e).2 := by
  unfold scaled
  by_cases h : 0 ≤ e
  · simp only [h, if_true]
    obtain ⟨n, rfl⟩ := Int.eq_ofNat_of_zero_le h
    simp
  · simp only [h, if_false]
    obtain ⟨n, hn⟩ := Int.eq_ofNat_of_zero_le (show 0 ≤ -e by omega)
    have : e = -(n : ℤ) := by omega
    subst this
    simp [div_eq_mul_inv]

theorem dec_scaled (neg : Bool) (m : ℕ) (e : ℤ) : dec neg m e = (if neg then -((scaled 10 m e).1 : ℚ) else (scaled 10 m e).1) / (scaled 10 m e).2 := by
  unfold dec
  rw [mul_assoc, scaled_cast]
  cases neg <;> simp [neg_div]

theorem abs_dec (neg : Bool) (m : ℕ) (e : ℤ) : |dec neg m e| = ((scaled 10 m e).1 : ℚ) / (scaled 10 m e).2 := by
  rw [dec_scaled]
  have h : (0 : ℚ) ≤ ((scaled 10 m e).1 : ℚ) / (scaled 10 m e).2 := by positivity
  cases neg
  · simp only [Bool.false_eq_true, if_false]; exact abs_of_nonneg h
  · simp only [if_true]; rw [neg_div, abs_neg]; exact abs_of_nonneg h

/-- distances of floats from a fraction, as whole numbers -/
theorem dist_eq (w : UInt64) (neg : Bool) (num den : ℕ) (hd : 0 < den) :
    |value w - (if neg then -(num : ℚ) else num) / den| = ((val w * den - (if neg then -((num * unit : ℕ) : ℤ) else ((num * unit : ℕ) : ℤ))).natAbs : ℚ) / ((2 ^ 1074) * den) := by
  have hd' : (0 : ℚ) < den := by exact_mod_cast hd
  have hu : (0 : ℚ) < unit := by exact_mod_cast unit_pos
  unfold value
  rw [← unit_cast]
  generalize unit = U at *
  have e : (val w : ℚ) / U - (if neg then -(num : ℚ) else num) / den = ((val w * den - (if neg then -((num * U : ℕ) : ℤ) else ((num * U : ℕ) : ℤ)) : ℤ) : ℚ) / (U * den) := by
    rw [div_sub_div _ _ hu.ne' hd'.ne']
    congr 1
    cases neg
    · simp only [Bool.false_eq_true, if_false]
      push_cast
      ring
    · simp only [if_true]
      push_cast
      ring
  rw [e, abs_div, abs_of_pos (mul_pos hu hd'), ← Int.cast_abs, Int.abs_eq_natAbs]
  simp

/-! ### Reading -/

theorem mid_last : mid (infKey - 1) = 2 * ((2 ^ 1024 - 2 ^ 970) * unit) := by unfold mid unit infKey magVal; decide +kernel

theorem key_inf_iff (m : ℕ) (e : ℤ) : key 10 m e = infKey ↔ (2 ^ 1024 - 2 ^ 970) * (scaled 10 m e).2 ≤ (scaled 10 m e).1 := by
  have hd := scaled_pos (b := 10) (by decide) m e
  unfold key
  generalize scaled 10 m e = p at *
  have h := near_above (p.1 * unit) p.2 hd (infKey - 1)
  have h1 : infKey - 1 + 1 = infKey := by unfold infKey; decide
  have h2 : (infKey - 1) % 2 = 1 := by unfold infKey; decide
  rw [h1, h2, mid_last] at h
  rw [rnd_near]
  generalize 2 ^ 1024 - 2 ^ 970 = B at *
  have e1 : 2 * (B * unit) * p.2 = 2 * ((B * p.2) * unit) := by ring
  rw [e1] at h
  have : min infKey (near (p.1 * unit) p.2) = infKey ↔ infKey ≤ near (p.1 * unit) p.2 := by omega
  rw [this, h]
  constructor
  · intro h'
    have : B * p.2 * unit ≤ p.1 * unit := by omega
    exact Nat.le_of_mul_le_mul_right this unit_pos
  · intro h'
    have := Nat.mul_le_mul_right unit h'
    omega

/-- **C81**: a decimal text is read as the float nearest to the number it means, ties going to the even one, with the sign of the text; a text of up to 9000
bytes may have any exponent. -/
theorem C81_nearest {s xs : Bytes} {neg : Bool} {m : ℕ} {e : ℤ} (h : Decimal s xs neg m e) (hl : s.length ≤ 9000) (x : UInt64) (hx : parse64 s = some x) :
    Ieee.Finite x ∧ isNeg x = neg ∧ ∀ w, Ieee.Finite w → |value x - dec neg m e| ≤ |value w - dec neg m e| ∧
      (|value x - dec neg m e| = |value w - dec neg m e| → value w = value x ∨ f64Mag x % 2 = 0) := by
  rw [parse64_short h hl] at hx
  split at hx
  · cases hx
  rename_i hne
  cases hx
  have hlt : key 10 m e < infKey := by
    have : key 10 m e ≤ infKey := by unfold key; exact rnd_le _ _
    omega
  have h63 : key 10 m e < 2 ^ 63 := by have := infKey_lt; omega
  refine ⟨finite_mk neg hlt, isNeg_mk neg h63, fun w hw => ?_⟩
  have hd := scaled_pos (b := 10) (by decide) m e
  have hr := (rounds_mk neg ((scaled 10 m e).1 * unit) (scaled 10 m e).2 hd).2 w hw
  have hk : rnd ((scaled 10 m e).1 * unit) (scaled 10 m e).2 = key 10 m e := by unfold key; rfl
  rw [hk] at hr
  rw [dec_scaled, dist_eq _ _ _ _ hd, dist_eq _ _ _ _ hd]
  have hpos : (0 : ℚ) < 2 ^ 1074 * ((scaled 10 m e).2 : ℚ) := mul_pos (by positivity) (by exact_mod_cast hd)
  constructor
  · rw [div_le_div_iff_of_pos_right hpos]
    exact_mod_cast hr.1
  · intro he
    rw [div_left_inj' hpos.ne'] at he
    have he' := hr.2 (by exact_mod_cast he)
    rcases he' with h1 | h1
    · left; unfold value; rw [h1]
    · exact .inr h1

/-- **C81**: it is refused exactly if the number is not below the midpoint between the greatest float and 2^1024. -/
theorem C81_range {s xs : Bytes} {neg : Bool} {m : ℕ} {e : ℤ} (h : Decimal s xs neg m e) (hl : s.length ≤ 9000) :
    parse64 s = none ↔ 2 ^ 1024 - 2 ^ 970 ≤ |dec neg m e| := by
  rw [parse64_short h hl, abs_dec, le_div_iff₀ (by exact_mod_cast scaled_pos (by decide) m e)]
  have hb : ((2 : ℚ) ^ 1024 - 2 ^ 970) = ((2 ^ 1024 - 2 ^ 970 : ℕ) : ℚ) := by
    rw [Nat.cast_sub (Nat.pow_le_pow_right (by decide) (by decide))]
    simp
  rw [hb]
  have := key_inf_iff m e
  generalize 2 ^ 1024 - 2 ^ 970 = B at *
  have h2 : ((B : ℚ) * ((scaled 10 m e).2 : ℚ) ≤ ((scaled 10 m e).1 : ℚ)) ↔ B * (scaled 10 m e).2 ≤ (scaled 10 m e).1 := by exact_mod_cast Iff.rfl
  rw [h2, ← this]
  split <;> simp_all

/-- the letters of `0x`, of infinities and of NaN, and the underscore -/
def Strange (c : UInt8) : Prop := c = 95 ∨ c = 120 ∨ c = 88 ∨ c = 110 ∨ c = 78

theorem unsign_mem {s : Bytes} {c : UInt8} (h : c ∈ unsign s) : c ∈ s := by
  unfold unsign at h
  split at h
  · exact List.mem_of_mem_tail h
  · exact h

theorem special_plain {s : Bytes} (h : ∀ c ∈ s, ¬ Strange c) : special s = none := by
  have hl : ∀ t : Bytes, (∀ c ∈ t, ¬ Strange c) → ∀ c ∈ lowerAscii t, c ≠ 110 := by
    intro t ht c hc
    obtain ⟨d, hd, rfl⟩ := List.mem_map.1 hc
    have key : ∀ n : Fin 256, (if 65 ≤ UInt8.ofNat n.1 ∧ UInt8.ofNat n.1 ≤ 90 then UInt8.ofNat n.1 + 32 else UInt8.ofNat n.1) = 110 → UInt8.ofNat n.1 = 110 ∨ UInt8.ofNat n.1 = 78 := by
      decide +kernel
    have := key ⟨d.toNat, d.toNat_lt⟩
    simp only [UInt8.ofNat_toNat] at this
    intro e
    rcases this e with h | h
    · exact ht d hd (.inr (.inr (.inr (.inl h))))
    · exact ht d hd (.inr (.inr (.inr (.inr h))))
  have hu : ∀ c ∈ unsign s, ¬ Strange c := fun c hc => h c (unsign_mem hc)
  unfold special
  have h1 : ¬ (lowerAscii (unsign s) = b!"inf" ∨ lowerAscii (unsign s) = b!"infinity") := by
    rintro (e | e) <;> exact hl _ hu 110 (by rw [e]; decide) rfl
  have h2 : lowerAscii s ≠ b!"nan" := fun e => hl _ h 110 (by rw [e]; decide) rfl
  simp only [h1, h2, if_false]

theorem hexPrefix_plain {s : Bytes} (h : ∀ c ∈ s, ¬ Strange c) : hexPrefix (unsign s) = false := by
  have hu : ∀ c ∈ unsign s, ¬ Strange c := fun c hc => h c (unsign_mem hc)
  generalize unsign s = t at *
  have key : ∀ n : Fin 256, UInt8.ofNat n.1 ||| 32 = 120 → UInt8.ofNat n.1 = 120 ∨ UInt8.ofNat n.1 = 88 := by decide +kernel
  match t, hu with
  | [], _ => rfl
  | [_], _ => rfl
  | [_, _], _ => rfl
  | c :: x :: y :: t, hu =>
    have := key ⟨x.toNat, x.toNat_lt⟩
    simp only [UInt8.ofNat_toNat] at this
    have hx : x ||| 32 ≠ 120 := by
      intro e
      have hs := hu x (by simp)
      rcases this e with h | h
      · exact hs (.inr (.inl h))
      · exact hs (.inr (.inr (.inl h)))
    simp [hexPrefix, hx]

/-- **C81**: without underscores and the letters of `0x`, `Inf` and `NaN`, nothing but decimal texts is read. -/
theorem C81_syntax (s : Bytes) (h : ∀ c ∈ s, ¬ Strange c) (x : UInt64) (hx : parse64 s = some x) : ∃ xs neg m e, Decimal s xs neg m e := by
  unfold parse64 at hx
  rw [special_plain h] at hx
  cases hr : readFloat s with
  | none => rw [hr] at hx; cases hx
  | some n => exact readFloat_inv hr (fun hc => h 95 hc (.inl rfl)) (hexPrefix_plain h)

/-! ### Writing -/

/-- **C81**: however a finite float is written, the text is read as that float, sign of zero included. -/
theorem C81_round_trip (x : UInt64) (h : Ieee.Finite x) :
    parse64 (fmtF x) = some x ∧ parse64 (fmtE x) = some x ∧ parse64 (fmtG x) = some x ∧ parse64 (fmtJSON x) = some x :=
  ⟨means_read h (fmtF_means h), means_read h (fmtE_means h), means_read h (fmtG_means h), means_read h (fmtJSON_means h)⟩

/-- **C81**: infinities come back as well, and a NaN as some NaN. -/
theorem C81_special (x : UInt64) (h : ¬ Ieee.Finite x) : parse64 (fmtF x) = some (if f64NaN x then nan else x) ∧ parse64 (fmtG x) = some (if f64NaN x then nan else x) :=
  ⟨special_texts h _, special_texts h _⟩

/-! ### The digits -/

theorem pick_choice {k n : ℕ} {r : ℕ × ℤ} (h : pick k n = some r) :
    (r.1 = (inUnits k n).1 / (inUnits k n).2 ∧ (key 10 ((inUnits k n).1 / (inUnits k n).2 + 1) (lastExp k n) = k →
        2 * (inUnits k n).1 ≤ (2 * ((inUnits k n).1 / (inUnits k n).2) + 1) * (inUnits k n).2)) ∨
    (r.1 = (inUnits k n).1 / (inUnits k n).2 + 1 ∧ (key 10 ((inUnits k n).1 / (inUnits k n).2) (lastExp k n) = k →
        (2 * ((inUnits k n).1 / (inUnits k n).2) + 1) * (inUnits k n).2 ≤ 2 * (inUnits k n).1)) := by
  unfold pick at h
  simp only at h
  generalize inUnits k n = v at *
  generalize v.1 / v.2 = q at *
  generalize (2 * q + 1) * v.2 = w at *
  by_cases h1 : key 10 q (lastExp k n) = k
  · by_cases h2 : key 10 (q + 1) (lastExp k n) = k
    · simp only [h1, h2, if_true] at h
      split at h
      · cases h; left; exact ⟨rfl, fun _ => by omega⟩
      · split at h
        · cases h; right; exact ⟨rfl, fun _ => by omega⟩
        · split at h
          · cases h; left; exact ⟨rfl, fun _ => by omega⟩
          · cases h; right; exact ⟨rfl, fun _ => by omega⟩
    · simp only [h1, h2, if_true, if_false] at h
      cases h; left; exact ⟨rfl, fun h => absurd h h2⟩
  · by_cases h2 : key 10 (q + 1) (lastExp k n) = k
    · simp only [h1, h2, if_true, if_false] at h
      cases h; right; exact ⟨rfl, fun h => absurd h h1⟩
    · simp [h1, h2] at h

/-- the number meant by digits and exponent -/
theorem dec_pos (m : ℕ) (e : ℤ) : dec false m e = (m : ℚ) * 10 ^ e := by simp [dec]

theorem key_le_dec {m m' : ℕ} {e e' : ℤ} (h : dec false m e ≤ dec false m' e') : key 10 m e ≤ key 10 m' e' := by
  refine key_mono (by decide) (by decide) ?_
  unfold LeQ
  rw [dec_scaled, dec_scaled] at h
  have p1 : (0 : ℚ) < (scaled 10 m e).2 := by exact_mod_cast scaled_pos (by decide) m e
  have p2 : (0 : ℚ) < (scaled 10 m' e').2 := by exact_mod_cast scaled_pos (by decide) m' e'
  simp only [Bool.false_eq_true, if_false] at h
  rw [div_le_div_iff₀ p1 p2] at h
  exact_mod_cast h

/-- the magnitude as a number -/
def magQ (k : ℕ) : ℚ := (magVal k : ℚ) / (unit : ℕ)

theorem magQ_units (k n : ℕ) : magQ k * (inUnits k n).2 = (inUnits k n).1 * 10 ^ lastExp k n := by
  have g := scaled_grid k n 1
  have h := dec_scaled false 1 (lastExp k n)
  simp only [Bool.false_eq_true, if_false, dec_pos, Nat.cast_one, one_mul] at h
  have p : (0 : ℚ) < (scaled 10 1 (lastExp k n)).2 := by exact_mod_cast scaled_pos (by decide) 1 (lastExp k n)
  have u : (0 : ℚ) < (unit : ℕ) := by exact_mod_cast unit_pos
  have g1 : ((scaled 10 1 (lastExp k n)).1 : ℚ) * (unit : ℕ) = (inUnits k n).2 := by exact_mod_cast (by simpa using g.1)
  have g2 : (magVal k : ℚ) * (scaled 10 1 (lastExp k n)).2 = (inUnits k n).1 := by exact_mod_cast g.2
  rw [h, ← g1, ← g2]
  unfold magQ
  field_simp

/-- no number of at most `n` digits lies between the neighbours on the grid -/
theorem grid_gap {k n m : ℕ} (hk : 0 < k) (hn : 0 < n) (hm : m < 10 ^ n) (e : ℤ) :
    dec false m e ≤ dec false ((inUnits k n).1 / (inUnits k n).2) (lastExp k n) ∨ dec false ((inUnits k n).1 / (inUnits k n).2 + 1) (lastExp k n) ≤ dec false m e := by
  have hd := inUnits_pos k n
  have hq : 10 ^ (n - 1) ≤ (inUnits k n).1 / (inUnits k n).2 := (Nat.le_div_iff_mul_le hd).2 (inUnits_bounds hk hn).1
  generalize (inUnits k n).1 / (inUnits k n).2 = q at *
  generalize lastExp k n = L at *
  simp only [dec_pos]
  rcases le_or_gt L e with h | h
  · obtain ⟨j, rfl⟩ : ∃ j : ℕ, e = L + j := ⟨(e - L).toNat, by omega⟩
    have hp : (0 : ℚ) < 10 ^ L := zpow_pos (by norm_num) _
    have e1 : (m : ℚ) * 10 ^ (L + (j : ℤ)) = ((m * 10 ^ j : ℕ) : ℚ) * 10 ^ L := by
      rw [zpow_add₀ (by norm_num)]; push_cast; rw [zpow_natCast]; ring
    rw [e1]
    rcases Nat.lt_or_ge q (m * 10 ^ j) with h1 | h1
    · right
      exact mul_le_mul_of_nonneg_right (by exact_mod_cast h1) hp.le
    · left
      exact mul_le_mul_of_nonneg_right (by exact_mod_cast h1) hp.le
  · left
    obtain ⟨j, hj, rfl⟩ : ∃ j : ℕ, 0 < j ∧ L = e + j := ⟨(L - e).toNat, by omega, by omega⟩
    have hp : (0 : ℚ) < 10 ^ e := zpow_pos (by norm_num) _
    have e1 : (q : ℚ) * 10 ^ (e + (j : ℤ)) = ((q * 10 ^ j : ℕ) : ℚ) * 10 ^ e := by
      rw [zpow_add₀ (by norm_num)]; push_cast; rw [zpow_natCast]; ring
    rw [e1]
    refine mul_le_mul_of_nonneg_right ?_ hp.le
    have : m ≤ q * 10 ^ j := by
      have h1 : 10 ^ n ≤ 10 ^ (n - 1) * 10 ^ j := by
        rw [← pow_add]; exact Nat.pow_le_pow_right (by decide) (by omega)
      have h2 := Nat.mul_le_mul_right (10 ^ j) hq
      omega
    exact_mod_cast this

theorem shortest_closest {k : ℕ} (hk : 0 < k) (hi : k < infKey) {m : ℕ} {e : ℤ} (h : key 10 m e = k) (hl : (fmtNat m).length ≤ (fmtNat (shortest k).1).length) :
    |dec false (shortest k).1 (shortest k).2 - magQ k| ≤ |dec false m e - magQ k| := by
  obtain ⟨_, _, _, n, h1, h2, hm, hp, ⟨j, hj1, hj2⟩, _⟩ := shortest_spec hk hi
  have hlen := fmtNat_len_le h1 hm
  have hm' : m < 10 ^ n := lt_of_lt_of_le (fmtNat_len m).1 (Nat.pow_le_pow_right (by decide) (by omega))
  generalize search (pick k) 17 1 = r at *
  have er : dec false (shortest k).1 (shortest k).2 = dec false r.1 (lastExp k n) := by
    rw [← (pick_sound hp).2.1, dec_pos, dec_pos, hj1, hj2, zpow_add₀ (by norm_num), zpow_natCast]
    push_cast; ring
  rw [er]
  have hd := inUnits_pos k n
  obtain ⟨b1, b2⟩ := div_bounds (inUnits k n).1 (inUnits k n).2 hd
  have hu := magQ_units k n
  have hgap := grid_gap hk h1 hm' e
  have hc := pick_choice hp
  have hq0 := grid_le hi b1
  have hq1 := grid_ge hi (Nat.le_of_lt b2)
  have hdq : (0 : ℚ) < (inUnits k n).2 := by exact_mod_cast hd
  have hpw : (0 : ℚ) < 10 ^ lastExp k n := zpow_pos (by norm_num) _
  have b1' : (((inUnits k n).1 / (inUnits k n).2 : ℕ) : ℚ) * (inUnits k n).2 ≤ (inUnits k n).1 := by exact_mod_cast b1
  have b2' : ((inUnits k n).1 : ℚ) < ((((inUnits k n).1 / (inUnits k n).2 : ℕ) : ℚ) + 1) * (inUnits k n).2 := by exact_mod_cast b2
  have hc' : (r.1 = (inUnits k n).1 / (inUnits k n).2 ∧ (key 10 ((inUnits k n).1 / (inUnits k n).2 + 1) (lastExp k n) = k →
        2 * ((inUnits k n).1 : ℚ) ≤ (2 * (((inUnits k n).1 / (inUnits k n).2 : ℕ) : ℚ) + 1) * (inUnits k n).2)) ∨
      (r.1 = (inUnits k n).1 / (inUnits k n).2 + 1 ∧ (key 10 ((inUnits k n).1 / (inUnits k n).2) (lastExp k n) = k →
        (2 * (((inUnits k n).1 / (inUnits k n).2 : ℕ) : ℚ) + 1) * (inUnits k n).2 ≤ 2 * (inUnits k n).1)) := by
    rcases hc with ⟨a, b⟩ | ⟨a, b⟩
    · exact .inl ⟨a, fun h => by exact_mod_cast b h⟩
    · exact .inr ⟨a, fun h => by exact_mod_cast b h⟩
  clear hc
  have hk1 : dec false m e ≤ dec false ((inUnits k n).1 / (inUnits k n).2) (lastExp k n) → key 10 ((inUnits k n).1 / (inUnits k n).2) (lastExp k n) = k := by
    intro hle
    have := key_le_dec hle
    omega
  have hk2 : dec false ((inUnits k n).1 / (inUnits k n).2 + 1) (lastExp k n) ≤ dec false m e → key 10 ((inUnits k n).1 / (inUnits k n).2 + 1) (lastExp k n) = k := by
    intro hle
    have := key_le_dec hle
    omega
  generalize (inUnits k n).1 / (inUnits k n).2 = q at *
  generalize dec false m e = D at *
  simp only [dec_pos, Nat.cast_add, Nat.cast_one] at *
  generalize ((inUnits k n).1 : ℚ) = A at *
  generalize ((inUnits k n).2 : ℚ) = B at *
  generalize (10 : ℚ) ^ lastExp k n = U at *
  generalize magQ k = V at *
  -- V * B = A * U
  have v1 : (q : ℚ) * U ≤ V := by
    have : (q : ℚ) * U * B ≤ V * B := by rw [hu]; nlinarith
    exact le_of_mul_le_mul_right this hdq
  have v2 : V ≤ ((q : ℚ) + 1) * U := by
    have : V * B ≤ ((q : ℚ) + 1) * U * B := by rw [hu]; nlinarith
    exact le_of_mul_le_mul_right this hdq
  rcases hgap with hg | hg
  · have hd' : |D - V| = V - D := by rw [abs_sub_comm, abs_of_nonneg (by linarith)]
    rcases hc' with ⟨hr, _⟩ | ⟨hr, hh⟩
    · rw [hr, hd', abs_sub_comm, abs_of_nonneg (by linarith)]; linarith
    · have := hh (hk1 hg)
      have v3 : (2 * (q : ℚ) + 1) * U ≤ 2 * V := by
        have : (2 * (q : ℚ) + 1) * U * B ≤ 2 * V * B := by
          have e : 2 * V * B = 2 * A * U := by rw [mul_assoc, hu]; ring
          rw [e]; nlinarith
        exact le_of_mul_le_mul_right this hdq
      rw [hr, hd']
      push_cast
      rw [abs_of_nonneg (by linarith)]; linarith
  · have hd' : |D - V| = D - V := abs_of_nonneg (by linarith)
    rcases hc' with ⟨hr, hh⟩ | ⟨hr, _⟩
    · have := hh (hk2 hg)
      have v3 : 2 * V ≤ (2 * (q : ℚ) + 1) * U := by
        have : 2 * V * B ≤ (2 * (q : ℚ) + 1) * U * B := by
          have e : 2 * V * B = 2 * A * U := by rw [mul_assoc, hu]; ring
          rw [e]; nlinarith
        exact le_of_mul_le_mul_right this hdq
      rw [hr, hd', abs_sub_comm, abs_of_nonneg (by linarith)]; linarith
    · rw [hr, hd']
      push_cast
      rw [abs_of_nonneg (by linarith)]; linarith

theorem value_magQ (x : UInt64) : value x = if isNeg x then -magQ (f64Mag x) else magQ (f64Mag x) := by
  unfold magQ
  rw [unit_cast]
  unfold value val
  split <;> push_cast <;> ring

/-- **C81**: no decimal text for a float has fewer digits, leading zeros aside, than the one written with an exponent, and none with as few is nearer to
the float. -/
theorem C81_shortest (x : UInt64) (h : Ieee.Finite x) (h0 : f64Mag x ≠ 0) {s xs : Bytes} {neg : Bool} {m : ℕ} {e : ℤ} (hs : Decimal s xs neg m e)
    (hl : s.length ≤ 9000) (hx : parse64 s = some x) :
    ∃ xs' m' e', Decimal (fmtE x) xs' (isNeg x) m' e' ∧ m' % 10 ≠ 0 ∧ (fmtNat m').length ≤ (fmtNat m).length ∧
      ((fmtNat m).length = (fmtNat m').length → |dec (isNeg x) m' e' - value x| ≤ |dec neg m e - value x|) := by
  have hp : 0 < f64Mag x := by omega
  have hk : key 10 m e = f64Mag x ∧ neg = isNeg x := by
    rw [parse64_short hs hl] at hx
    split at hx
    · cases hx
    · cases hx
      have : key 10 m e ≤ infKey := by unfold key; exact rnd_le _ _
      have := infKey_lt
      rw [mag_mk, isNeg_mk]
      · exact ⟨rfl, rfl⟩
      all_goals omega
  obtain ⟨hk, rfl⟩ := hk
  obtain ⟨s1, s2⟩ := sign_of x
  have d := exp_decimal true _ s1 (shortest (f64Mag x)).1 (shortest (f64Mag x)).2
  rw [s2, ← point_ne hp, ← digits_ne hp] at d
  refine ⟨_, (shortest (f64Mag x)).1, (shortest (f64Mag x)).2, (?_ : Decimal (fmtE x) (expDigits true (point (f64Mag x) - 1).natAbs) _ _ _), (shortest_spec hp h).2.1, shortest_minimal hp h hk, fun hle => ?_⟩
  · unfold fmtE
    rw [signed_finite h]
    exact d
  · have := shortest_closest hp h hk (le_of_eq hle)
    rw [value_magQ]
    cases isNeg x
    · exact this
    · have en : ∀ m e, dec true m e = -dec false m e := by intro m e; simp [dec]
      rw [en, en]
      simp only [if_true]
      rw [show -dec false (shortest (f64Mag x)).1 (shortest (f64Mag x)).2 - -magQ (f64Mag x) = -(dec false (shortest (f64Mag x)).1 (shortest (f64Mag x)).2 - magQ (f64Mag x)) by ring,
        show -dec false m e - -magQ (f64Mag x) = -(dec false m e - magQ (f64Mag x)) by ring, abs_neg, abs_neg]
      exact this

theorem fmtNat_first {m : ℕ} (h : 0 < m) : ∃ c t, fmtNat m = c :: t ∧ c ≠ 48 := by
  have hi := fmtNat_intPart m
  have hn := natOf_fmtNat m
  generalize fmtNat m = ds at *
  cases hi with
  | zero => have : natOf [48] = 0 := rfl; omega
  | nonzero c t _ h1 _ => exact ⟨c, t, rfl, h1⟩

/-- **C81**: the form of the text with an exponent: one digit, not zero, the others after a point, no zero at the end; exponent with sign and two digits at
least, no zero before more.  The general format writes it for exponents below -4 and from 6 on. -/
theorem C81_form (x : UInt64) (h : Ieee.Finite x) (h0 : f64Mag x ≠ 0) : ∃ (d sg : UInt8) (t ds : Bytes), d ≠ 48 ∧ Digits (d :: t) ∧ (d :: t).getLast? ≠ some 48 ∧ (sg = 43 ∨ sg = 45) ∧ Digits ds ∧
    2 ≤ ds.length ∧ (2 < ds.length → ds.head? ≠ some 48) ∧ fmtE x = (if isNeg x then [45] else []) ++ (d :: (if t = [] then [] else 46 :: t) ++ 101 :: sg :: ds) ∧
    fmtG x = if (if sg = 45 then -(natOf ds : ℤ) else natOf ds) < -4 ∨ 6 ≤ (if sg = 45 then -(natOf ds : ℤ) else natOf ds) then fmtE x else fmtF x := by
  have hp : 0 < f64Mag x := by omega
  have hm := (shortest_pos hp h)
  have h10 := (shortest_spec hp h).2.1
  obtain ⟨d, t, e, hd⟩ := fmtNat_first hm
  have hdig : Digits (d :: t) := e ▸ fmtNat_dig _
  have hlast : (d :: t).getLast? ≠ some 48 := by
    rw [← e]
    intro hl
    obtain ⟨i, hi⟩ : ∃ i, fmtNat (shortest (f64Mag x)).1 = i ++ [48] := by
      obtain ⟨i, hi⟩ := List.getLast?_eq_some_iff.1 hl
      exact ⟨i, hi⟩
    have hn := natOf_fmtNat (shortest (f64Mag x)).1
    rw [hi] at hn
    have : natOf (i ++ [48]) = natOf i * 10 := by simp [natOf]
    omega
  have hxp : ∀ n, Digits (expDigits true n) ∧ 2 ≤ (expDigits true n).length ∧ (2 < (expDigits true n).length → (expDigits true n).head? ≠ some 48) := by
    intro n
    refine ⟨(natOf_expDigits true n).2.1, ?_⟩
    unfold expDigits
    by_cases hn : n < 10
    · have h1 := fmtNat_len_le (n := n) (l := 1) (by decide) (by omega)
      have h2 := fmtNat_len_pos n
      simp only [hn, and_self, if_true, List.length_cons]
      omega
    · simp only [hn, and_false, if_false]
      obtain ⟨c, u, hc, h48⟩ := fmtNat_first (m := n) (by omega)
      refine ⟨?_, fun _ => by rw [hc]; simpa using h48⟩
      rcases Nat.lt_or_ge (fmtNat n).length 2 with hlt | hge
      · have h1 := (fmtNat_len n).1
        have h2 : 10 ^ (fmtNat n).length ≤ 10 ^ 1 := Nat.pow_le_pow_right (by decide) (by omega)
        omega
      · exact hge
  obtain ⟨x1, x2, x3⟩ := hxp (point (f64Mag x) - 1).natAbs
  refine ⟨d, if point (f64Mag x) - 1 < 0 then 45 else 43, t, expDigits true (point (f64Mag x) - 1).natAbs, hd, hdig, hlast, ?_, x1, x2, x3, ?_, ?_⟩
  · split <;> simp
  · unfold fmtE
    rw [signed_finite h]
    have hdg : digits (f64Mag x) = d :: t := by rw [digits_ne hp, e]
    rw [hdg]
    unfold expText
    simp only [reduceCtorEq, if_false]
    cases t <;> simp
  · rw [(natOf_expDigits true _).1]
    have he : (if (if point (f64Mag x) - 1 < 0 then 45 else 43 : UInt8) = 45 then -(((point (f64Mag x) - 1).natAbs : ℕ) : ℤ) else ((point (f64Mag x) - 1).natAbs : ℕ)) = point (f64Mag x) - 1 := by
      by_cases hneg : point (f64Mag x) - 1 < 0
      · simp only [hneg, if_true]; omega
      · simp only [hneg, if_false, show ¬ ((43 : UInt8) = 45) by decide]; omega
    rw [he]
    unfold fmtG fmtE fmtF
    rw [signed_finite h, signed_finite h, signed_finite h]
    by_cases hc : point (f64Mag x) - 1 < -4 ∨ 6 ≤ point (f64Mag x) - 1
    · rw [if_pos hc, if_pos hc]
    · rw [if_neg hc, if_neg hc]

example : parse64 b!"0.1" = some 0x3FB999999999999A ∧ parse64 b!"+.5e1" = some 0x4014000000000000 ∧ parse64 b!"-0" = some 0x8000000000000000 ∧ parse64 b!"1e23" = some 0x44B52D02C7E14AF6 ∧
    parse64 b!"4.9e-324" = some 1 ∧ parse64 b!"1.7976931348623158e308" = some 0x7FEFFFFFFFFFFFFF ∧ parse64 b!"1e309" = none ∧ parse64 b!"1e" = none ∧ parse64 b!"." = none ∧
    parse64 b!"9007199254740993" = some 0x4340000000000000 ∧ parse64 b!"1e-999" = some 0 := by decide +kernel
example : parse64 b!"1_000.5" = some 0x408F440000000000 ∧ parse64 b!"1__0" = none ∧ parse64 b!"0x1p-2" = some 0x3FD0000000000000 ∧ parse64 b!"0x1" = none ∧ parse64 b!"-iNF" = some 0xFFF0000000000000 ∧
    parse64 b!"nan" = some nan ∧ parse64 b!"+nan" = none := by decide +kernel
example : fmtG 0x3FB999999999999A = b!"0.1" ∧ fmtJSON 0x3E7AD7F29ABCAF48 = b!"1e-7" ∧ fmtJSON 0x8000000000000000 = b!"-0" := by decide +kernel
example : Decimal b!"9007199254740993" [] false 9007199254740993 0 :=
  Decimal.mk [] b!"9007199254740993" [] [] [] [] 0 (.inl rfl) (by unfold Digits; decide) .none (by decide) .none
example : Ieee.Finite 0x3FD3333333333334 ∧ value 0x3FF8000000000000 = 3 / 2 := by
  refine ⟨by unfold Ieee.Finite; decide +kernel, ?_⟩
  have : val 0x3FF8000000000000 = 3 * 2 ^ 1073 := by decide +kernel
  unfold value
  rw [this, show (2 : ℚ) ^ 1074 = 2 ^ 1073 * 2 from pow_succ 2 1073]
  have h : (0 : ℚ) < 2 ^ 1073 := by positivity
  push_cast
  generalize (2 : ℚ) ^ 1073 = U at *
  field_simp

end Verif.FloatText
