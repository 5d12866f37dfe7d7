import Verif.Go.Ieee
/-
Rounding: the numbers of the magnitudes, thresholds, exactness, monotonicity.
-/
set_option autoImplicit false
namespace Verif.Ieee

theorem magVal_small {k : Nat} (h : k ≤ 2 ^ 53) : magVal k = k := by
  unfold magVal
  split
  · rfl
  · have : k = 2 ^ 53 := by omega
    subst this
    decide

/-- normal magnitudes: mantissa and exponent -/
theorem magVal_normal (t m : Nat) (h1 : 2 ^ 52 ≤ m) (h2 : m < 2 ^ 53) : magVal (t * 2 ^ 52 + m) = m * 2 ^ t := by
  have hq : (t * 2 ^ 52 + m) / 2 ^ 52 = t + 1 := by omega
  have hr : (t * 2 ^ 52 + m) % 2 ^ 52 = m - 2 ^ 52 := by omega
  unfold magVal
  split
  · have : t = 0 := by omega
    subst this
    simp
  · have e : 2 ^ 52 + (m - 2 ^ 52) = m := by omega
    rw [hq, hr, Nat.add_sub_cancel, e]

theorem magVal_carry (t : Nat) : magVal (t * 2 ^ 52 + 2 ^ 53) = 2 ^ 53 * 2 ^ t := by
  have e : t * 2 ^ 52 + 2 ^ 53 = (t + 1) * 2 ^ 52 + 2 ^ 52 := by omega
  have e2 : (2 : Nat) ^ (t + 1) = 2 * 2 ^ t := by rw [Nat.pow_succ, Nat.mul_comm]
  have e3 : (2 : Nat) ^ 53 = 2 ^ 52 * 2 := by decide
  rw [e, magVal_normal (t + 1) (2 ^ 52) (Nat.le_refl _) (by decide), e2, e3, Nat.mul_assoc]

/-- every number but the least is that of a mantissa and an exponent -/
theorem key_cases (k : Nat) : k < 2 ^ 52 ∨ ∃ t m, 2 ^ 52 ≤ m ∧ m < 2 ^ 53 ∧ k = t * 2 ^ 52 + m := by
  by_cases h : k < 2 ^ 52
  · exact .inl h
  · refine .inr ⟨k / 2 ^ 52 - 1, 2 ^ 52 + k % 2 ^ 52, by omega, by omega, ?_⟩
    omega

theorem magVal_succ (k : Nat) : magVal k < magVal (k + 1) := by
  rcases key_cases k with h | ⟨t, m, h1, h2, rfl⟩
  · rw [magVal_small (by omega), magVal_small (by omega)]; omega
  · rw [magVal_normal t m h1 h2]
    have hp : 0 < 2 ^ t := Nat.two_pow_pos t
    by_cases h : m + 1 < 2 ^ 53
    · rw [Nat.add_assoc, magVal_normal t (m + 1) (by omega) h, Nat.add_mul]
      omega
    · have e : t * 2 ^ 52 + m + 1 = t * 2 ^ 52 + 2 ^ 53 := by omega
      rw [e, magVal_carry]
      exact Nat.mul_lt_mul_of_pos_right h2 hp

theorem magVal_step (t m : Nat) (h1 : 2 ^ 52 ≤ m) (h2 : m < 2 ^ 53) : magVal (t * 2 ^ 52 + m + 1) = (m + 1) * 2 ^ t := by
  by_cases h : m + 1 < 2 ^ 53
  · rw [Nat.add_assoc, magVal_normal t (m + 1) (by omega) h]
  · have e : t * 2 ^ 52 + m + 1 = t * 2 ^ 52 + 2 ^ 53 := by omega
    rw [e, magVal_carry]
    congr 1
    omega

theorem magVal_lt {a b : Nat} (h : a < b) : magVal a < magVal b := by
  induction b with
  | zero => omega
  | succ b ih =>
    by_cases e : a = b
    · subst e; exact magVal_succ a
    · exact Nat.lt_trans (ih (by omega)) (magVal_succ b)

theorem magVal_le {a b : Nat} (h : a ≤ b) : magVal a ≤ magVal b := by
  rcases Nat.lt_or_eq_of_le h with h | rfl
  · exact Nat.le_of_lt (magVal_lt h)
  · exact Nat.le_refl _

theorem magVal_lt_iff {a b : Nat} : magVal a < magVal b ↔ a < b := by
  constructor
  · intro h
    rcases Nat.lt_or_ge a b with h' | h'
    · exact h'
    · have := magVal_le h'; omega
  · exact magVal_lt

theorem magVal_inj {a b : Nat} (h : magVal a = magVal b) : a = b := by
  rcases Nat.lt_trichotomy a b with h' | h' | h'
  · have := magVal_lt h'; omega
  · exact h'
  · have := magVal_lt h'; omega

theorem floorKey_spec (q : Nat) : magVal (floorKey q) ≤ q ∧ q < magVal (floorKey q + 1) := by
  unfold floorKey
  split
  · rename_i h
    rw [magVal_small (by omega), magVal_small (by omega)]
    omega
  · rename_i h
    have hq : q ≠ 0 := by omega
    have hl : 53 ≤ Nat.log2 q := (Nat.le_log2 hq).mpr (by omega)
    have hlo : 2 ^ Nat.log2 q ≤ q := Nat.log2_self_le hq
    have hhi : q < 2 ^ (Nat.log2 q + 1) := Nat.lt_log2_self
    generalize Nat.log2 q = L at *
    obtain ⟨t, rfl⟩ : ∃ t, L = t + 52 := ⟨L - 52, by omega⟩
    rw [Nat.add_sub_cancel]
    have hp : 0 < 2 ^ t := Nat.two_pow_pos t
    have e1 : (2 : Nat) ^ (t + 52) = 2 ^ 52 * 2 ^ t := by rw [Nat.pow_add, Nat.mul_comm]
    have e2 : (2 : Nat) ^ (t + 52 + 1) = 2 ^ 53 * 2 ^ t := by rw [Nat.add_assoc, Nat.pow_add, Nat.mul_comm]
    rw [e1] at hlo
    rw [e2] at hhi
    have h1 : 2 ^ 52 ≤ q / 2 ^ t := (Nat.le_div_iff_mul_le hp).mpr hlo
    have h2 : q / 2 ^ t < 2 ^ 53 := (Nat.div_lt_iff_lt_mul hp).mpr hhi
    rw [magVal_normal t _ h1 h2, magVal_step t _ h1 h2]
    refine ⟨Nat.div_mul_le_self q _, ?_⟩
    exact Nat.lt_succ_mul_div_of_pos' q hp
where
  Nat.lt_succ_mul_div_of_pos' (q : Nat) {p : Nat} (hp : 0 < p) : q < (q / p + 1) * p := by
    have := Nat.div_add_mod q p
    have := Nat.mod_lt q hp
    rw [Nat.add_mul, Nat.mul_comm]
    omega

/-- the double of the midpoint between a magnitude and the next -/
def mid (k : Nat) : Nat := magVal k + magVal (k + 1)

/-- rounding without overflow -/
def near (num den : Nat) : Nat :=
  let k := floorKey (num / den)
  if 2 * num < mid k * den then k else if mid k * den < 2 * num then k + 1 else if k % 2 = 0 then k else k + 1

theorem rnd_near (num den : Nat) : rnd num den = min infKey (near num den) := rfl

/-- rounding reaches a number above `k` from the midpoint on, the midpoint itself going to the even number -/
theorem near_above (num den : Nat) (hd : 0 < den) (k : Nat) :
    k + 1 ≤ near num den ↔ mid k * den < 2 * num ∨ (mid k * den = 2 * num ∧ k % 2 = 1) := by
  obtain ⟨h1, h2⟩ := floorKey_spec (num / den)
  unfold near
  generalize floorKey (num / den) = j at *
  have h1' : magVal j * den ≤ num := (Nat.le_div_iff_mul_le hd).mp h1
  have h2' : num < magVal (j + 1) * den := (Nat.div_lt_iff_lt_mul hd).mp h2
  simp only
  rcases Nat.lt_trichotomy k j with h | rfl | h
  · have a := magVal_lt h
    have b := magVal_le (show k + 1 ≤ j by omega)
    have c : mid k < 2 * magVal j := by unfold mid; omega
    have d : mid k * den < 2 * magVal j * den := Nat.mul_lt_mul_of_pos_right c hd
    have e : 2 * magVal j * den = 2 * (magVal j * den) := Nat.mul_assoc _ _ _
    constructor
    · intro _; left; omega
    · intro _; split
      · omega
      · split
        · omega
        · split <;> omega
  · split
    · omega
    · split
      · omega
      · split <;> omega
  · have a := magVal_le (show j + 1 ≤ k by omega)
    have b := magVal_lt (show j + 1 < k + 1 by omega)
    have c : 2 * magVal (j + 1) ≤ mid k := by unfold mid; omega
    have d : 2 * magVal (j + 1) * den ≤ mid k * den := Nat.mul_le_mul_right _ c
    have e : 2 * magVal (j + 1) * den = 2 * (magVal (j + 1) * den) := Nat.mul_assoc _ _ _
    constructor
    · intro h'
      split at h'
      · omega
      · split at h'
        · omega
        · split at h' <;> omega
    · omega

theorem near_mono {n d n' d' : Nat} (hd : 0 < d) (hd' : 0 < d') (h : n * d' ≤ n' * d) : near n d ≤ near n' d' := by
  rcases Nat.eq_zero_or_pos (near n d) with h0 | h0
  · omega
  · obtain ⟨k, hk⟩ : ∃ k, near n d = k + 1 := ⟨near n d - 1, by omega⟩
    rw [hk]
    have hk' := (near_above n d hd k).mp (by omega)
    rw [near_above n' d' hd' k]
    have e1 : mid k * d * d' = mid k * d' * d := Nat.mul_right_comm _ _ _
    have h2 : 2 * n * d' ≤ 2 * n' * d := by rw [Nat.mul_assoc, Nat.mul_assoc]; omega
    rcases hk' with hk' | ⟨hk', hp⟩
    · left
      have : mid k * d * d' < 2 * n * d' := Nat.mul_lt_mul_of_pos_right hk' hd'
      rw [e1] at this
      exact Nat.lt_of_mul_lt_mul_right (Nat.lt_of_lt_of_le this h2)
    · have : mid k * d' * d ≤ 2 * n' * d := by rw [← e1, hk']; exact h2
      have := Nat.le_of_mul_le_mul_right this hd
      rcases Nat.lt_or_eq_of_le this with h | h
      · exact .inl h
      · exact .inr ⟨h, hp⟩

theorem rnd_mono {n d n' d' : Nat} (hd : 0 < d) (hd' : 0 < d') (h : n * d' ≤ n' * d) : rnd n d ≤ rnd n' d' := by
  rw [rnd_near, rnd_near]
  have := near_mono hd hd' h
  omega

theorem near_exact (k d : Nat) (hd : 0 < d) : near (magVal k * d) d = k := by
  have hlt : ∀ j, j + 1 ≤ near (magVal k * d) d ↔ j + 1 ≤ k := by
    intro j
    rw [near_above _ _ hd, ← Nat.mul_assoc]
    constructor
    · intro h
      have : mid j * d ≤ 2 * magVal k * d := by omega
      have := Nat.le_of_mul_le_mul_right this hd
      unfold mid at this
      have h1 := magVal_succ j
      have : magVal j < magVal k := by omega
      exact magVal_lt_iff.mp this
    · intro h
      left
      have h1 := magVal_succ j
      have h2 := magVal_le h
      have : mid j < 2 * magVal k := by unfold mid; omega
      exact Nat.mul_lt_mul_of_pos_right this hd
  have a := hlt k
  have b : k ≤ near (magVal k * d) d := by
    cases k with
    | zero => omega
    | succ k => exact (hlt k).mpr (Nat.le_refl _)
  omega

theorem rnd_exact (k d : Nat) (hd : 0 < d) (hk : k ≤ infKey) : rnd (magVal k * d) d = k := by
  rw [rnd_near, near_exact k d hd]
  omega

theorem rnd_le (n d : Nat) : rnd n d ≤ infKey := by rw [rnd_near]; omega

/-! ### Bits -/

theorem infKey_lt : infKey < 2 ^ 63 := by decide

theorem mk_toNat (s : Bool) {k : Nat} (h : k < 2 ^ 63) : (mk s k).toNat = k + if s then 2 ^ 63 else 0 := by
  unfold mk
  rw [UInt64.toNat_ofNat']
  apply Nat.mod_eq_of_lt
  cases s <;> simp <;> omega

theorem mag_mk (s : Bool) {k : Nat} (h : k < 2 ^ 63) : f64Mag (mk s k) = k := by
  unfold f64Mag
  rw [mk_toNat s h]
  cases s <;> simp <;> omega

theorem isNeg_mk (s : Bool) {k : Nat} (h : k < 2 ^ 63) : isNeg (mk s k) = s := by
  unfold isNeg
  rw [mk_toNat s h]
  cases s <;> simp <;> omega

theorem mk_eta (x : UInt64) : mk (isNeg x) (f64Mag x) = x := by
  have h := x.toNat_lt
  apply UInt64.toNat_inj.mp
  rw [mk_toNat _ (by unfold f64Mag; omega)]
  unfold isNeg f64Mag
  by_cases hx : 2 ^ 63 ≤ x.toNat
  · simp [hx]; omega
  · simp [hx]; omega

theorem mag_lt (x : UInt64) : f64Mag x < 2 ^ 63 := by unfold f64Mag; omega

theorem val_mk (s : Bool) {k : Nat} (h : k < 2 ^ 63) : val (mk s k) = if s then -(magVal k : Int) else magVal k := by
  unfold val
  rw [isNeg_mk s h, mag_mk s h]

/-- a finite float -/
def Finite (x : UInt64) : Prop := f64Mag x < infKey

theorem Finite.notNaN {x : UInt64} (h : Finite x) : f64NaN x = false := by
  unfold f64NaN Finite infKey at *
  simp; omega

theorem Finite.notInf {x : UInt64} (h : Finite x) : isInf x = false := by
  unfold isInf Finite at *
  simp; omega

theorem finite_mk (s : Bool) {k : Nat} (h : k < infKey) : Finite (mk s k) := by
  unfold Finite
  rw [mag_mk s (by have := infKey_lt; omega)]
  exact h

/-! ### Order -/

theorem key_val (x y : UInt64) : f64Key x < f64Key y ↔ val x < val y := by
  have hx : f64Key x = if isNeg x then -(f64Mag x : Int) else f64Mag x := by
    unfold f64Key isNeg
    by_cases h : x.toNat < 2 ^ 63
    · rw [if_pos h, if_neg (by simp; omega)]
    · rw [if_neg h, if_pos (by simp; omega)]
  have hy : f64Key y = if isNeg y then -(f64Mag y : Int) else f64Mag y := by
    unfold f64Key isNeg
    by_cases h : y.toNat < 2 ^ 63
    · rw [if_pos h, if_neg (by simp; omega)]
    · rw [if_neg h, if_pos (by simp; omega)]
  rw [hx, hy]
  unfold val
  generalize f64Mag x = a
  generalize f64Mag y = b
  have h1 := @magVal_lt_iff a b
  have h2 := @magVal_lt_iff b a
  have h3 : magVal a = 0 ↔ a = 0 := ⟨fun h => magVal_inj (h.trans (by decide : (0 : Nat) = magVal 0)), fun h => by rw [h]; decide⟩
  have h4 : magVal b = 0 ↔ b = 0 := ⟨fun h => magVal_inj (h.trans (by decide : (0 : Nat) = magVal 0)), fun h => by rw [h]; decide⟩
  cases isNeg x <;> cases isNeg y <;> simp <;> omega

theorem lt_val {x y : UInt64} (hx : f64NaN x = false) (hy : f64NaN y = false) : lt x y = true ↔ val x < val y := by
  unfold lt f64Gt
  simp [hx, hy, key_val]

theorem le_val {x y : UInt64} (hx : f64NaN x = false) (hy : f64NaN y = false) : le x y = true ↔ val x ≤ val y := by
  have h1 := key_val x y
  have h2 := key_val y x
  unfold le f64Gt f64Eq
  simp only [hx, hy, Bool.not_false, Bool.true_and, Bool.or_eq_true, decide_eq_true_eq]
  omega

/-! ### Whole numbers -/

/-- whole multiples of powers of two with few digits are magnitudes -/
theorem magVal_shift (n s : Nat) (h : n ≤ 2 ^ 53) : ∃ k, magVal k = n * 2 ^ s ∧ k ≤ s * 2 ^ 52 + 2 ^ 53 := by
  induction s generalizing n with
  | zero => exact ⟨n, by rw [magVal_small h]; simp, by omega⟩
  | succ s ih =>
    by_cases h1 : n ≤ 2 ^ 52
    · obtain ⟨k, hk, hl⟩ := ih (2 * n) (by omega)
      refine ⟨k, ?_, by rw [Nat.add_mul]; exact Nat.le_trans hl (Nat.add_le_add_right (Nat.le_add_right _ _) _)⟩
      rw [hk, Nat.pow_succ]
      generalize 2 ^ s = x
      rw [Nat.mul_comm 2 n, Nat.mul_assoc, Nat.mul_comm 2 x]
    · by_cases h2 : n = 2 ^ 53
      · subst h2
        exact ⟨(s + 1) * 2 ^ 52 + 2 ^ 53, magVal_carry _, Nat.le_refl _⟩
      · exact ⟨(s + 1) * 2 ^ 52 + n, magVal_normal _ _ (by omega) (by omega), by omega⟩

/-- the number of a whole number up to 2^53 -/
theorem rnd_nat (n : Nat) (h : n ≤ 2 ^ 53) : rnd (n * unit) 1 < infKey ∧ magVal (rnd (n * unit) 1) = n * unit := by
  obtain ⟨k, hk, hl⟩ := magVal_shift n 1074 h
  have hi : k < infKey := by
    have : (1074 * 2 ^ 52 + 2 ^ 53 : Nat) < infKey := by decide
    omega
  have e : n * unit = magVal k * 1 := by unfold unit; rw [hk, Nat.mul_one]
  rw [e, rnd_exact k 1 (by decide) (by omega), Nat.mul_one]
  exact ⟨hi, rfl⟩

theorem finite_ofInt {i : Int} (h : i.natAbs ≤ 2 ^ 53) : Finite (ofInt i) := finite_mk _ (rnd_nat _ h).1

theorem val_ofInt {i : Int} (h : i.natAbs ≤ 2 ^ 53) : val (ofInt i) = i * unit := by
  obtain ⟨h1, h2⟩ := rnd_nat i.natAbs h
  unfold ofInt
  rw [val_mk _ (by have := infKey_lt; omega), h2]
  by_cases hi : i < 0
  · simp only [hi, decide_true, if_true]
    rw [Int.natCast_mul]
    have : (i.natAbs : Int) = -i := by omega
    rw [this, Int.neg_mul, Int.neg_neg]
  · simp only [hi, decide_false, Bool.false_eq_true, if_false]
    rw [Int.natCast_mul]
    have : (i.natAbs : Int) = i := by omega
    rw [this]

theorem isNeg_ofInt {i : Int} (h : i.natAbs ≤ 2 ^ 53) : isNeg (ofInt i) = decide (i < 0) :=
  isNeg_mk _ (by have := (rnd_nat _ h).1; have := infKey_lt; omega)

theorem mag_ofInt {i : Int} (h : i.natAbs ≤ 2 ^ 53) : f64Mag (ofInt i) = rnd (i.natAbs * unit) 1 :=
  mag_mk _ (by have := (rnd_nat _ h).1; have := infKey_lt; omega)

theorem unit_pos : 0 < unit := by unfold unit; exact Nat.pow_pos (by decide)

/-- a value is that of at most one float, apart from the sign of zero -/
theorem val_inj {x y : UInt64} (h : val x = val y) (hn : val x ≠ 0 ∨ isNeg x = isNeg y) : x = y := by
  have hs : isNeg x = isNeg y := by
    rcases hn with hn | hn
    · unfold val at h hn
      cases hx : isNeg x <;> cases hy : isNeg y <;> simp [hx, hy] at h hn ⊢ <;> omega
    · exact hn
  have hm : magVal (f64Mag x) = magVal (f64Mag y) := by
    unfold val at h
    rw [hs] at h
    cases hy : isNeg y <;> simp [hy] at h <;> omega
  rw [← mk_eta x, ← mk_eta y, hs, magVal_inj hm]

/-- sums whose value is a float are exact -/
theorem add_exact {x y z : UInt64} (hx : Finite x) (hy : Finite y) (hz : Finite z) (h : val x + val y = val z) (hn : val z ≠ 0) : add x y = z := by
  unfold add
  simp only [hx.notNaN, hy.notNaN, hx.notInf, hy.notInf, Bool.or_self, Bool.false_eq_true, if_false]
  rw [h, if_neg hn]
  have e : (val z).natAbs = magVal (f64Mag z) * 1 := by
    unfold val
    cases isNeg z <;> simp
  rw [e, rnd_exact _ 1 (by decide) (Nat.le_of_lt hz)]
  have : decide (val z < 0) = isNeg z := by
    unfold val at hn ⊢
    cases hs : isNeg z <;> simp [hs] at hn ⊢ <;> omega
  rw [this, mk_eta]

/-- **whole numbers up to 2^53 are added exactly** -/
theorem add_ofInt {a b : Int} (ha : a.natAbs ≤ 2 ^ 53) (hb : b.natAbs ≤ 2 ^ 53) (hc : (a + b).natAbs ≤ 2 ^ 53) : add (ofInt a) (ofInt b) = ofInt (a + b) := by
  by_cases h : a + b = 0
  · unfold add
    have fa := finite_ofInt ha
    have fb := finite_ofInt hb
    simp only [fa.notNaN, fb.notNaN, fa.notInf, fb.notInf, Bool.or_self, Bool.false_eq_true, if_false]
    rw [val_ofInt ha, val_ofInt hb, ← Int.add_mul, h, isNeg_ofInt ha, isNeg_ofInt hb]
    have : (decide (a < 0) && decide (b < 0)) = false := by simp; omega
    rw [this]
    simp only [Int.zero_mul, if_true]
    decide +kernel
  · refine add_exact (finite_ofInt ha) (finite_ofInt hb) (finite_ofInt hc) ?_ ?_
    · rw [val_ofInt ha, val_ofInt hb, val_ofInt hc, Int.add_mul]
    · rw [val_ofInt hc]
      have := unit_pos
      exact Int.mul_ne_zero h (by omega)

theorem neg_ofInt {a : Int} (ha : a.natAbs ≤ 2 ^ 53) (h0 : a ≠ 0) : neg (ofInt a) = ofInt (-a) := by
  unfold neg
  rw [isNeg_ofInt ha, mag_ofInt ha]
  unfold ofInt
  have : (!decide (a < 0)) = decide (-a < 0) := by
    by_cases h : a < 0
    · simp [h]; omega
    · simp [h]; omega
  rw [this, Int.natAbs_neg]

theorem abs_ofInt {a : Int} (ha : a.natAbs ≤ 2 ^ 53) : abs (ofInt a) = ofInt a.natAbs := by
  unfold abs
  rw [mag_ofInt ha]
  unfold ofInt
  have : ¬ ((a.natAbs : Int) < 0) := by omega
  simp only [this, decide_false, Int.natAbs_natCast]

theorem neg_neg (x : UInt64) : neg (neg x) = x := by
  unfold neg
  rw [isNeg_mk _ (mag_lt x), mag_mk _ (mag_lt x), Bool.not_not, mk_eta]

/-- rounding goes to a nearest magnitude -/
theorem near_whole_nearest (n k : Nat) : ((magVal (near n 1) : Int) - n).natAbs ≤ ((magVal k : Int) - n).natAbs := by
  have up : ¬ (near n 1 + 1 ≤ near n 1) := by omega
  rw [near_above n 1 (by decide)] at up
  have hup : 2 * n ≤ magVal (near n 1) + magVal (near n 1 + 1) := by unfold mid at up; omega
  rcases Nat.lt_trichotomy k (near n 1) with h | h | h
  · have down : (near n 1 - 1) + 1 ≤ near n 1 := by omega
    rw [near_above n 1 (by decide)] at down
    have hd : magVal (near n 1 - 1) + magVal (near n 1) ≤ 2 * n := by
      unfold mid at down
      rw [show near n 1 - 1 + 1 = near n 1 by omega] at down
      omega
    have := magVal_le (show k ≤ near n 1 - 1 by omega)
    have := magVal_lt h
    omega
  · rw [h]; exact Nat.le_refl _
  · have := magVal_le (show near n 1 + 1 ≤ k by omega)
    have := magVal_lt h
    omega

set_option exponentiation.threshold 1200 in
theorem near_int (n : Nat) (h : n ≤ 2 ^ 63) : near (n * unit) 1 < infKey := by
  obtain ⟨k, hk, hb⟩ := magVal_shift 1 1137 (by decide)
  have e : 2 ^ 63 * unit = magVal k * 1 := by
    rw [hk, Nat.one_mul, Nat.mul_one, unit, ← Nat.pow_add]
  have h1 : near (n * unit) 1 ≤ near (2 ^ 63 * unit) 1 := near_mono (by decide) (by decide) (by
    rw [Nat.mul_one, Nat.mul_one]; exact Nat.mul_le_mul_right _ h)
  rw [e, near_exact k 1 (by decide)] at h1
  have : infKey = 2047 * 2 ^ 52 := by decide
  omega

/-- an integer of 64 bits becomes a finite float that no other is nearer to -/
theorem ofInt_nearest (i : Int) (h : i.natAbs ≤ 2 ^ 63) :
    Finite (ofInt i) ∧ ∀ y, (val (ofInt i) - i * unit).natAbs ≤ (val y - i * unit).natAbs := by
  have hk := near_int i.natAbs h
  have hr : rnd (i.natAbs * unit) 1 = near (i.natAbs * unit) 1 := by rw [rnd_near]; omega
  refine ⟨?_, fun y => ?_⟩
  · unfold ofInt; rw [hr]; exact finite_mk _ hk
  · unfold ofInt
    rw [hr, val_mk _ (by have := infKey_lt; omega)]
    have hn := near_whole_nearest (i.natAbs * unit)
    have h0 := hn 0
    have h1 := hn (f64Mag y)
    have e0 : magVal 0 = 0 := by decide
    rw [e0] at h0
    have ei : ((i.natAbs * unit : Nat) : Int) = if i < 0 then -(i * unit) else i * unit := by
      rw [Int.natCast_mul]
      split
      · rw [show (i.natAbs : Int) = -i by omega, Int.neg_mul]
      · rw [show (i.natAbs : Int) = i by omega]
    have hpos : (0 : Int) ≤ ((i.natAbs * unit : Nat) : Int) := by omega
    rw [ei] at h0 h1 hpos
    unfold val
    generalize i * (unit : Int) = z at *
    generalize magVal (near (i.natAbs * unit) 1) = a at *
    generalize magVal (f64Mag y) = b at *
    by_cases hi : i < 0 <;> cases isNeg y <;> simp only [hi, decide_true, decide_false, if_true, if_false, Bool.false_eq_true] at * <;> omega
end Verif.Ieee
