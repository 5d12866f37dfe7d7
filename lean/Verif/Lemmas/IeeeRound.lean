import Verif.Lemmas.IeeeQuantile
import Verif.Lemmas.IeeeDiv
/-
The float64 arithmetic of Verif/Go/Ieee.lean is that of IEEE-754: every result is the float nearest to the exact one, the even one
of two, infinity counting as 2^1024; and the exceptional cases are the standard's.  Nothing here is about the code in /repo: it
checks the part of the model that stands for the machine.
-/
set_option autoImplicit false
namespace Verif.Ieee

/-- `z` is `num / den` (in units of 2^-1074) rounded to the nearest float, ties to even -/
def Rounds (z : UInt64) (num : Int) (den : Nat) : Prop :=
  f64NaN z = false ∧ ∀ w : UInt64, Finite w → (val z * den - num).natAbs ≤ (val w * den - num).natAbs ∧
    ((val z * den - num).natAbs = (val w * den - num).natAbs → val w = val z ∨ f64Mag z % 2 = 0)

attribute [local irreducible] near magVal unit infKey

theorem infKey_even : infKey % 2 = 0 := by unfold infKey; decide

theorem rnd_nearest (num den : Nat) (hd : 0 < den) (j : Nat) (hj : j < infKey) :
    ((magVal (rnd num den) : Int) * den - num).natAbs ≤ ((magVal j : Int) * den - num).natAbs ∧
      (((magVal (rnd num den) : Int) * den - num).natAbs = ((magVal j : Int) * den - num).natAbs → j = rnd num den ∨ rnd num den % 2 = 0) := by
  have e : ∀ k : Nat, ((magVal k : Int) * den - num) = ((magVal k * den : Nat) : Int) - num := fun k => by rw [Int.natCast_mul]
  have hlt : ∀ {a b : Nat}, a < b → magVal a * den < magVal b * den := fun h => Nat.mul_lt_mul_of_pos_right (magVal_lt h) hd
  have hle : ∀ {a b : Nat}, a ≤ b → magVal a * den ≤ magVal b * den := fun h => Nat.mul_le_mul_right _ (magVal_le h)
  have hmid : ∀ k, mid k * den = magVal k * den + magVal (k + 1) * den := fun k => Nat.add_mul _ _ _
  rw [rnd_near, e, e]
  generalize hr : near num den = r
  rcases Nat.lt_or_ge infKey r with hi | hi
  · rw [Nat.min_eq_left (by omega)]
    have h1 := (near_above num den hd infKey).mp (by omega)
    have h2 := hmid infKey
    have h3 := hlt (show infKey < infKey + 1 by omega)
    have h4 := hlt hj
    generalize magVal j * den = a at *
    generalize magVal infKey * den = b at *
    generalize magVal (infKey + 1) * den = c at *
    generalize mid infKey * den = d at *
    constructor <;> omega
  · rw [Nat.min_eq_right hi]
    rcases Nat.lt_trichotomy j r with h | rfl | h
    · obtain ⟨k, rfl⟩ : ∃ k, r = k + 1 := ⟨r - 1, by omega⟩
      have h1 := (near_above num den hd k).mp (by omega)
      have h2 := hle (show j ≤ k by omega)
      have h3 := hmid k
      have h4 := hlt (show k < k + 1 by omega)
      generalize magVal j * den = a at *
      generalize magVal (k + 1) * den = b at *
      generalize magVal k * den = c at *
      generalize mid k * den = d at *
      constructor <;> omega
    · exact ⟨Nat.le_refl _, fun _ => .inl rfl⟩
    · have h1 := mt (near_above num den hd r).mpr (by omega)
      have h2 := hle (show r + 1 ≤ j by omega)
      have h3 := hmid r
      have h4 := hlt (show r < r + 1 by omega)
      generalize magVal j * den = a at *
      generalize magVal (r + 1) * den = b at *
      generalize magVal r * den = c at *
      generalize mid r * den = d at *
      constructor <;> omega

theorem notNaN_mk (s : Bool) {k : Nat} (h : k ≤ infKey) : f64NaN (mk s k) = false := by
  unfold f64NaN
  rw [mag_mk s (Nat.lt_of_le_of_lt h infKey_lt)]
  unfold infKey at h
  simpa using h

theorem rounds_mk (s : Bool) (num den : Nat) (hd : 0 < den) : Rounds (mk s (rnd num den)) (if s then -(num : Int) else num) den := by
  have hr := rnd_le num den
  have hr' := Nat.lt_of_le_of_lt hr infKey_lt
  refine ⟨notNaN_mk s hr, fun w hw => ?_⟩
  rw [val_mk s hr', mag_mk s hr']
  have h1 := rnd_nearest num den hd (f64Mag w) hw
  have h0 := rnd_nearest num den hd 0 (Nat.lt_of_le_of_lt (Nat.zero_le _) hw)
  have hz : magVal 0 = 0 := magVal_small (by decide)
  rw [hz] at h0
  have hm : ∀ k, k = rnd num den → magVal k = magVal (rnd num den) := fun k h => by rw [h]
  have hm0 : magVal (f64Mag w) = 0 → f64Mag w = 0 := fun h => magVal_inj (by rw [h, hz])
  have hm1 := hm (f64Mag w)
  have hm2 : 0 = rnd num den → magVal (rnd num den) = 0 := fun h => by rw [← h]; exact hz
  have hp : (0 : Int) ≤ (magVal (f64Mag w) : Int) * den := Int.mul_nonneg (Int.natCast_nonneg _) (Int.natCast_nonneg _)
  have hp0 : (magVal (f64Mag w) : Int) * den = 0 → magVal (f64Mag w) = 0 := by
    intro h
    rcases Int.mul_eq_zero.mp h with h | h
    · exact Int.natCast_eq_zero.mp h
    · have := Int.natCast_eq_zero.mp h; omega
  have ew : val w * den = if isNeg w then -((magVal (f64Mag w) : Int) * den) else (magVal (f64Mag w) : Int) * den := by
    unfold val; split
    · exact Int.neg_mul _ _
    · rfl
  have ev : val w = if isNeg w then -(magVal (f64Mag w) : Int) else (magVal (f64Mag w) : Int) := rfl
  have ez : (if s = true then -(magVal (rnd num den) : Int) else magVal (rnd num den)) * den =
      if s = true then -((magVal (rnd num den) : Int) * den) else (magVal (rnd num den) : Int) * den := by
    split
    · exact Int.neg_mul _ _
    · rfl
  rw [ez, ew, ev]
  generalize f64Mag w = j at *
  generalize rnd num den = r at *
  generalize (magVal r : Int) * den = a at *
  generalize (magVal j : Int) * den = b at *
  simp only [Int.natCast_zero, Int.zero_mul] at h0
  cases s <;> cases isNeg w <;> simp only [if_true, Bool.false_eq_true, if_false]
  · refine ⟨h1.1, fun h => ?_⟩
    rcases h1.2 h with h | h
    · left; rw [hm1 h]
    · exact .inr h
  · refine ⟨by omega, fun h => ?_⟩
    have hb : b = 0 := by omega
    have h2 := hp0 hb
    have h3 := hm0 h2
    rcases h0.2 (by omega) with h | h
    · left; rw [h2, hm2 h]; rfl
    · exact .inr h
  · refine ⟨by omega, fun h => ?_⟩
    have hb : b = 0 := by omega
    have h2 := hp0 hb
    rcases h0.2 (by omega) with h | h
    · left; rw [h2, hm2 h]; rfl
    · exact .inr h
  · refine ⟨by omega, fun h => ?_⟩
    rcases h1.2 (by omega) with h | h
    · left; rw [hm1 h]
    · exact .inr h

/-- `float64(i)` is the float nearest to `i` -/
theorem ofInt_rounds (i : Int) : Rounds (ofInt i) (i * unit) 1 := by
  have h := rounds_mk (decide (i < 0)) (i.natAbs * unit) 1 (by decide)
  have e : (if decide (i < 0) = true then -((i.natAbs * unit : Nat) : Int) else ((i.natAbs * unit : Nat) : Int)) = i * unit := by
    rw [Int.natCast_mul]
    by_cases hi : i < 0
    · simp only [hi, decide_true, if_true]
      rw [← Int.neg_mul, Int.ofNat_natAbs_of_nonpos (Int.le_of_lt hi), Int.neg_neg]
    · simp only [hi, decide_false, Bool.false_eq_true, if_false]
      rw [Int.natAbs_of_nonneg (Int.not_lt.mp hi)]
  rw [e] at h
  exact h

/-- sums of finite floats are rounded correctly -/
theorem add_rounds {x y : UInt64} (hx : Finite x) (hy : Finite y) : Rounds (add x y) (val x + val y) 1 := by
  unfold add
  simp only [hx.notNaN, hy.notNaN, hx.notInf, hy.notInf, Bool.or_self, Bool.false_eq_true, if_false]
  by_cases hs : val x + val y = 0
  · rw [if_pos hs, hs]
    refine ⟨notNaN_mk _ (Nat.zero_le _), fun w _ => ?_⟩
    rw [val_mk_zero, mag_mk _ (by decide)]
    constructor
    · simp
    · intro _; right; rfl
  · rw [if_neg hs]
    have h := rounds_mk (decide (val x + val y < 0)) (val x + val y).natAbs 1 (by decide)
    generalize val x + val y = s at *
    have e : (if decide (s < 0) = true then -(s.natAbs : Int) else (s.natAbs : Int)) = s := by
      by_cases h : s < 0
      · simp only [h, decide_true, if_true]; omega
      · simp only [h, decide_false, Bool.false_eq_true, if_false]; omega
    rw [e] at h
    exact h

/-- so are differences -/
theorem sub_rounds {x y : UInt64} (hx : Finite x) (hy : Finite y) : Rounds (sub x y) (val x - val y) 1 := by
  have := add_rounds hx (finite_neg hy)
  rw [val_neg, ← Int.sub_eq_add_neg] at this
  exact this

theorem val_mul_sign (x y : UInt64) : val x * val y = if (isNeg x != isNeg y) = true then
    -((magVal (f64Mag x) * magVal (f64Mag y) : Nat) : Int) else ((magVal (f64Mag x) * magVal (f64Mag y) : Nat) : Int) := by
  unfold val
  rw [Int.natCast_mul]
  cases isNeg x <;> cases isNeg y <;> simp

/-- products of finite floats are rounded correctly -/
theorem mul_rounds {x y : UInt64} (hx : Finite x) (hy : Finite y) : Rounds (mul x y) (val x * val y) unit := by
  unfold mul
  simp only [hx.notNaN, hy.notNaN, hx.notInf, hy.notInf, Bool.or_self, Bool.false_eq_true, if_false]
  rw [val_mul_sign]
  exact rounds_mk _ _ unit unit_pos

/-- quotients of finite floats are rounded correctly -/
theorem div_rounds {x y : UInt64} (hx : Finite x) (hy : Finite y) (h0 : val y ≠ 0) :
    Rounds (div x y) (val x * (val y).sign * unit) (val y).natAbs := by
  have hz : isZero y = false := by
    unfold isZero; rw [decide_eq_false_iff_not]
    intro h; apply h0; unfold val; rw [h, magVal_small (by decide)]; simp
  have hp : 0 < magVal (f64Mag y) := by
    rcases Nat.eq_zero_or_pos (magVal (f64Mag y)) with h | h
    · exfalso; apply h0; unfold val; rw [h]; simp
    · exact h
  unfold div
  simp only [hx.notNaN, hy.notNaN, hx.notInf, hy.notInf, hz, Bool.or_self, Bool.false_eq_true, if_false]
  have h := rounds_mk (isNeg x != isNeg y) (magVal (f64Mag x) * unit) (magVal (f64Mag y)) hp
  have hs : (val y).sign = if isNeg y then -1 else 1 := by
    unfold val
    cases isNeg y
    · simp only [Bool.false_eq_true, if_false]; exact Int.sign_eq_one_of_pos (by omega)
    · simp only [if_true]; exact Int.sign_eq_neg_one_of_neg (by omega)
  have e : (if (isNeg x != isNeg y) = true then -((magVal (f64Mag x) * unit : Nat) : Int) else ((magVal (f64Mag x) * unit : Nat) : Int)) =
      val x * (val y).sign * unit := by
    rw [hs, Int.natCast_mul]
    unfold val
    cases isNeg x <;> cases isNeg y <;> simp
  rw [e] at h
  rw [val_abs]
  exact h

theorem magVal_inf : magVal infKey = 2 ^ 1024 * unit := by
  have e : infKey = 2046 * 2 ^ 52 + 2 ^ 52 := by unfold infKey; decide
  rw [e, magVal_normal 2046 (2 ^ 52) (Nat.le_refl _) (by decide)]
  unfold unit
  rw [← Nat.pow_add, ← Nat.pow_add]

/-- the choice between two neighbours on either side of a root -/
theorem root_choice {n k K : Nat} (h1 : magVal k * magVal k ≤ n) (h2 : n < magVal (k + 1) * magVal (k + 1))
    (hK : K = if 4 * n < mid k * mid k then k else if mid k * mid k < 4 * n then k + 1 else if k % 2 = 0 then k else k + 1) (j : Nat) :
    (j < K → (magVal j + magVal K) * (magVal j + magVal K) < 4 * n ∨ ((magVal j + magVal K) * (magVal j + magVal K) = 4 * n ∧ K % 2 = 0)) ∧
    (K < j → 4 * n < (magVal j + magVal K) * (magVal j + magVal K) ∨ ((magVal j + magVal K) * (magVal j + magVal K) = 4 * n ∧ K % 2 = 0)) := by
  have sq : ∀ {a b : Nat}, a ≤ b → a * a ≤ b * b := fun h => Nat.mul_le_mul h h
  have dbl : ∀ a : Nat, (a + a) * (a + a) = 4 * (a * a) := fun a => by
    rw [Nat.add_mul, Nat.mul_add]; omega
  have sqlt : ∀ {a b : Nat}, a < b → a * a < b * b := fun h => Nat.mul_lt_mul'' h h
  have em : mid k = magVal k + magVal (k + 1) := rfl
  have up : K = k + 1 → mid k * mid k ≤ 4 * n → (mid k * mid k = 4 * n → K % 2 = 0) →
      (j < K → (magVal j + magVal K) * (magVal j + magVal K) < 4 * n ∨ ((magVal j + magVal K) * (magVal j + magVal K) = 4 * n ∧ K % 2 = 0)) ∧
      (K < j → 4 * n < (magVal j + magVal K) * (magVal j + magVal K) ∨ ((magVal j + magVal K) * (magVal j + magVal K) = 4 * n ∧ K % 2 = 0)) := by
    rintro rfl hm he
    constructor
    · intro hj
      have h3 := sq (Nat.add_le_add_right (magVal_le (show j ≤ k by omega)) (magVal (k + 1)))
      rw [← em] at h3
      rcases Nat.lt_or_ge ((magVal j + magVal (k + 1)) * (magVal j + magVal (k + 1))) (4 * n) with h | h
      · exact .inl h
      · exact .inr ⟨by omega, he (by omega)⟩
    · intro hj
      have h3 := sqlt (Nat.add_lt_add_right (magVal_lt hj) (magVal (k + 1)))
      rw [dbl] at h3
      left; omega
  have down : K = k → 4 * n ≤ mid k * mid k → (mid k * mid k = 4 * n → K % 2 = 0) →
      (j < K → (magVal j + magVal K) * (magVal j + magVal K) < 4 * n ∨ ((magVal j + magVal K) * (magVal j + magVal K) = 4 * n ∧ K % 2 = 0)) ∧
      (K < j → 4 * n < (magVal j + magVal K) * (magVal j + magVal K) ∨ ((magVal j + magVal K) * (magVal j + magVal K) = 4 * n ∧ K % 2 = 0)) := by
    rintro rfl hm he
    constructor
    · intro hj
      have h3 := sqlt (Nat.add_lt_add_right (magVal_lt hj) (magVal K))
      rw [dbl] at h3
      left; omega
    · intro hj
      have h3 := sq (Nat.add_le_add_right (magVal_le (show K + 1 ≤ j by omega)) (magVal K))
      rw [Nat.add_comm (magVal (K + 1)), ← em] at h3
      rcases Nat.lt_or_ge (4 * n) ((magVal j + magVal K) * (magVal j + magVal K)) with h | h
      · exact .inl h
      · exact .inr ⟨by omega, he (by omega)⟩
  split at hK
  · exact down hK (by omega) (by omega)
  · split at hK
    · exact up hK (by omega) (by omega)
    · split at hK
      · exact down hK (by omega) (by omega)
      · exact up hK (by omega) (by omega)

attribute [local irreducible] floorKey in
/-- roots of finite floats are rounded correctly: the root lies on the side of the result of the middle between it and any other float,
and in the middle only if the result is even -/
theorem sqrt_rounds {x : UInt64} (hx : Finite x) (h0 : 0 ≤ val x) :
    f64NaN (sqrt x) = false ∧ 0 ≤ val (sqrt x) ∧ ∀ w : UInt64, 0 ≤ val w →
      (val w < val (sqrt x) → (val w + val (sqrt x)) * (val w + val (sqrt x)) < 4 * (val x * unit) ∨
        ((val w + val (sqrt x)) * (val w + val (sqrt x)) = 4 * (val x * unit) ∧ f64Mag (sqrt x) % 2 = 0)) ∧
      (val (sqrt x) < val w → 4 * (val x * unit) < (val w + val (sqrt x)) * (val w + val (sqrt x)) ∨
        ((val w + val (sqrt x)) * (val w + val (sqrt x)) = 4 * (val x * unit) ∧ f64Mag (sqrt x) % 2 = 0)) := by
  have hz0 : magVal 0 = 0 := magVal_small (by decide)
  unfold sqrt
  by_cases hz : isZero x = true
  · rw [if_pos hz]
    have hm : f64Mag x = 0 := by simpa [isZero] using hz
    have hv : val x = 0 := by unfold val; rw [hm, hz0]; simp
    rw [hv]
    refine ⟨hx.notNaN, Int.le_refl _, fun w hw => ⟨fun h => by omega, fun h => .inl ?_⟩⟩
    rw [Int.zero_mul, Int.mul_zero, Int.add_zero]
    exact Int.mul_pos h h
  · have hz' : isZero x = false := by simpa using hz
    have hm : f64Mag x ≠ 0 := by simpa [isZero] using hz'
    have hp : 0 < magVal (f64Mag x) := by
      have := magVal_lt (show 0 < f64Mag x by omega); rwa [hz0] at this
    have hn : isNeg x = false := by
      cases hb : isNeg x
      · rfl
      · exfalso; unfold val at h0; rw [hb] at h0; simp at h0; omega
    have hv : val x = magVal (f64Mag x) := by unfold val; rw [hn]; rfl
    rw [if_neg hz]
    simp only [hx.notNaN, hx.notInf, hn, Bool.or_self, Bool.false_eq_true, if_false]
    rw [hv, ← Int.natCast_mul]
    generalize hN : magVal (f64Mag x) * unit = n at *
    obtain ⟨f1, f2⟩ := floorKey_spec (Nat.sqrt n)
    generalize hk : floorKey (Nat.sqrt n) = k at *
    have h1 : magVal k * magVal k ≤ n := Nat.le_trans (Nat.mul_le_mul f1 f1) (Nat.sqrt_le n)
    have h2 : n < magVal (k + 1) * magVal (k + 1) :=
      Nat.lt_of_lt_of_le (Nat.lt_succ_sqrt n) (Nat.mul_le_mul f2 f2)
    generalize hK : (if 4 * n < (magVal k + magVal (k + 1)) * (magVal k + magVal (k + 1)) then k
      else if (magVal k + magVal (k + 1)) * (magVal k + magVal (k + 1)) < 4 * n then k + 1 else if k % 2 = 0 then k else k + 1) = K
    have hKb : K ≤ infKey := by
      obtain ⟨K0, e0, b0⟩ := pow_key 512 (by decide)
      have : magVal k * magVal k < magVal K0 * magVal K0 := by
        refine Nat.lt_of_le_of_lt h1 ?_
        have h3 : magVal (f64Mag x) < 2 ^ 1024 * unit := by rw [← magVal_inf]; exact magVal_lt hx
        have h4 := Nat.mul_lt_mul_of_pos_right h3 unit_pos
        rw [hN] at h4
        rw [e0]
        calc n < 2 ^ 1024 * unit * unit := h4
          _ = 2 ^ (512 + 512) * (unit * unit) := by rw [Nat.mul_assoc]
          _ = 2 ^ 512 * unit * (2 ^ 512 * unit) := by rw [Nat.pow_add, Nat.mul_mul_mul_comm]
      have hkK : k < K0 := by
        apply Nat.lt_of_not_le
        intro h
        have := Nat.mul_le_mul (magVal_le h) (magVal_le h)
        omega
      rw [← hK]
      split
      · omega
      · split
        · omega
        · split <;> omega
    have hK63 := Nat.lt_of_le_of_lt hKb infKey_lt
    rw [val_mk _ hK63, mag_mk _ hK63]
    simp only [Bool.false_eq_true, if_false]
    refine ⟨notNaN_mk _ hKb, Int.natCast_nonneg _, fun w hw => ?_⟩
    have hj : val w = magVal (f64Mag w) := by
      unfold val at hw ⊢
      cases hb : isNeg w
      · rfl
      · rw [hb] at hw; simp at hw ⊢; omega
    rw [hj]
    have := root_choice h1 h2 (K := K) hK.symm (f64Mag w)
    have e2 : ((magVal (f64Mag w) : Int) + magVal K) * ((magVal (f64Mag w) : Int) + magVal K) =
      (((magVal (f64Mag w) + magVal K) * (magVal (f64Mag w) + magVal K) : Nat) : Int) := by
      rw [Int.natCast_mul, Int.natCast_add]
    rw [e2]
    have hlt : ∀ a b : Nat, (magVal a : Int) < magVal b ↔ a < b := fun a b => by rw [Int.ofNat_lt, magVal_lt_iff]
    rw [hlt, hlt]
    refine ⟨fun h => (this.1 h).imp (fun h => by omega) (fun h => ⟨by omega, h.2⟩),
      fun h => (this.2 h).imp (fun h => by omega) (fun h => ⟨by omega, h.2⟩)⟩

/-! ### Exceptional cases -/

theorem finite_of {x : UInt64} (h1 : f64NaN x = false) (h2 : isInf x = false) : Finite x := by
  unfold f64NaN at h1; unfold isInf at h2; unfold Finite
  unfold infKey at *
  simp only [decide_eq_false_iff_not] at h1 h2
  omega

theorem inf_notNaN {x : UInt64} (h : isInf x = true) : f64NaN x = false := by
  unfold isInf infKey at h; unfold f64NaN
  simp only [decide_eq_true_eq] at h
  rw [h]; decide

theorem nan_nan : f64NaN nan = true := by decide

/-- a sum is not a number exactly if an argument is not or two opposite infinities meet -/
theorem add_nan (x y : UInt64) : f64NaN (add x y) = true ↔
    f64NaN x = true ∨ f64NaN y = true ∨ (isInf x = true ∧ isInf y = true ∧ isNeg x ≠ isNeg y) := by
  cases hx : f64NaN x
  · cases hy : f64NaN y
    · cases ix : isInf x
      · cases iy : isInf y
        · have := (add_rounds (finite_of hx ix) (finite_of hy iy)).1
          simp [this]
        · have : add x y = y := by unfold add; simp [hx, hy, ix, iy]
          simp [this, hy]
      · cases iy : isInf y
        · have : add x y = x := by unfold add; simp [hx, hy, ix, iy]
          simp [this, hx]
        · by_cases hs : isNeg x = isNeg y
          · have : add x y = x := by unfold add; simp [hx, hy, ix, iy, hs]
            simp [this, hx, hs]
          · have : add x y = nan := by unfold add; simp [hx, hy, ix, iy, hs]
            simp [this, hs, nan_nan]
    · have : add x y = nan := by unfold add; simp [hx, hy]
      simp [this, nan_nan]
  · have : add x y = nan := by unfold add; simp [hx]
    simp [this, nan_nan]

/-- adding to an infinity changes nothing -/
theorem add_infinite {x y : UInt64} (hx : isInf x = true) (hy : f64NaN y = false) (h : isInf y = true → isNeg y = isNeg x) :
    add x y = x ∧ add y x = x := by
  have hx' := inf_notNaN hx
  cases iy : isInf y
  · constructor <;> unfold add <;> simp [hx', hy, hx, iy]
  · have hs := h iy
    have e : y = x := by
      have h1 := mk_eta x
      have h2 := mk_eta y
      unfold isInf at hx iy
      simp only [decide_eq_true_eq] at hx iy
      rw [hx] at h1; rw [iy, hs] at h2
      exact h2.symm.trans h1
    subst e
    constructor <;> unfold add <;> simp [hx', hx]

/-- a product is not a number exactly if an argument is not or an infinity meets a zero -/
theorem mul_nan (x y : UInt64) : f64NaN (mul x y) = true ↔
    f64NaN x = true ∨ f64NaN y = true ∨ (isInf x = true ∧ isZero y = true) ∨ (isZero x = true ∧ isInf y = true) := by
  have hz : ∀ {z : UInt64}, isInf z = true → isZero z = false := by
    intro z h; unfold isInf infKey at h; unfold isZero
    simp only [decide_eq_true_eq] at h; rw [h]; decide
  have hk : ∀ b : Bool, f64NaN (mk b infKey) = false := fun b => notNaN_mk b (Nat.le_refl _)
  cases hx : f64NaN x
  · cases hy : f64NaN y
    · cases ix : isInf x
      · cases iy : isInf y
        · have := (mul_rounds (finite_of hx ix) (finite_of hy iy)).1
          simp [this]
        · cases zx : isZero x
          · have : mul x y = mk (isNeg x != isNeg y) infKey := by unfold mul; simp [hx, hy, iy, zx, hz iy]
            rw [this, hk]; simp
          · have : mul x y = nan := by unfold mul; simp [hx, hy, iy, zx]
            simp [this, nan_nan]
      · cases zy : isZero y
        · have : mul x y = mk (isNeg x != isNeg y) infKey := by unfold mul; simp [hx, hy, ix, zy, hz ix]
          rw [this, hk]; simp [hz ix]
        · have : mul x y = nan := by unfold mul; simp [hx, hy, ix, zy]
          simp [this, nan_nan]
    · have : mul x y = nan := by unfold mul; simp [hy]
      simp [this, nan_nan]
  · have : mul x y = nan := by unfold mul; simp [hx]
    simp [this, nan_nan]

theorem zero_notInf {z : UInt64} (h : isZero z = true) : isInf z = false := by
  unfold isZero at h; unfold isInf infKey
  simp only [decide_eq_true_eq] at h; rw [h]; decide

theorem val_ne_zero {z : UInt64} (h : isZero z = false) : val z ≠ 0 := by
  intro hv
  have := val_eq_zero hv
  unfold isZero at h; rw [this] at h; simp at h

/-- a quotient is not a number exactly if an argument is not, or zero is divided by zero or infinity by infinity -/
theorem div_nan (x y : UInt64) : f64NaN (div x y) = true ↔
    f64NaN x = true ∨ f64NaN y = true ∨ (isInf x = true ∧ isInf y = true) ∨ (isZero x = true ∧ isZero y = true) := by
  have hk : ∀ b : Bool, f64NaN (mk b infKey) = false := fun b => notNaN_mk b (Nat.le_refl _)
  have h0 : ∀ b : Bool, f64NaN (mk b 0) = false := fun b => notNaN_mk b (Nat.zero_le _)
  cases hx : f64NaN x
  · cases hy : f64NaN y
    · cases ix : isInf x
      · cases iy : isInf y
        · cases zy : isZero y
          · have := (div_rounds (finite_of hx ix) (finite_of hy iy) (val_ne_zero zy)).1
            simp [this]
          · cases zx : isZero x
            · have : div x y = mk (isNeg x != isNeg y) infKey := by unfold div; simp [hx, hy, ix, iy, zx, zy]
              rw [this, hk]; simp
            · have : div x y = nan := by unfold div; simp [hx, hy, ix, iy, zx, zy]
              simp [this, nan_nan]
        · have : div x y = mk (isNeg x != isNeg y) 0 := by unfold div; simp [hx, hy, ix, iy]
          rw [this, h0]
          cases zy : isZero y
          · simp
          · rw [zero_notInf zy] at iy; simp at iy
      · cases iy : isInf y
        · have : div x y = mk (isNeg x != isNeg y) infKey := by unfold div; simp [hx, hy, ix, iy]
          rw [this, hk]
          cases zx : isZero x
          · simp
          · rw [zero_notInf zx] at ix; simp at ix
        · have : div x y = nan := by unfold div; simp [hx, hy, ix, iy]
          simp [this, nan_nan]
    · have : div x y = nan := by unfold div; simp [hy]
      simp [this, nan_nan]
  · have : div x y = nan := by unfold div; simp [hx]
    simp [this, nan_nan]

/-- dividing by an infinity gives a zero, dividing by zero an infinity -/
theorem div_infinite {x y : UInt64} (hx : Finite x) :
    (isInf y = true → f64Mag (div x y) = 0) ∧ (isZero y = true → isZero x = false → isInf (div x y) = true) := by
  constructor
  · intro hy
    have : div x y = mk (isNeg x != isNeg y) 0 := by unfold div; simp [hx.notNaN, hx.notInf, inf_notNaN hy, hy]
    rw [this, mag_mk _ (by decide)]
  · intro hy h0
    have h1 := zero_notInf hy
    have h2 : f64NaN y = false := by
      unfold isZero at hy; unfold f64NaN; simp only [decide_eq_true_eq] at hy; rw [hy]; decide
    have : div x y = mk (isNeg x != isNeg y) infKey := by unfold div; simp [hx.notNaN, hx.notInf, h1, h2, hy, h0]
    rw [this]; unfold isInf; rw [mag_mk _ infKey_lt]; simp

/-- the root of a negative number is not a number, that of infinity is infinity -/
theorem sqrt_nan (x : UInt64) (h : f64NaN x = false) : f64NaN (sqrt x) = true ↔ val x < 0 := by
  by_cases hv : val x < 0
  · have hn : isNeg x = true := by
      cases hb : isNeg x
      · unfold val at hv; rw [hb] at hv; simp at hv; omega
      · rfl
    have hz : isZero x = false := by
      cases hb : isZero x
      · rfl
      · unfold isZero at hb; simp only [decide_eq_true_eq] at hb
        unfold val at hv; rw [hb, magVal_small (by decide)] at hv; simp at hv
    have : sqrt x = nan := by unfold sqrt; simp [hz, hn]
    simp [this, nan_nan, hv]
  · simp only [hv, iff_false, Bool.not_eq_true]
    cases ix : isInf x
    · exact (sqrt_rounds (finite_of h ix) (by omega)).1
    · have hz : isZero x = false := by
        cases hb : isZero x
        · rfl
        · rw [zero_notInf hb] at ix; simp at ix
      have hn : isNeg x = false := by
        cases hb : isNeg x
        · rfl
        · exfalso; apply hv; unfold val; rw [hb]
          have := val_ne_zero hz
          unfold val at this; rw [hb] at this
          simp at this ⊢; omega
      have : sqrt x = x := by unfold sqrt; simp [hz, hn, h, ix]
      rw [this, h]

example : add 0x7FF0000000000000 0xFFF0000000000000 = nan ∧ div 0x3FF0000000000000 0x7FF0000000000000 = 0 ∧
    sqrt 0x4000000000000000 = 0x3FF6A09E667F3BCD ∧ add 0x3FB999999999999A 0x3FC999999999999A = 0x3FD3333333333334 ∧
    mul 0x3FB999999999999A 0x3FB999999999999A = 0x3F847AE147AE147C ∧ div 0x3FF0000000000000 0x4008000000000000 = 0x3FD5555555555555 := by
  decide +kernel

end Verif.Ieee
