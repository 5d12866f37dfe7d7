import Verif.Lemmas.Sketch
import Verif.Lemmas.Quantile
set_option autoImplicit false
set_option linter.unusedSimpArgs false
namespace Verif.Ieee

/-! ### Bounds of results -/

/-- a finite value of magnitude at most 2^k -/
def Bd (x : UInt64) (k : Nat) : Prop := Ieee.Finite x ∧ magVal (f64Mag x) ≤ 2 ^ k * unit

theorem pow_key (k : Nat) (hk : k ≤ 900) : ∃ K, magVal K = 2 ^ k * unit ∧ K + 1 < infKey := by
  obtain ⟨K, h1, h2⟩ := magVal_shift 1 (k + 1074) (by decide)
  refine ⟨K, ?_, ?_⟩
  · unfold unit
    rw [h1, Nat.one_mul, Nat.pow_add]
  · clear h1
    have h3 : (k + 1074) * 2 ^ 52 ≤ 1974 * 2 ^ 52 := Nat.mul_le_mul_right _ (by omega)
    have h4 : 1974 * 2 ^ 52 + 2 ^ 53 + 1 < infKey := by decide
    exact Nat.lt_of_le_of_lt (Nat.add_le_add_right (Nat.le_trans h2 (Nat.add_le_add_right h3 _)) 1) h4

theorem rnd_bound {num den k : Nat} (hd : 0 < den) (hk : k ≤ 900) (h : num ≤ 2 ^ k * unit * den) : rnd num den < infKey ∧ magVal (rnd num den) ≤ 2 ^ k * unit := by
  obtain ⟨K, h1, h2⟩ := pow_key k hk
  rw [← h1] at h ⊢
  have h3 : rnd num den ≤ K := by
    have := rnd_mono hd hd (Nat.mul_le_mul_right den h)
    rwa [rnd_exact K den hd (by omega)] at this
  exact ⟨by omega, magVal_le h3⟩

theorem Bd.mk' {s : Bool} {K k : Nat} (h : K < infKey ∧ magVal K ≤ 2 ^ k * unit) : Bd (mk s K) k :=
  ⟨finite_mk s h.1, by rw [mag_mk s (by have := infKey_lt; omega)]; exact h.2⟩

theorem Bd.mul {x y : UInt64} {j k : Nat} (hx : Bd x j) (hy : Bd y k) (h : j + k ≤ 900) : Bd (Ieee.mul x y) (j + k) := by
  unfold Ieee.mul
  simp only [hx.1.notNaN, hy.1.notNaN, hx.1.notInf, hy.1.notInf, Bool.or_self, Bool.false_eq_true, if_false]
  apply Bd.mk'
  apply rnd_bound unit_pos h
  calc magVal (f64Mag x) * magVal (f64Mag y) ≤ (2 ^ j * unit) * (2 ^ k * unit) := Nat.mul_le_mul hx.2 hy.2
    _ = 2 ^ (j + k) * unit * unit := by rw [Nat.pow_add]; ring

theorem val_abs (x : UInt64) : (val x).natAbs = magVal (f64Mag x) := by
  unfold val
  split <;> simp

theorem Bd.add {x y : UInt64} {k : Nat} (hx : Bd x k) (hy : Bd y k) (h : k ≤ 800) : Bd (Ieee.add x y) (k + 1) := by
  unfold Ieee.add
  simp only [hx.1.notNaN, hy.1.notNaN, hx.1.notInf, hy.1.notInf, Bool.or_self, Bool.false_eq_true, if_false]
  split
  · exact Bd.mk' ⟨by decide, by simp [magVal]⟩
  · apply Bd.mk'
    apply rnd_bound Nat.one_pos (by omega)
    have h1 := hx.2
    have h2 := hy.2
    rw [← val_abs] at h1 h2
    have h3 := Int.natAbs_add_le (val x) (val y)
    rw [Nat.mul_one, Nat.pow_succ]
    have : 2 ^ k * 2 * unit = 2 ^ k * unit + 2 ^ k * unit := by ring
    rw [this]
    exact Nat.le_trans h3 (Nat.add_le_add h1 h2)

theorem Bd.neg {x : UInt64} {k : Nat} (hx : Bd x k) : Bd (Ieee.neg x) k := Bd.mk' ⟨hx.1, hx.2⟩

theorem Bd.sub {x y : UInt64} {k : Nat} (hx : Bd x k) (hy : Bd y k) (h : k ≤ 800) : Bd (Ieee.sub x y) (k + 1) := Bd.add hx hy.neg h

theorem Bd.div {x y : UInt64} {k : Nat} (hx : Bd x k) (hy : Ieee.Finite y) (h1 : unit ≤ magVal (f64Mag y)) (h : k ≤ 900) : Bd (Ieee.div x y) k := by
  have hz : isZero y = false := by
    unfold isZero
    simp only [decide_eq_false_iff_not]
    intro h0
    rw [h0] at h1
    have := unit_pos
    simp [magVal] at h1
    omega
  unfold Ieee.div
  simp only [hx.1.notNaN, hy.notNaN, hx.1.notInf, hy.notInf, hz, Bool.or_self, Bool.false_eq_true, if_false]
  apply Bd.mk'
  apply rnd_bound (Nat.lt_of_lt_of_le unit_pos h1) h
  calc magVal (f64Mag x) * unit ≤ (2 ^ k * unit) * magVal (f64Mag y) := Nat.mul_le_mul hx.2 h1

theorem Bd.sqrt {x : UInt64} {k : Nat} (hx : Bd x (2 * k)) (hs : isNeg x = false ∨ isZero x = true) (h : k ≤ 400) : Bd (Ieee.sqrt x) (k + 1) := by
  unfold Ieee.sqrt
  split
  · rename_i hz
    refine ⟨hx.1, ?_⟩
    unfold isZero at hz
    simp only [decide_eq_true_eq] at hz
    rw [hz]; simp [magVal]
  · rename_i hz
    have hs : isNeg x = false := by
      rcases hs with hs | hs
      · exact hs
      · exact absurd hs hz
    simp only [hx.1.notNaN, hs, hx.1.notInf, Bool.or_self, Bool.false_eq_true, if_false]
    obtain ⟨K, h1, h2⟩ := pow_key k (by omega)
    obtain ⟨K', h1', h2'⟩ := pow_key (k + 1) (by omega)
    have hq : Nat.sqrt (magVal (f64Mag x) * unit) ≤ 2 ^ k * unit := by
      have : magVal (f64Mag x) * unit ≤ (2 ^ k * unit) * (2 ^ k * unit) := by
        calc magVal (f64Mag x) * unit ≤ (2 ^ (2 * k) * unit) * unit := Nat.mul_le_mul_right _ hx.2
          _ = (2 ^ k * unit) * (2 ^ k * unit) := by rw [Nat.two_mul, Nat.pow_add]; ring
      calc Nat.sqrt (magVal (f64Mag x) * unit) ≤ Nat.sqrt ((2 ^ k * unit) * (2 ^ k * unit)) := Nat.sqrt_le_sqrt this
        _ = 2 ^ k * unit := Nat.sqrt_eq _
    have hK : floorKey (Nat.sqrt (magVal (f64Mag x) * unit)) ≤ K := by
      have := (floorKey_spec (Nat.sqrt (magVal (f64Mag x) * unit))).1
      by_contra hc
      have hc := magVal_lt (Nat.lt_of_not_le hc)
      rw [h1] at hc
      omega
    have hKK : K < K' := by
      by_contra hc
      have := magVal_le (Nat.le_of_not_lt hc)
      rw [h1, h1', Nat.pow_succ] at this
      have hp : 0 < 2 ^ k * unit := Nat.mul_pos (Nat.pow_pos (by decide)) unit_pos
      have e : 2 ^ k * 2 * unit = 2 ^ k * unit + 2 ^ k * unit := by ring
      rw [e] at this
      generalize 2 ^ k * unit = A at *
      omega
    have hfin : ∀ j, j ≤ K + 1 → Bd (mk false j) (k + 1) := by
      intro j hj
      apply Bd.mk'
      refine ⟨by omega, ?_⟩
      rw [← h1']
      exact magVal_le (by omega)
    split
    · exact hfin _ (by omega)
    · split
      · exact hfin _ (by omega)
      · split
        · exact hfin _ (by omega)
        · exact hfin _ (by omega)

theorem bd_ofInt {i : Int} (h : i.natAbs ≤ 2 ^ 53) : Bd (ofInt i) 53 := by
  refine ⟨finite_ofInt h, ?_⟩
  rw [mag_ofInt h, (rnd_nat _ h).2]
  exact Nat.mul_le_mul_right _ h

theorem Bd.mono {x : UInt64} {j k : Nat} (hx : Bd x j) (h : j ≤ k) : Bd x k :=
  ⟨hx.1, Nat.le_trans hx.2 (Nat.mul_le_mul_right _ (Nat.pow_le_pow_right (by decide) h))⟩

attribute [local irreducible] rnd unit

theorem val_neg (x : UInt64) : val (Ieee.neg x) = -val x := by
  unfold Ieee.neg
  rw [val_mk _ (mag_lt x)]
  unfold val
  cases isNeg x <;> simp

theorem finite_neg {x : UInt64} (h : Ieee.Finite x) : Ieee.Finite (Ieee.neg x) := finite_mk _ h

theorem val_mk_zero (s : Bool) : val (mk s 0) = 0 := by
  rw [val_mk s (by decide)]
  simp [magVal]

theorem key_lt_of_val {z : UInt64} {K : Nat} (h : magVal K ≤ magVal (f64Mag z)) (hz : Ieee.Finite z) : K < infKey := by
  unfold Ieee.Finite at hz
  by_contra hc
  have := magVal_lt (Nat.lt_of_lt_of_le hz (Nat.le_of_not_lt hc))
  omega

/-- a sum is on the same side of a float as the exact sum -/
theorem val_add_le {x y z : UInt64} (hx : Ieee.Finite x) (hy : Ieee.Finite y) (hz : Ieee.Finite z) (h0 : 0 ≤ val x + val y) (h : val x + val y ≤ val z) :
    Ieee.Finite (Ieee.add x y) ∧ 0 ≤ val (Ieee.add x y) ∧ val (Ieee.add x y) ≤ val z := by
  unfold Ieee.add
  simp only [hx.notNaN, hy.notNaN, hx.notInf, hy.notInf, Bool.or_self, Bool.false_eq_true, if_false]
  split
  · rename_i hs
    rw [val_mk_zero]
    exact ⟨finite_mk _ (by decide), Int.le_refl _, by omega⟩
  · rename_i hs
    have hneg : decide (val x + val y < 0) = false := by simp; omega
    have hvz : val z = magVal (f64Mag z) := by
      have := val_abs z
      omega
    have hr : rnd (val x + val y).natAbs 1 ≤ f64Mag z := by
      have := rnd_mono (n := (val x + val y).natAbs) (d := 1) (n' := magVal (f64Mag z) * 1) (d' := 1) (by decide) (by decide) (by omega)
      rwa [rnd_exact _ _ (by decide) (Nat.le_of_lt hz)] at this
    have hf : rnd (val x + val y).natAbs 1 < infKey := Nat.lt_of_le_of_lt hr hz
    rw [hneg]
    refine ⟨finite_mk _ hf, ?_, ?_⟩
    · rw [val_mk _ (Nat.lt_trans hf infKey_lt)]
      simp
    · rw [val_mk _ (Nat.lt_trans hf infKey_lt), hvz]
      have := magVal_le hr
      simp
      exact this

/-- a difference of ordered floats is zero or positive -/
theorem sub_sign {x y : UInt64} (hx : Ieee.Finite x) (hy : Ieee.Finite y) (h : val y ≤ val x) : isNeg (Ieee.sub x y) = false ∨ isZero (Ieee.sub x y) = true := by
  unfold Ieee.sub Ieee.add
  have hy' := finite_neg hy
  simp only [hx.notNaN, hy'.notNaN, hx.notInf, hy'.notInf, Bool.or_self, Bool.false_eq_true, if_false]
  rw [val_neg]
  split
  · right
    unfold isZero
    rw [mag_mk _ (by decide)]
    simp
  · left
    rw [isNeg_mk _ (by have := rnd_le (val x + -val y).natAbs 1; have := infKey_lt; omega)]
    simp
    omega

theorem val_mul {x y : UInt64} (hx : Ieee.Finite x) (hy : Ieee.Finite y) :
    val (Ieee.mul x y) = if (isNeg x != isNeg y) = true then -(magVal (rnd (magVal (f64Mag x) * magVal (f64Mag y)) unit) : Int) else magVal (rnd (magVal (f64Mag x) * magVal (f64Mag y)) unit) := by
  unfold Ieee.mul
  simp only [hx.notNaN, hy.notNaN, hx.notInf, hy.notInf, Bool.or_self, Bool.false_eq_true, if_false]
  rw [val_mk _ (by have := rnd_le (magVal (f64Mag x) * magVal (f64Mag y)) unit; have := infKey_lt; omega)]

theorem rnd_zero (d : Nat) (hd : 0 < d) : rnd 0 d = 0 := by
  have := rnd_exact 0 d hd (by decide)
  simpa [magVal] using this

theorem val_mul_abs {x y : UInt64} (hx : Ieee.Finite x) (hy : Ieee.Finite y) :
    (val (Ieee.mul x y)).natAbs = magVal (rnd (magVal (f64Mag x) * magVal (f64Mag y)) unit) := by
  rw [val_mul hx hy]
  split
  · rw [Int.natAbs_neg, Int.natAbs_natCast]
  · rw [Int.natAbs_natCast]

theorem magVal_zero {k : Nat} (h : magVal k = 0) : k = 0 := magVal_inj (by rw [h]; rfl)

/-- the sign of a product -/
theorem mul_nonpos {x y : UInt64} (hx : Ieee.Finite x) (hy : Ieee.Finite y) (h1 : 0 ≤ val x) (h2 : val y ≤ 0) : val (Ieee.mul x y) ≤ 0 := by
  rw [val_mul hx hy]
  by_cases hz : magVal (f64Mag x) * magVal (f64Mag y) = 0
  · rw [hz, rnd_zero _ unit_pos]
    have : magVal 0 = 0 := rfl
    rw [this]
    split <;> decide
  · have z1 : magVal (f64Mag x) ≠ 0 := fun h => hz (by rw [h]; simp)
    have z2 : magVal (f64Mag y) ≠ 0 := fun h => hz (by rw [h]; simp)
    clear hz
    have e1 : isNeg x = false := by
      unfold val at h1
      by_contra hc
      rw [if_pos (by simpa using hc)] at h1
      omega
    have e2 : isNeg y = true := by
      unfold val at h2
      by_contra hc
      rw [if_neg hc] at h2
      omega
    rw [e1, e2, if_pos (by decide)]
    exact Int.neg_nonpos_of_nonneg (Int.natCast_nonneg _)

theorem mul_nonpos' {x y : UInt64} (hx : Ieee.Finite x) (hy : Ieee.Finite y) (h1 : val x ≤ 0) (h2 : 0 ≤ val y) : val (Ieee.mul x y) ≤ 0 := by
  rw [val_mul hx hy]
  by_cases hz : magVal (f64Mag x) * magVal (f64Mag y) = 0
  · rw [hz, rnd_zero _ unit_pos]
    have : magVal 0 = 0 := rfl
    rw [this]
    split <;> decide
  · have z1 : magVal (f64Mag x) ≠ 0 := fun h => hz (by rw [h]; simp)
    have z2 : magVal (f64Mag y) ≠ 0 := fun h => hz (by rw [h]; simp)
    clear hz
    have e1 : isNeg x = true := by
      unfold val at h1
      by_contra hc
      rw [if_neg hc] at h1
      omega
    have e2 : isNeg y = false := by
      unfold val at h2
      by_contra hc
      rw [if_pos (by simpa using hc)] at h2
      omega
    rw [e1, e2, if_pos (by decide)]
    exact Int.neg_nonpos_of_nonneg (Int.natCast_nonneg _)

theorem mul_nonneg' {x y : UInt64} (hx : Ieee.Finite x) (hy : Ieee.Finite y) (h1 : 0 ≤ val x) (h2 : 0 ≤ val y) : 0 ≤ val (Ieee.mul x y) := by
  rw [val_mul hx hy]
  by_cases hz : magVal (f64Mag x) * magVal (f64Mag y) = 0
  · rw [hz, rnd_zero _ unit_pos]
    have : magVal 0 = 0 := rfl
    rw [this]
    split <;> decide
  · have z1 : magVal (f64Mag x) ≠ 0 := fun h => hz (by rw [h]; simp)
    have z2 : magVal (f64Mag y) ≠ 0 := fun h => hz (by rw [h]; simp)
    clear hz
    have e1 : isNeg x = false := by
      unfold val at h1
      by_contra hc
      rw [if_pos (by simpa using hc)] at h1
      omega
    have e2 : isNeg y = false := by
      unfold val at h2
      by_contra hc
      rw [if_pos (by simpa using hc)] at h2
      omega
    rw [e1, e2, if_neg (by decide)]
    exact Int.natCast_nonneg _

theorem val_eq_zero {x : UInt64} (h : val x = 0) : f64Mag x = 0 := by
  apply magVal_zero
  rw [← val_abs, h]; rfl

/-- between equal points, every interpolation gives the point -/
theorem end_point {x y z : UInt64} (hx : Ieee.Finite x) (hy : Ieee.Finite y) (hz : Ieee.Finite z) (h : val x = val y) :
    val (Ieee.add x (Ieee.mul (Ieee.sub y x) z)) = val x := by
  have hx' := finite_neg hx
  have e1 : ∃ s, Ieee.sub y x = mk s 0 := by
    unfold Ieee.sub Ieee.add
    simp only [hy.notNaN, hx'.notNaN, hy.notInf, hx'.notInf, Bool.or_self, Bool.false_eq_true, if_false]
    rw [val_neg, if_pos (by omega)]
    exact ⟨_, rfl⟩
  obtain ⟨s, e1⟩ := e1
  have hf0 : ∀ s, Ieee.Finite (mk s 0) := fun s => finite_mk s (by decide)
  have e2 : ∃ s, Ieee.mul (Ieee.sub y x) z = mk s 0 := by
    rw [e1]
    unfold Ieee.mul
    simp only [(hf0 s).notNaN, hz.notNaN, (hf0 s).notInf, hz.notInf, Bool.or_self, Bool.false_eq_true, if_false]
    rw [mag_mk s (by decide)]
    have : magVal 0 * magVal (f64Mag z) = 0 := by simp [magVal]
    rw [this, rnd_zero _ unit_pos]
    exact ⟨_, rfl⟩
  obtain ⟨s', e2⟩ := e2
  rw [e2]
  by_cases h0 : val x = 0
  · unfold Ieee.add
    simp only [hx.notNaN, (hf0 s').notNaN, hx.notInf, (hf0 s').notInf, Bool.or_self, Bool.false_eq_true, if_false]
    rw [val_mk_zero, if_pos (by omega), val_mk_zero, h0]
  · rw [add_exact hx (hf0 s') hx (by rw [val_mk_zero]; omega) h0]
end Verif.Ieee

namespace Verif.Sketch
open Ieee
attribute [local irreducible] rnd unit

/-- one half in units of 2^-1074 -/
def hunit : Nat := 2 ^ 1073

theorem two_pow_succ {n m : Nat} (h : n = m + 1) : 2 ^ n = 2 * 2 ^ m := by rw [h, Nat.pow_succ, Nat.mul_comm]

theorem unit_half : unit = 2 * hunit := by
  unfold unit hunit
  exact two_pow_succ (by decide)

theorem half_pos : 0 < hunit := by unfold hunit; exact Nat.pow_pos (by decide)

attribute [local irreducible] hunit

/-- half of a whole number -/
def half (n : Nat) : UInt64 := Ieee.mk false (Ieee.rnd (n * hunit) 1)

theorem rnd_half (n : Nat) (h : n ≤ 2 ^ 53) : rnd (n * hunit) 1 < infKey ∧ magVal (rnd (n * hunit) 1) = n * hunit := by
  obtain ⟨k, hk, hl⟩ := magVal_shift n 1073 h
  have hi : k < infKey := by
    have : (1073 * 2 ^ 52 + 2 ^ 53 : Nat) < infKey := by decide
    exact Nat.lt_of_le_of_lt hl this
  have e : n * hunit = magVal k * 1 := by unfold hunit; rw [hk, Nat.mul_one]
  rw [e, rnd_exact k 1 (by decide) (Nat.le_of_lt hi), Nat.mul_one]
  exact ⟨hi, rfl⟩

theorem finite_half {n : Nat} (h : n ≤ 2 ^ 53) : Ieee.Finite (half n) := finite_mk _ (rnd_half n h).1

theorem mag_half {n : Nat} (h : n ≤ 2 ^ 53) : f64Mag (half n) = rnd (n * hunit) 1 := mag_mk _ (Nat.lt_trans (rnd_half n h).1 infKey_lt)

theorem val_half {n : Nat} (h : n ≤ 2 ^ 53) : val (half n) = (n * hunit : Nat) := by
  unfold half
  rw [val_mk _ (Nat.lt_trans (rnd_half n h).1 infKey_lt), (rnd_half n h).2]
  simp


theorem half_even (n : Nat) : half (2 * n) = Ieee.ofInt n := by
  unfold half ofInt
  rw [Int.natAbs_natCast, unit_half]
  have e : 2 * n * hunit = n * (2 * hunit) := by
    ring
  rw [e]
  have : decide ((n : Int) < 0) = false := by simp
  rw [this]

theorem ieee_halves : Halves ieee (fun x => f64NaN x = false) val (2 ^ 51) half where
  zero := by
    have := half_even 0
    rw [Nat.mul_zero] at this
    rw [this]; rfl
  div {a} h := by
    show Ieee.div (Ieee.ofInt a) (Ieee.ofInt 2) = half a
    have fa := finite_ofInt (i := a) (by omega)
    have fb := finite_ofInt (i := 2) (by decide)
    have hm2 : magVal (f64Mag (Ieee.ofInt 2)) = 2 * unit := by rw [mag_ofInt (by decide), (rnd_nat _ (by decide)).2]; rfl
    have hz : isZero (Ieee.ofInt 2) = false := by
      unfold isZero
      simp only [decide_eq_false_iff_not]
      intro h0
      rw [h0] at hm2
      have := unit_pos
      simp [magVal] at hm2
      omega
    unfold Ieee.div
    simp only [fa.notNaN, fb.notNaN, fa.notInf, fb.notInf, hz, Bool.or_self, Bool.false_eq_true, if_false]
    rw [isNeg_ofInt (by omega), isNeg_ofInt (by decide), mag_ofInt (by omega), (rnd_nat _ (by omega)).2, hm2]
    have e : (a : Int).natAbs * unit * unit = magVal (rnd (a * hunit) 1) * (2 * unit) := by
      rw [(rnd_half a (by omega)).2, Int.natAbs_natCast]
      have := unit_half
      rw [this]; ring
    rw [e, rnd_exact _ _ (by have := unit_pos; omega) (Nat.le_of_lt (rnd_half a (by omega)).1)]
    unfold half
    have : (decide ((a : Int) < 0) != decide ((2 : Int) < 0)) = false := by simp
    rw [this]
  add {a b} h := by
    show Ieee.add (half a) (half b) = half (a + b)
    have ha := finite_half (n := a) (by omega)
    have hb := finite_half (n := b) (by omega)
    have hc := finite_half (n := a + b) (by omega)
    have hv : val (half a) + val (half b) = val (half (a + b)) := by
      rw [val_half (by omega), val_half (by omega), val_half (by omega)]
      push_cast; ring
    by_cases h0 : a + b = 0
    · have h1 : a = 0 := by omega
      have h2 : b = 0 := by omega
      subst h1 h2
      decide +kernel
    · apply add_exact ha hb hc hv
      rw [val_half (by omega)]
      have := Nat.mul_pos (Nat.pos_of_ne_zero h0) half_pos
      generalize (a + b) * hunit = z at *
      omega
  ok h := (finite_half (by omega)).notNaN
  mono {a b} h hb := by
    rw [val_half (by omega), val_half (by omega)]
    have := Nat.mul_lt_mul_of_pos_right h half_pos
    exact Int.ofNat_lt.mpr this

theorem ieee_sub (x y : UInt64) : ieee.sub x y = Ieee.sub x y := rfl
theorem ieee_div (x y : UInt64) : ieee.div x y = Ieee.div x y := rfl
theorem ieee_sqrt (x : UInt64) : ieee.sqrt x = Ieee.sqrt x := rfl
theorem ieee_eq (x y : UInt64) : ieee.eq x y = f64Eq x y := rfl

theorem sub_ofInt_zero {w : Nat} (h : w ≤ 2 ^ 53) (h1 : 1 ≤ w) : Ieee.sub (Ieee.ofInt w) (Ieee.ofInt 0) = Ieee.ofInt w := by
  unfold Ieee.sub
  apply add_exact (finite_ofInt (by omega)) (finite_neg (finite_ofInt (by decide))) (finite_ofInt (by omega))
  · rw [val_neg, val_ofInt (i := 0) (by decide)]; simp
  · rw [val_ofInt (by omega)]
    have := Int.mul_pos (a := (w : Int)) (b := (unit : Int)) (by omega) (by have := unit_pos; omega)
    omega

theorem zero_sub_ofInt {w : Nat} (h : w ≤ 2 ^ 53) (h1 : 1 ≤ w) : Ieee.sub (Ieee.ofInt 0) (Ieee.ofInt w) = Ieee.ofInt (-(w : Int)) := by
  unfold Ieee.sub
  rw [neg_ofInt (by omega) (by omega), add_ofInt (by decide) (by omega) (by omega), Int.zero_add]

theorem ofInt_ne_zero {i : Int} (h : i.natAbs ≤ 2 ^ 53) (h0 : i ≠ 0) : f64Eq (Ieee.ofInt i) (Ieee.ofInt 0) = false := by
  rw [Bool.eq_false_iff]
  intro hh
  rw [eq_val (finite_ofInt h).notNaN (finite_ofInt (by decide)).notNaN, val_ofInt h, val_ofInt (by decide), Int.zero_mul] at hh
  rcases Int.mul_eq_zero.mp hh with h1 | h1
  · exact h0 h1
  · have := unit_pos; omega

theorem unit_le_ofInt {i : Int} (h : i.natAbs ≤ 2 ^ 53) (h0 : i ≠ 0) : unit ≤ magVal (f64Mag (Ieee.ofInt i)) := by
  rw [mag_ofInt h, (rnd_nat _ h).2]
  exact Nat.le_mul_of_pos_left _ (by omega)

/-- the interpolation between equal points, when the square root is taken of no negative number -/
theorem interpolate_end {t s x y : UInt64} {mi mj : UInt64} {A W : Int} (hx : Ieee.Finite x) (hy : Ieee.Finite y) (hxy : val x = val y)
    (hmi : Ieee.abs mi = Ieee.ofInt W) (ha : Ieee.sub (Ieee.abs mj) (Ieee.abs mi) = Ieee.ofInt A) (hW : W.natAbs ≤ 2 ^ 51) (hA : A.natAbs ≤ 2 ^ 51) (hA0 : A ≠ 0)
    (hd : Bd (Ieee.sub t s) 53)
    (hs : val (Ieee.mul (Ieee.mul (Ieee.ofInt 4) (Ieee.ofInt A)) (Ieee.mul (Ieee.ofInt (-2)) (Ieee.sub t s))) ≤
      val (Ieee.mul (Ieee.mul (Ieee.ofInt 2) (Ieee.ofInt W)) (Ieee.mul (Ieee.ofInt 2) (Ieee.ofInt W)))) :
    val (interpolate ieee t s { p := x, m := mi } { p := y, m := mj }) = val x := by
  unfold interpolate
  simp only [ieee_add, ieee_mul, ieee_neg, ieee_abs, ieee_sub, ieee_div, ieee_sqrt, ieee_eq, ieee_ofInt]
  rw [hmi] at ha
  simp only [hmi, ha, ofInt_ne_zero (Nat.le_trans hA (by decide)) hA0, Bool.false_eq_true, if_false]
  have b2 : Bd (Ieee.ofInt 2) 53 := bd_ofInt (by decide)
  have b2' : Bd (Ieee.ofInt (-2)) 53 := bd_ofInt (by decide)
  have b4 : Bd (Ieee.ofInt 4) 53 := bd_ofInt (by decide)
  have bW : Bd (Ieee.ofInt W) 53 := bd_ofInt (by omega)
  have bA : Bd (Ieee.ofInt A) 53 := bd_ofInt (by omega)
  have bb := b2.mul bW (by omega)
  have bbb := bb.mul bb (by omega)
  have bc := b2'.mul hd (by omega)
  have bac := (b4.mul bA (by omega)).mul bc (by omega)
  have barg := bbb.sub (bac.mono (Nat.le_refl _)) (by omega)
  have hsign := sub_sign bbb.1 bac.1 hs
  have bsq := Bd.sqrt (barg.mono (k := 2 * 150) (by omega)) hsign (by omega)
  have bnum := (bb.neg.mono (k := 151) (by omega)).add bsq (by omega)
  have e2A : Ieee.mul (Ieee.ofInt 2) (Ieee.ofInt A) = Ieee.ofInt (2 * A) := mul_ofInt (by decide) (by omega) (by omega) (by omega)
  rw [e2A]
  have bz := bnum.div (finite_ofInt (i := 2 * A) (by omega)) (unit_le_ofInt (by omega) (by omega)) (by omega)
  exact end_point hx hy bz.1 hxy

theorem bd_half {x : UInt64} {w : Nat} (hw : w ≤ 2 ^ 51) (h1 : Ieee.Finite x) (h2 : 0 ≤ val x) (h3 : val x ≤ val (half w)) : Bd x 53 := by
  refine ⟨h1, ?_⟩
  rw [← val_abs]
  rw [val_half (by omega)] at h3
  have h4 : w * hunit ≤ 2 ^ 53 * unit := Nat.mul_le_mul (by omega) (by rw [unit_half]; omega)
  have h5 : (val x).natAbs ≤ w * hunit := by
    generalize w * hunit = z at *
    omega
  exact Nat.le_trans h5 h4

theorem ieee_ends : Ends ieee (fun x => f64NaN x = false) Ieee.Finite val (2 ^ 51) half where
  target {p T} hT hp h0 h1 := by
    rw [Bool.eq_false_iff, Ne, ieee_lt, ieee_ofInt, lt_val hp (finite_ofInt (by decide)).notNaN, val_ofInt (by decide), Int.zero_mul] at h0
    rw [Bool.eq_false_iff, Ne, ieee_lt, ieee_ofInt, lt_val (finite_ofInt (by decide)).notNaN hp] at h1
    have f1 : Ieee.Finite (Ieee.ofInt 1) := finite_ofInt (by decide)
    have fT : Ieee.Finite (Ieee.ofInt T) := finite_ofInt (by omega)
    have hm : magVal (f64Mag p) ≤ magVal (f64Mag (Ieee.ofInt 1)) := by rw [← val_abs, ← val_abs]; omega
    have fp : Ieee.Finite p := key_lt_of_val hm f1
    have m1 : magVal (f64Mag (Ieee.ofInt 1)) = unit := by rw [mag_ofInt (by decide), (rnd_nat _ (by decide)).2]; exact Nat.one_mul _
    have mT : magVal (f64Mag (Ieee.ofInt T)) = T * unit := by rw [mag_ofInt (by omega), (rnd_nat _ (by omega)).2, Int.natAbs_natCast]
    rw [m1] at hm
    have hr : rnd (magVal (f64Mag p) * magVal (f64Mag (Ieee.ofInt T))) unit ≤ f64Mag (Ieee.ofInt T) := by
      have h2 : magVal (f64Mag p) * magVal (f64Mag (Ieee.ofInt T)) ≤ magVal (f64Mag (Ieee.ofInt T)) * unit := by
        rw [Nat.mul_comm (magVal (f64Mag (Ieee.ofInt T)))]; exact Nat.mul_le_mul_right _ hm
      have := rnd_mono unit_pos unit_pos (Nat.mul_le_mul_right unit h2)
      rwa [rnd_exact _ _ unit_pos (Nat.le_of_lt fT)] at this
    have hn := mul_nonneg' fp fT (by omega) (by rw [val_ofInt (by omega)]; exact Int.mul_nonneg (by omega) (by omega))
    have ha := val_mul_abs fp fT
    have ft : Ieee.Finite (Ieee.mul p (Ieee.ofInt T)) := by
      apply key_lt_of_val (z := Ieee.ofInt T) _ fT
      rw [← val_abs, ha]
      exact magVal_le hr
    refine ⟨ft.notNaN, ?_, ?_⟩
    · rw [val_half (by decide), Nat.zero_mul]; exact hn
    · rw [half_even, val_ofInt (by omega)]
      have h3 := magVal_le hr
      rw [← ha, mT] at h3
      have h4 : ((val (Ieee.mul p (Ieee.ofInt T))).natAbs : Int) = val (Ieee.mul p (Ieee.ofInt T)) := Int.natAbs_of_nonneg hn
      show val (Ieee.mul p (Ieee.ofInt T)) ≤ _
      rw [← h4]
      have h5 := Int.ofNat_le.mpr h3
      rw [Int.natCast_mul] at h5
      exact h5
  one {T} h1 h := by
    rw [Bool.eq_false_iff]
    intro hh
    rw [ieee_lt, ieee_ofInt, ieee_ofInt, lt_val (finite_ofInt (by omega)).notNaN (finite_ofInt (by decide)).notNaN, val_ofInt (by omega), val_ofInt (by decide), Int.one_mul] at hh
    have := Int.mul_le_mul_of_nonneg_right (a := 1) (b := (T : Int)) (c := (unit : Int)) (by omega) (by omega)
    omega
  low {t x y w} hw hwB ht ht0 ht1 hx hy hxy := by
    have fw := finite_half (n := w) (by omega)
    have f0 := finite_half (n := 0) (by decide)
    rw [val_half (n := 0) (by decide), Nat.zero_mul] at ht0
    have ft : Ieee.Finite t := by
      apply key_lt_of_val (z := half w) _ fw
      rw [← val_abs, ← val_abs]; omega
    obtain ⟨d1, d2, d3⟩ := val_add_le ft (finite_neg f0) fw (by rw [val_neg, val_half (n := 0) (by decide), Nat.zero_mul]; omega)
      (by rw [val_neg, val_half (n := 0) (by decide), Nat.zero_mul]; omega)
    have hd : Bd (Ieee.sub t (half 0)) 53 := bd_half hwB d1 d2 d3
    have e0 : Ieee.abs (Ieee.ofInt 0) = Ieee.ofInt 0 := abs_ofInt (by decide)
    have ew : Ieee.abs (Ieee.ofInt w) = Ieee.ofInt w := by rw [abs_ofInt (by omega), Int.natAbs_natCast]
    refine interpolate_end (mi := Ieee.ofInt 0) (mj := Ieee.ofInt w) (W := 0) (A := w) hx hy hxy e0 (by rw [e0, ew]; exact sub_ofInt_zero (by omega) hw)
      (by decide) (by omega) (by omega) hd ?_
    have b2 : Bd (Ieee.ofInt 2) 53 := bd_ofInt (by decide)
    have b2' : Bd (Ieee.ofInt (-2)) 53 := bd_ofInt (by decide)
    have b4 : Bd (Ieee.ofInt 4) 53 := bd_ofInt (by decide)
    have b0 : Bd (Ieee.ofInt 0) 53 := bd_ofInt (by decide)
    have bw : Bd (Ieee.ofInt w) 53 := bd_ofInt (by omega)
    have p : ∀ i : Int, 0 ≤ i → i.natAbs ≤ 2 ^ 53 → 0 ≤ val (Ieee.ofInt i) := by
      intro i hi hb
      rw [val_ofInt hb]; exact Int.mul_nonneg hi (by omega)
    have bb := b2.mul b0 (by omega)
    have pb := mul_nonneg' b2.1 b0.1 (p 2 (by decide) (by decide)) (p 0 (by decide) (by decide))
    have bc := b2'.mul hd (by omega)
    have h1 := mul_nonneg' bb.1 bb.1 pb pb
    have h2 : val (Ieee.ofInt (-2)) ≤ 0 := by
      rw [val_ofInt (by decide)]
      have := Int.mul_nonneg (a := 2) (b := (unit : Int)) (by decide) (by omega)
      omega
    have h3 := mul_nonpos' b2'.1 hd.1 h2 d2
    have h4 := mul_nonneg' b4.1 bw.1 (p 4 (by decide) (by decide)) (p w (by omega) (by omega))
    have h5 := mul_nonpos (b4.mul bw (by omega)).1 bc.1 h4 h3
    exact Int.le_trans h5 h1
  high {t x y w T} hw hwT hTB ht ht0 ht1 hx hy hxy := by
    have fw := finite_half (n := w) (by omega)
    have fs := finite_half (n := 2 * T - w) (by omega)
    have fT := finite_half (n := 2 * T) (by omega)
    have hsplit : val (half (2 * T)) = val (half (2 * T - w)) + val (half w) := by
      rw [val_half (by omega), val_half (by omega), val_half (by omega), ← Int.natCast_add, ← Nat.add_mul, Nat.sub_add_cancel (by omega)]
    have hs0 : 0 ≤ val (half (2 * T - w)) := by rw [val_half (by omega)]; exact Int.natCast_nonneg _
    have ft : Ieee.Finite t := by
      apply key_lt_of_val (z := half (2 * T)) _ fT
      rw [← val_abs, ← val_abs]; omega
    obtain ⟨d1, d2, d3⟩ := val_add_le ft (finite_neg fs) fw (by rw [val_neg]; omega) (by rw [val_neg]; omega)
    have hd : Bd (Ieee.sub t (half (2 * T - w))) 53 := bd_half (by omega) d1 d2 d3
    have e0 : Ieee.abs (Ieee.ofInt 0) = Ieee.ofInt 0 := abs_ofInt (by decide)
    have ew : Ieee.abs (Ieee.ofInt w) = Ieee.ofInt w := by rw [abs_ofInt (by omega), Int.natAbs_natCast]
    refine interpolate_end (mi := Ieee.ofInt w) (mj := Ieee.ofInt 0) (W := w) (A := -(w : Int)) hx hy hxy ew (by rw [e0, ew]; exact zero_sub_ofInt (by omega) hw)
      (by omega) (by omega) (by omega) hd ?_
    have b2 : Bd (Ieee.ofInt 2) 53 := bd_ofInt (by decide)
    have b2' : Bd (Ieee.ofInt (-2)) 53 := bd_ofInt (by decide)
    have bc := b2'.mul hd (by omega)
    have e4 : Ieee.mul (Ieee.ofInt 4) (Ieee.ofInt (-(w : Int))) = Ieee.ofInt (4 * -(w : Int)) := mul_ofInt (by decide) (by omega) (by omega) (by omega)
    have e2 : Ieee.mul (Ieee.ofInt 2) (Ieee.ofInt w) = Ieee.ofInt (2 * (w : Int)) := mul_ofInt (by decide) (by omega) (by omega) (by omega)
    rw [e4, e2]
    have m2 : magVal (f64Mag (Ieee.ofInt (-2))) = 2 * unit := by rw [mag_ofInt (by decide), (rnd_nat _ (by decide)).2, show (-2 : Int).natAbs = 2 from rfl]
    have mw : magVal (f64Mag (Ieee.ofInt w)) = w * unit := by rw [mag_ofInt (by omega), (rnd_nat _ (by omega)).2, Int.natAbs_natCast]
    have m4 : magVal (f64Mag (Ieee.ofInt (4 * -(w : Int)))) = 4 * w * unit := by
      have : (4 * -(w : Int)).natAbs = 4 * w := by omega
      rw [mag_ofInt (by omega), (rnd_nat _ (by omega)).2, this]
    have mb : magVal (f64Mag (Ieee.ofInt (2 * (w : Int)))) = 2 * w * unit := by
      have : (2 * (w : Int)).natAbs = 2 * w := by omega
      rw [mag_ofInt (by omega), (rnd_nat _ (by omega)).2, this]
    have md : magVal (f64Mag (Ieee.sub t (half (2 * T - w)))) ≤ w * hunit := by
      rw [val_half (by omega), ← Int.natAbs_of_nonneg d2] at d3
      rw [← val_abs]
      exact Int.ofNat_le.mp d3
    have mc : magVal (f64Mag (Ieee.mul (Ieee.ofInt (-2)) (Ieee.sub t (half (2 * T - w))))) ≤ w * unit := by
      rw [← val_abs, val_mul_abs b2'.1 hd.1, m2, ← mw]
      apply magVal_le
      have h1 : 2 * unit * magVal (f64Mag (Ieee.sub t (half (2 * T - w)))) ≤ magVal (f64Mag (Ieee.ofInt w)) * unit := by
        rw [mw]
        calc 2 * unit * magVal (f64Mag (Ieee.sub t (half (2 * T - w)))) ≤ 2 * unit * (w * hunit) := Nat.mul_le_mul_left _ md
          _ = w * (2 * hunit) * unit := by ring
          _ = w * unit * unit := by rw [← unit_half]
      have := rnd_mono unit_pos unit_pos (Nat.mul_le_mul_right unit h1)
      rwa [rnd_exact _ _ unit_pos (Nat.le_of_lt (finite_ofInt (i := (w : Int)) (by omega)))] at this
    have f4 : Ieee.Finite (Ieee.ofInt (4 * -(w : Int))) := finite_ofInt (by omega)
    have fb : Ieee.Finite (Ieee.ofInt (2 * (w : Int))) := finite_ofInt (by omega)
    have a1 := val_mul_abs f4 bc.1
    have a2 := val_mul_abs fb fb
    have n2 : 0 ≤ val (Ieee.mul (Ieee.ofInt (2 * (w : Int))) (Ieee.ofInt (2 * (w : Int)))) := by
      have : 0 ≤ val (Ieee.ofInt (2 * (w : Int))) := by rw [val_ofInt (by omega)]; exact Int.mul_nonneg (by omega) (by omega)
      exact mul_nonneg' fb fb this this
    have hle : (val (Ieee.mul (Ieee.ofInt (4 * -(w : Int))) (Ieee.mul (Ieee.ofInt (-2)) (Ieee.sub t (half (2 * T - w)))))).natAbs ≤
        (val (Ieee.mul (Ieee.ofInt (2 * (w : Int))) (Ieee.ofInt (2 * (w : Int))))).natAbs := by
      rw [a1, a2, m4, mb]
      apply magVal_le
      apply rnd_mono unit_pos unit_pos
      apply Nat.mul_le_mul_right
      calc 4 * w * unit * magVal (f64Mag (Ieee.mul (Ieee.ofInt (-2)) (Ieee.sub t (half (2 * T - w))))) ≤ 4 * w * unit * (w * unit) := Nat.mul_le_mul_left _ mc
        _ = 2 * w * unit * (2 * w * unit) := by ring
    rw [← Int.natAbs_of_nonneg n2]
    exact Int.le_trans Int.le_natAbs (Int.ofNat_le.mpr hle)
end Verif.Sketch
