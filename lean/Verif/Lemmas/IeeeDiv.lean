import Verif.Lemmas.Ieee
/-
Quotients of whole numbers are rounded to the nearest float64.
-/
set_option autoImplicit false
namespace Verif.Ieee

/-- no magnitude is closer than the rounded one -/
theorem near_nearest (num den : Nat) (hd : 0 < den) (j : Nat) :
    ((magVal (near num den) : Int) * den - num).natAbs ≤ ((magVal j : Int) * den - num).natAbs := by
  generalize hr : near num den = r
  have e : ∀ k : Nat, ((magVal k : Int) * den - num) = ((magVal k * den : Nat) : Int) - num := fun k => by rw [Int.natCast_mul]
  rw [e, e]
  rcases Nat.lt_trichotomy j r with h | rfl | h
  · obtain ⟨k, rfl⟩ : ∃ k, r = k + 1 := ⟨r - 1, by omega⟩
    have h1 := (near_above num den hd k).mp (by omega)
    have h2 : magVal j * den ≤ magVal k * den := Nat.mul_le_mul_right _ (magVal_le (by omega))
    have h3 : mid k * den = magVal k * den + magVal (k + 1) * den := Nat.add_mul _ _ _
    have h4 : magVal k * den ≤ magVal (k + 1) * den := Nat.mul_le_mul_right _ (magVal_le (by omega))
    generalize magVal j * den = a at *
    generalize magVal (k + 1) * den = b at *
    generalize magVal k * den = c at *
    generalize mid k * den = d at *
    omega
  · omega
  · have h1 := mt (near_above num den hd r).mpr (by omega)
    have h2 : magVal (r + 1) * den ≤ magVal j * den := Nat.mul_le_mul_right _ (magVal_le (by omega))
    have h3 : mid r * den = magVal r * den + magVal (r + 1) * den := Nat.add_mul _ _ _
    have h4 : magVal r * den ≤ magVal (r + 1) * den := Nat.mul_le_mul_right _ (magVal_le (by omega))
    generalize magVal j * den = a at *
    generalize magVal (r + 1) * den = b at *
    generalize magVal r * den = c at *
    generalize mid r * den = d at *
    omega

theorem near_scale (a b c : Nat) (hb : 0 < b) (hc : 0 < c) : near (a * c) (b * c) = near a b := by
  have h : ∀ k, k + 1 ≤ near (a * c) (b * c) ↔ k + 1 ≤ near a b := by
    intro k
    rw [near_above _ _ (Nat.mul_pos hb hc), near_above _ _ hb, ← Nat.mul_assoc, ← Nat.mul_assoc]
    constructor
    · rintro (h | ⟨h, h'⟩)
      · exact .inl (Nat.lt_of_mul_lt_mul_right h)
      · exact .inr ⟨Nat.eq_of_mul_eq_mul_right hc h, h'⟩
    · rintro (h | ⟨h, h'⟩)
      · exact .inl (Nat.mul_lt_mul_of_pos_right h hc)
      · exact .inr ⟨by rw [h], h'⟩
  have h1 := h (near a b)
  have h2 := h (near (a * c) (b * c))
  omega

attribute [local irreducible] near magVal unit infKey in
/-- the quotient of two whole numbers is the nearest float64 to it -/
theorem div_nearest {a : Int} {n : Nat} (ha : a.natAbs ≤ 2 ^ 53) (h1 : 1 ≤ n) (hn : n ≤ 2 ^ 53) :
    Finite (div (ofInt a) (ofInt n)) ∧
      ∀ y : UInt64, (val (div (ofInt a) (ofInt n)) * n - a * unit).natAbs ≤ (val y * n - a * unit).natAbs := by
  have hn' : (n : Int).natAbs ≤ 2 ^ 53 := hn
  have fa := finite_ofInt ha
  have fn := finite_ofInt hn'
  have hz : isZero (ofInt n) = false := by
    unfold isZero
    rw [mag_ofInt hn']
    rw [decide_eq_false_iff_not]
    intro h0
    have := (rnd_nat n hn).2
    rw [Int.natAbs_natCast] at h0
    rw [h0] at this
    have h2 : magVal 0 = 0 := magVal_small (by decide)
    rw [h2] at this
    have := Nat.mul_pos h1 unit_pos
    exact absurd this (by rw [← ‹0 = n * unit›]; exact Nat.lt_irrefl 0)
  have hneg : isNeg (ofInt n) = false := by rw [isNeg_ofInt hn']; exact decide_eq_false (by omega)
  have er : rnd (magVal (f64Mag (ofInt a)) * unit) (magVal (f64Mag (ofInt n))) = min infKey (near (a.natAbs * unit) n) := by
    rw [mag_ofInt ha, mag_ofInt hn', (rnd_nat _ ha).2, (rnd_nat _ hn').2, rnd_near, near_scale _ _ _ (by rw [Int.natAbs_natCast]; exact h1) unit_pos, Int.natAbs_natCast]
  have hlt : near (a.natAbs * unit) n < infKey := by
    have h2 : near (a.natAbs * unit) n ≤ near (a.natAbs * unit) 1 := near_mono h1 (by decide) (Nat.mul_le_mul_left _ h1)
    have h3 := (rnd_nat _ ha).1
    rw [rnd_near] at h3
    omega
  have ed : div (ofInt a) (ofInt n) = mk (decide (a < 0)) (near (a.natAbs * unit) n) := by
    unfold div
    simp only [fa.notNaN, fn.notNaN, fa.notInf, fn.notInf, hz, hneg, isNeg_ofInt ha, Bool.or_self, Bool.false_eq_true, if_false, er]
    rw [Nat.min_eq_right (Nat.le_of_lt hlt)]
    simp
  rw [ed]
  refine ⟨finite_mk _ hlt, fun y => ?_⟩
  rw [val_mk _ (Nat.lt_trans hlt infKey_lt)]
  have hb := near_nearest (a.natAbs * unit) n h1
  generalize near (a.natAbs * unit) n = r at *
  have hy : ∃ j : Nat, val y = magVal j ∨ val y = -(magVal j : Int) := by
    refine ⟨f64Mag y, ?_⟩
    unfold val
    split
    · exact .inr rfl
    · exact .inl rfl
  obtain ⟨j, hj⟩ := hy
  have hb := hb j
  rw [Int.natCast_mul] at hb
  have hm : 0 ≤ (magVal j : Int) * n := Int.mul_nonneg (Int.natCast_nonneg _) (Int.natCast_nonneg _)
  have hu : 0 ≤ (a.natAbs : Int) * unit := Int.mul_nonneg (Int.natCast_nonneg _) (Int.natCast_nonneg _)
  have e1 : val y * n = (magVal j : Int) * n ∨ val y * n = -((magVal j : Int) * n) := by
    rcases hj with h | h <;> rw [h]
    · exact .inl rfl
    · exact .inr (Int.neg_mul _ _)
  have e2 : (a < 0 ∧ a * unit = -((a.natAbs : Int) * unit)) ∨ (¬ a < 0 ∧ a * unit = (a.natAbs : Int) * unit) := by
    by_cases h : a < 0
    · left; refine ⟨h, ?_⟩; rw [← Int.neg_mul, Int.ofNat_natAbs_of_nonpos (Int.le_of_lt h), Int.neg_neg]
    · right; refine ⟨h, ?_⟩; rw [Int.natAbs_of_nonneg (Int.not_lt.mp h)]
  have e3 : (if (decide (a < 0)) = true then -(magVal r : Int) else magVal r) * n = if a < 0 then -((magVal r : Int) * n) else (magVal r : Int) * n := by
    by_cases h : a < 0
    · simp only [h, decide_true, if_true]; exact Int.neg_mul _ _
    · simp only [h, decide_false, Bool.false_eq_true, if_false]
  rw [e3]
  generalize val y * n = Y at *
  generalize (magVal j : Int) * n = J at *
  generalize (magVal r : Int) * n = R at *
  generalize (a.natAbs : Int) * unit = U at *
  generalize a * unit = A at *
  clear er ed hlt hj e3 hz fa fn
  split <;> omega

end Verif.Ieee
