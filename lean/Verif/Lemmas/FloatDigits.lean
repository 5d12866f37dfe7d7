import Verif.Go.FloatText
import Verif.Lemmas.IeeeRound
/-
The digits of floats: seventeen digits are enough, the digits found are read back, and there are no shorter ones.
-/
set_option autoImplicit false
namespace Verif.FloatText
open Ieee

/-! ### Fractions -/

theorem scaled_pos {b : Nat} (hb : 0 < b) (m : Nat) (e : Int) : 0 < (scaled b m e).2 := by
  unfold scaled; split
  · exact Nat.one_pos
  · exact Nat.pow_pos hb

/-- one fraction is not above another -/
def LeQ (p q : Nat × Nat) : Prop := p.1 * q.2 ≤ q.1 * p.2

theorem rnd_congr {n d n' d' : Nat} (hd : 0 < d) (hd' : 0 < d') (h : n * d' = n' * d) : rnd n d = rnd n' d' :=
  Nat.le_antisymm (rnd_mono hd hd' (Nat.le_of_eq h)) (rnd_mono hd' hd (Nat.le_of_eq h.symm))

theorem key_mono {b m b' m' : Nat} {e e' : Int} (hb : 0 < b) (hb' : 0 < b') (h : LeQ (scaled b m e) (scaled b' m' e')) : key b m e ≤ key b' m' e' := by
  unfold key
  refine rnd_mono (scaled_pos hb _ _) (scaled_pos hb' _ _) ?_
  unfold LeQ at h
  rw [Nat.mul_right_comm, Nat.mul_right_comm _ unit]
  exact Nat.mul_le_mul_right _ h

theorem key_congr {b m b' m' : Nat} {e e' : Int} (hb : 0 < b) (hb' : 0 < b') (h : (scaled b m e).1 * (scaled b' m' e').2 = (scaled b' m' e').1 * (scaled b m e).2) :
    key b m e = key b' m' e' :=
  Nat.le_antisymm (key_mono hb hb' (Nat.le_of_eq h)) (key_mono hb' hb (Nat.le_of_eq h.symm))

/-- digits may be moved between the number and the exponent -/
theorem scaled_shift (b m : Nat) (e : Int) (j : Nat) : (scaled b (m * b ^ j) (e - j)).1 * (scaled b m e).2 = (scaled b m e).1 * (scaled b (m * b ^ j) (e - j)).2 := by
  unfold scaled
  by_cases h1 : 0 ≤ e
  · by_cases h2 : 0 ≤ e - j
    · simp only [h1, h2, if_true, Nat.mul_one]
      rw [Nat.mul_assoc, ← Nat.pow_add]
      congr 2; omega
    · simp only [h1, h2, if_true, if_false, Nat.mul_one]
      rw [Nat.mul_assoc, ← Nat.pow_add]
      congr 2; omega
  · have h2 : ¬ 0 ≤ e - j := by omega
    simp only [h1, h2, if_false]
    rw [Nat.mul_assoc, ← Nat.pow_add]
    congr 2; omega

theorem key_shift (m : Nat) (e : Int) (j : Nat) : key 10 (m * 10 ^ j) (e - j) = key 10 m e :=
  key_congr (by decide) (by decide) (scaled_shift 10 m e j)

theorem key_zero (b : Nat) (hb : 0 < b) (e : Int) : key b 0 e = 0 := by
  have : (scaled b 0 e).1 = 0 := by unfold scaled; split <;> simp
  unfold key
  rw [this, Nat.zero_mul]
  have h := rnd_exact 0 (scaled b 0 e).2 (scaled_pos hb _ _) (Nat.zero_le _)
  rwa [magVal_small (by decide), Nat.zero_mul] at h

/-! ### Numbers of digits -/

theorem fmtNatF_len (f n : Nat) (h : n ≤ f) : n < 10 ^ (fmtNatF f n).length ∧ (0 < n → 10 ^ ((fmtNatF f n).length - 1) ≤ n) := by
  induction f generalizing n with
  | zero =>
    have : n = 0 := by omega
    subst this; decide
  | succ f ih =>
    simp only [fmtNatF]
    split
    · simp only [List.length_singleton]; omega
    · rename_i h10
      obtain ⟨a, b⟩ := ih (n / 10) (by omega)
      have b := b (by omega)
      have hne := fmtNatF_ne_nil f (n / 10)
      obtain ⟨l, hl⟩ : ∃ l, (fmtNatF f (n / 10)).length = l + 1 := by
        cases hh : fmtNatF f (n / 10) with
        | nil => exact absurd hh hne
        | cons c t => exact ⟨t.length, rfl⟩
      rw [hl] at a b
      simp only [List.length_append, List.length_singleton, hl, Nat.add_sub_cancel] at b ⊢
      rw [Nat.pow_succ] at a
      rw [Nat.pow_succ, Nat.pow_succ]
      omega

theorem fmtNat_len (n : Nat) : n < 10 ^ (fmtNat n).length ∧ (0 < n → 10 ^ ((fmtNat n).length - 1) ≤ n) := fmtNatF_len n n (Nat.le_refl n)

theorem fmtNat_len_pos (n : Nat) : 0 < (fmtNat n).length := List.length_pos_of_ne_nil (fmtNatF_ne_nil _ _)

theorem fmtNat_len_le {n l : Nat} (hl : 0 < l) (h : n < 10 ^ l) : (fmtNat n).length ≤ l := by
  rcases Nat.eq_zero_or_pos n with rfl | hp
  · exact hl
  · have h1 := (fmtNat_len n).2 hp
    rcases Nat.lt_or_ge l (fmtNat n).length with h2 | h2
    · have := Nat.pow_le_pow_right (n := 10) (by decide) (show l ≤ (fmtNat n).length - 1 by omega)
      omega
    · exact h2

/-! ### Gaps between floats -/

/-- the gap below a float is at least the 2^53rd part of it -/
theorem gap_below (k : Nat) : magVal (k + 1) ≤ 2 ^ 53 * (magVal (k + 1) - magVal k) := by
  rcases key_cases k with h | ⟨t, m, h1, h2, rfl⟩
  · rw [magVal_small (show k ≤ 2 ^ 53 by omega), magVal_small (show k + 1 ≤ 2 ^ 53 by omega)]
    omega
  · rw [magVal_step t m h1 h2, magVal_normal t m h1 h2]
    have : (m + 1) * 2 ^ t - m * 2 ^ t = 2 ^ t := by rw [Nat.add_mul, Nat.one_mul, Nat.add_sub_cancel_left]
    rw [this]
    exact Nat.mul_le_mul_right _ (by omega)

theorem gap_above (k : Nat) : magVal k ≤ 2 ^ 53 * (magVal (k + 1) - magVal k) := Nat.le_trans (Nat.le_of_lt (magVal_succ k)) (gap_below k)

attribute [local irreducible] near magVal unit infKey

/-- a number that differs from a float by less than the 2^54th part of the float is read as it -/
theorem rnd_close {num den k : Nat} (hd : 0 < den) (hk : 0 < k) (hi : k < infKey)
    (h1 : 2 ^ 54 * (magVal k * den) < 2 ^ 54 * num + magVal k * den) (h2 : 2 ^ 54 * num < 2 ^ 54 * (magVal k * den) + magVal k * den) : rnd num den = k := by
  obtain ⟨j, rfl⟩ : ∃ j, k = j + 1 := ⟨k - 1, by omega⟩
  have a := near_above num den hd j
  have b := near_above num den hd (j + 1)
  have g1 := Nat.mul_le_mul_right den (gap_below j)
  have g2 := Nat.mul_le_mul_right den (gap_above (j + 1))
  have l1 := Nat.mul_lt_mul_of_pos_right (magVal_succ j) hd
  have l2 := Nat.mul_lt_mul_of_pos_right (magVal_succ (j + 1)) hd
  rw [Nat.mul_assoc, Nat.sub_mul] at g1 g2
  have e1 : mid j * den = magVal j * den + magVal (j + 1) * den := Nat.add_mul _ _ _
  have e2 : mid (j + 1) * den = magVal (j + 1) * den + magVal (j + 1 + 1) * den := Nat.add_mul _ _ _
  rw [rnd_near]
  generalize magVal j * den = x at *
  generalize magVal (j + 1) * den = y at *
  generalize magVal (j + 1 + 1) * den = z at *
  have : j + 1 ≤ near num den := a.2 (.inl (by omega))
  have : ¬ j + 1 + 1 ≤ near num den := fun h => by
    rcases b.1 h with h | h <;> omega
  omega

/-! ### The grid of `n` digits -/

theorem unit_small : unit < 10 ^ 400 := by unfold unit; decide +kernel

theorem magVal_pos {k : Nat} (h : 0 < k) : 0 < magVal k := by
  have := magVal_lt h
  omega

theorem places_spec {k : Nat} (hk : 0 < k) : 0 < places k ∧ 10 ^ (places k - 1) * unit ≤ magVal k * 10 ^ 400 ∧ magVal k * 10 ^ 400 < 10 ^ places k * unit := by
  obtain ⟨a, b⟩ := fmtNat_len (magVal k * 10 ^ 400 / unit)
  have hq : 0 < magVal k * 10 ^ 400 / unit := by
    refine Nat.div_pos ?_ unit_pos
    have := Nat.mul_le_mul_right (10 ^ 400) (show 1 ≤ magVal k from magVal_pos hk)
    have := unit_small
    omega
  exact ⟨fmtNat_len_pos _, (Nat.le_div_iff_mul_le unit_pos).1 (b hq), (Nat.div_lt_iff_lt_mul unit_pos).1 a⟩

theorem inUnits_pos (k n : Nat) : 0 < (inUnits k n).2 := by
  unfold inUnits; split
  · exact unit_pos
  · exact Nat.mul_pos unit_pos (Nat.pow_pos (by decide))

/-- cut after `n` digits, there are `n` digits -/
theorem inUnits_bounds {k n : Nat} (hk : 0 < k) (hn : 0 < n) : 10 ^ (n - 1) * (inUnits k n).2 ≤ (inUnits k n).1 ∧ (inUnits k n).1 < 10 ^ n * (inUnits k n).2 := by
  obtain ⟨hp, h1, h2⟩ := places_spec hk
  unfold inUnits
  generalize places k = P at *
  generalize magVal k = N at *
  generalize unit = U at *
  split
  · rename_i h
    have e : 10 ^ P * 10 ^ (400 + n - P) = 10 ^ 400 * 10 ^ n := by rw [← Nat.pow_add, ← Nat.pow_add]; congr 1; omega
    have e' : 10 ^ (P - 1) * 10 ^ n = 10 ^ P * 10 ^ (n - 1) := by rw [← Nat.pow_add, ← Nat.pow_add]; congr 1; omega
    constructor
    · refine Nat.le_of_mul_le_mul_left (c := 10 ^ P) ?_ (Nat.pow_pos (by decide))
      calc 10 ^ P * (10 ^ (n - 1) * U) = 10 ^ (P - 1) * U * 10 ^ n := by rw [← Nat.mul_assoc, ← e', Nat.mul_right_comm]
        _ ≤ N * 10 ^ 400 * 10 ^ n := Nat.mul_le_mul_right _ h1
        _ = 10 ^ P * (N * 10 ^ (400 + n - P)) := by rw [Nat.mul_assoc, ← e, Nat.mul_left_comm]
    · refine Nat.lt_of_mul_lt_mul_left (a := 10 ^ P) ?_
      calc 10 ^ P * (N * 10 ^ (400 + n - P)) = N * 10 ^ 400 * 10 ^ n := by rw [Nat.mul_left_comm, e, Nat.mul_assoc]
        _ < 10 ^ P * U * 10 ^ n := Nat.mul_lt_mul_of_pos_right h2 (Nat.pow_pos (by decide))
        _ = 10 ^ P * (10 ^ n * U) := by rw [Nat.mul_assoc, Nat.mul_comm U]
  · rename_i h
    have e : 10 ^ (n - 1) * 10 ^ (P - (400 + n)) * 10 ^ 400 = 10 ^ (P - 1) := by rw [← Nat.pow_add, ← Nat.pow_add]; congr 1; omega
    have e' : 10 ^ n * 10 ^ (P - (400 + n)) * 10 ^ 400 = 10 ^ P := by rw [← Nat.pow_add, ← Nat.pow_add]; congr 1; omega
    constructor
    · refine Nat.le_of_mul_le_mul_right (c := 10 ^ 400) ?_ (Nat.pow_pos (by decide))
      calc 10 ^ (n - 1) * (U * 10 ^ (P - (400 + n))) * 10 ^ 400 = 10 ^ (n - 1) * 10 ^ (P - (400 + n)) * 10 ^ 400 * U := by
            rw [Nat.mul_comm U, ← Nat.mul_assoc, Nat.mul_right_comm]
        _ = 10 ^ (P - 1) * U := by rw [e]
        _ ≤ _ := h1
    · refine Nat.lt_of_mul_lt_mul_right (a := 10 ^ 400) ?_
      calc N * 10 ^ 400 < 10 ^ P * U := h2
        _ = 10 ^ n * 10 ^ (P - (400 + n)) * 10 ^ 400 * U := by rw [e']
        _ = 10 ^ n * (U * 10 ^ (P - (400 + n))) * 10 ^ 400 := by rw [Nat.mul_comm U, ← Nat.mul_assoc, Nat.mul_right_comm]

/-- numbers with the exponent of the grid, in the unit of the float -/
theorem scaled_grid (k n q : Nat) : (scaled 10 q (lastExp k n)).1 * unit = q * (inUnits k n).2 ∧ magVal k * (scaled 10 q (lastExp k n)).2 = (inUnits k n).1 := by
  unfold scaled lastExp inUnits
  generalize places k = P
  by_cases h : P ≤ 400 + n
  · by_cases h' : P = 400 + n
    · subst h'
      simp
    · have h0 : ¬ (0 : Int) ≤ (P : Int) - (400 + n : Nat) := by omega
      simp only [h, h0, if_true, if_false]
      refine ⟨trivial, ?_⟩
      congr 2; omega
  · have h0 : (0 : Int) ≤ (P : Int) - (400 + n : Nat) := by omega
    simp only [h, h0, if_true, if_false, Nat.mul_one]
    refine ⟨?_, trivial⟩
    have : ((P : Int) - (400 + n : Nat)).toNat = P - (400 + n) := by omega
    rw [this, Nat.mul_assoc, Nat.mul_comm unit]

theorem key_grid (k n q : Nat) : key 10 q (lastExp k n) = rnd (q * (inUnits k n).2) (scaled 10 q (lastExp k n)).2 := by
  unfold key; rw [(scaled_grid k n q).1]

/-- numbers of the grid below the float are not read as something above it, and the other way round -/
theorem grid_le {k n q : Nat} (hi : k < infKey) (h : q * (inUnits k n).2 ≤ (inUnits k n).1) : key 10 q (lastExp k n) ≤ k := by
  rw [key_grid]
  have hp := scaled_pos (b := 10) (by decide) q (lastExp k n)
  have e := rnd_exact k (scaled 10 q (lastExp k n)).2 hp (Nat.le_of_lt hi)
  rw [(scaled_grid k n q).2] at e
  calc _ ≤ rnd (inUnits k n).1 (scaled 10 q (lastExp k n)).2 := rnd_mono hp hp (Nat.mul_le_mul_right _ h)
    _ = k := e

theorem grid_ge {k n q : Nat} (hi : k < infKey) (h : (inUnits k n).1 ≤ q * (inUnits k n).2) : k ≤ key 10 q (lastExp k n) := by
  rw [key_grid]
  have hp := scaled_pos (b := 10) (by decide) q (lastExp k n)
  have e := rnd_exact k (scaled 10 q (lastExp k n)).2 hp (Nat.le_of_lt hi)
  rw [(scaled_grid k n q).2] at e
  calc k = rnd (inUnits k n).1 (scaled 10 q (lastExp k n)).2 := e.symm
    _ ≤ _ := rnd_mono hp hp (Nat.mul_le_mul_right _ h)

theorem key_mono_m {b m m' : Nat} (hb : 0 < b) (e : Int) (h : m ≤ m') : key b m e ≤ key b m' e := by
  refine key_mono hb hb ?_
  unfold LeQ scaled
  split
  · simp only [Nat.mul_one]; exact Nat.mul_le_mul_right _ h
  · exact Nat.mul_le_mul_right _ h

theorem div_bounds (a b : Nat) (hb : 0 < b) : a / b * b ≤ a ∧ a < (a / b + 1) * b :=
  ⟨Nat.div_mul_le_self a b, by have := Nat.lt_div_mul_add (a := a) hb; rw [Nat.add_mul, Nat.one_mul]; exact this⟩

/-- any number with at most `n` digits which is read as the float lies below both or above both neighbours on the grid, which then will do -/
theorem grid_sides {k n m : Nat} {e : Int} (hk : 0 < k) (hn : 0 < n) (hm : m < 10 ^ n) (h : key 10 m e = k) :
    (∃ j M, e = lastExp k n + (j : Nat) ∧ M = m * 10 ^ j ∧ key 10 M (lastExp k n) = k) ∨
      (∃ j, lastExp k n = e + (j : Nat) ∧ m ≤ (inUnits k n).1 / (inUnits k n).2 * 10 ^ j ∧ k ≤ key 10 ((inUnits k n).1 / (inUnits k n).2) (lastExp k n)) := by
  have hd := inUnits_pos k n
  have hq : 10 ^ (n - 1) ≤ (inUnits k n).1 / (inUnits k n).2 := (Nat.le_div_iff_mul_le hd).2 (inUnits_bounds hk hn).1
  generalize (inUnits k n).1 / (inUnits k n).2 = q at *
  generalize lastExp k n = E at *
  by_cases he : E ≤ e
  · obtain ⟨j, hj⟩ : ∃ j : Nat, e = E + j := ⟨(e - E).toNat, by omega⟩
    left
    refine ⟨j, m * 10 ^ j, hj, rfl, ?_⟩
    have := key_shift m e j
    rw [show e - (j : Int) = E by omega] at this
    rw [this, h]
  · obtain ⟨j, hj⟩ : ∃ j : Nat, E = e + ((j + 1 : Nat) : Int) := ⟨(E - e - 1).toNat, by omega⟩
    right
    have hle : m ≤ q * 10 ^ (j + 1) := by
      have h1 : 10 ^ n = 10 ^ (n - 1) * 10 := by rw [← Nat.pow_succ]; congr 1; omega
      have h2 : 10 ≤ 10 ^ (j + 1) := by rw [Nat.pow_succ]; have := Nat.pow_pos (n := j) (a := 10) (by decide); omega
      have := Nat.mul_le_mul hq h2
      omega
    refine ⟨j + 1, hj, hle, ?_⟩
    have := key_shift q E (j + 1)
    rw [show E - ((j + 1 : Nat) : Int) = e by omega] at this
    rw [← this, ← h]
    exact key_mono_m (by decide) e hle

theorem pick_of_side {k n : Nat} (h : key 10 ((inUnits k n).1 / (inUnits k n).2) (lastExp k n) = k ∨ key 10 ((inUnits k n).1 / (inUnits k n).2 + 1) (lastExp k n) = k) :
    ∃ r, pick k n = some r := by
  unfold pick
  simp only
  by_cases h1 : key 10 ((inUnits k n).1 / (inUnits k n).2) (lastExp k n) = k
  · simp only [h1, if_true]
    split
    · split
      · exact ⟨_, rfl⟩
      · split
        · exact ⟨_, rfl⟩
        · split
          · exact ⟨_, rfl⟩
          · exact ⟨_, rfl⟩
    · exact ⟨_, rfl⟩
  · have h2 := h.resolve_left h1
    simp only [h1, h2, if_true, if_false]
    exact ⟨_, rfl⟩

theorem sides_of {k n m : Nat} {e : Int} (hk : 0 < k) (hi : k < infKey) (hn : 0 < n) (hm : m < 10 ^ n) (h : key 10 m e = k) :
    key 10 ((inUnits k n).1 / (inUnits k n).2) (lastExp k n) = k ∨ key 10 ((inUnits k n).1 / (inUnits k n).2 + 1) (lastExp k n) = k := by
  have hd := inUnits_pos k n
  obtain ⟨b1, b2⟩ := div_bounds (inUnits k n).1 (inUnits k n).2 hd
  have l := grid_le hi b1
  have g := grid_ge hi (Nat.le_of_lt b2)
  rcases grid_sides hk hn hm h with ⟨j, M, _, rfl, hM⟩ | ⟨j, _, _, hq⟩
  · rcases Nat.lt_or_ge ((inUnits k n).1 / (inUnits k n).2) (m * 10 ^ j) with hlt | hge
    · right
      refine Nat.le_antisymm ?_ g
      calc key 10 ((inUnits k n).1 / (inUnits k n).2 + 1) (lastExp k n) ≤ key 10 (m * 10 ^ j) (lastExp k n) := key_mono_m (by decide) _ hlt
        _ = k := hM
    · left
      refine Nat.le_antisymm l ?_
      calc k = key 10 (m * 10 ^ j) (lastExp k n) := hM.symm
        _ ≤ _ := key_mono_m (by decide) _ hge
  · exact .inl (Nat.le_antisymm l hq)

/-- seventeen digits are enough -/
theorem pick_17 {k : Nat} (hk : 0 < k) (hi : k < infKey) : ∃ r, pick k 17 = some r := by
  apply pick_of_side
  have hd := inUnits_pos k 17
  obtain ⟨b1, b2⟩ := div_bounds (inUnits k 17).1 (inUnits k 17).2 hd
  have hb := (inUnits_bounds (n := 17) hk (by decide)).1
  have main : ∀ c, 2 * (inUnits k 17).1 ≤ 2 * (c * (inUnits k 17).2) + (inUnits k 17).2 → 2 * (c * (inUnits k 17).2) ≤ 2 * (inUnits k 17).1 + (inUnits k 17).2 →
      key 10 c (lastExp k 17) = k := by
    intro c h1 h2
    rw [key_grid]
    have hp := scaled_pos (b := 10) (by decide) c (lastExp k 17)
    refine rnd_close hp hk hi ?_ ?_
    · rw [(scaled_grid k 17 c).2]
      generalize c * (inUnits k 17).2 = x at *
      generalize (inUnits k 17).1 = V at *
      generalize (inUnits k 17).2 = D at *
      simp only [Nat.reduceSub, Nat.reducePow] at hb ⊢
      omega
    · rw [(scaled_grid k 17 c).2]
      generalize c * (inUnits k 17).2 = x at *
      generalize (inUnits k 17).1 = V at *
      generalize (inUnits k 17).2 = D at *
      simp only [Nat.reduceSub, Nat.reducePow] at hb ⊢
      omega
  rw [Nat.add_mul, Nat.one_mul] at b2
  by_cases hh : 2 * (inUnits k 17).1 ≤ 2 * ((inUnits k 17).1 / (inUnits k 17).2 * (inUnits k 17).2) + (inUnits k 17).2
  · exact .inl (main _ hh (by omega))
  · exact .inr (main _ (by rw [Nat.add_mul, Nat.one_mul]; omega) (by rw [Nat.add_mul, Nat.one_mul]; omega))

theorem pick_sound {k n : Nat} {r : Nat × Int} (h : pick k n = some r) :
    key 10 r.1 r.2 = k ∧ r.2 = lastExp k n ∧ (r.1 = (inUnits k n).1 / (inUnits k n).2 ∨ r.1 = (inUnits k n).1 / (inUnits k n).2 + 1) := by
  unfold pick at h
  simp only at h
  by_cases h1 : key 10 ((inUnits k n).1 / (inUnits k n).2) (lastExp k n) = k
  · by_cases h2 : key 10 ((inUnits k n).1 / (inUnits k n).2 + 1) (lastExp k n) = k
    · simp only [h1, h2, if_true] at h
      split at h
      · cases h; exact ⟨h1, rfl, .inl rfl⟩
      · split at h
        · cases h; exact ⟨h2, rfl, .inr rfl⟩
        · split at h
          · cases h; exact ⟨h1, rfl, .inl rfl⟩
          · cases h; exact ⟨h2, rfl, .inr rfl⟩
    · simp only [h1, h2, if_true, if_false] at h
      cases h; exact ⟨h1, rfl, .inl rfl⟩
  · by_cases h2 : key 10 ((inUnits k n).1 / (inUnits k n).2 + 1) (lastExp k n) = k
    · simp only [h1, h2, if_true, if_false] at h
      cases h; exact ⟨h2, rfl, .inr rfl⟩
    · simp only [h1, h2, if_false] at h
      cases h

theorem search_spec (p : Nat → Option (Nat × Int)) : ∀ (f n : Nat), (∃ n', n ≤ n' ∧ n' < n + f ∧ ∃ r, p n' = some r) →
    ∃ n', n ≤ n' ∧ n' < n + f ∧ p n' = some (search p f n) ∧ ∀ i, n ≤ i → i < n' → p i = none
  | 0, n, h => by obtain ⟨n', a, b, _⟩ := h; omega
  | f + 1, n, h => by
    cases hp : p n with
    | some r => exact ⟨n, Nat.le_refl _, by omega, by simp only [search, hp], fun i _ _ => by omega⟩
    | none =>
      obtain ⟨n', a, b, r, hr⟩ := h
      have hne : n' ≠ n := by rintro rfl; rw [hp] at hr; cases hr
      obtain ⟨n'', a', b', c', d'⟩ := search_spec p f (n + 1) ⟨n', by omega, by omega, r, hr⟩
      refine ⟨n'', by omega, by omega, by simp only [search, hp]; exact c', fun i h1 h2 => ?_⟩
      rcases Nat.eq_or_lt_of_le h1 with rfl | h1
      · exact hp
      · exact d' i h1 h2

theorem strip_spec : ∀ (f : Nat) (r : Nat × Int), 0 < r.1 → r.1 < 10 ^ (f + 1) → ∃ j : Nat, r.1 = (strip f r).1 * 10 ^ j ∧ (strip f r).2 = r.2 + j ∧ (strip f r).1 % 10 ≠ 0
  | 0, r, h0, h1 => ⟨0, by simp [strip], by simp [strip], by simp only [strip]; omega⟩
  | f + 1, r, h0, h1 => by
    simp only [strip]
    by_cases h : r.1 % 10 = 0
    · rw [if_pos h]
      have h2 : r.1 / 10 < 10 ^ (f + 1) := by rw [Nat.pow_succ] at h1; omega
      obtain ⟨j, a, b, c⟩ := strip_spec f (r.1 / 10, r.2 + 1) (by simp only; omega) h2
      refine ⟨j + 1, ?_, ?_, c⟩
      · simp only at a
        rw [Nat.pow_succ, ← Nat.mul_assoc, ← a]; omega
      · rw [b]; simp only; omega
    · rw [if_neg h]; exact ⟨0, by simp, by simp, h⟩

/-- what is found: digits that are read back, not ending in zero, as few as there can be -/
theorem shortest_spec {k : Nat} (hk : 0 < k) (hi : k < infKey) :
    key 10 (shortest k).1 (shortest k).2 = k ∧ (shortest k).1 % 10 ≠ 0 ∧ (shortest k).1 < 10 ^ 17 ∧
      ∃ n, 0 < n ∧ n ≤ 17 ∧ (shortest k).1 < 10 ^ n ∧ pick k n = some (search (pick k) 17 1) ∧ (∃ j : Nat, (search (pick k) 17 1).1 = (shortest k).1 * 10 ^ j ∧ (shortest k).2 = (search (pick k) 17 1).2 + j) ∧
        ∀ i, 0 < i → i < n → pick k i = none := by
  obtain ⟨n, h1, h2, hp, hmin⟩ := search_spec (pick k) 17 1 ⟨17, by decide, by decide, pick_17 hk hi⟩
  obtain ⟨hkey, hexp, hq⟩ := pick_sound hp
  have hd := inUnits_pos k n
  have hq' : (inUnits k n).1 / (inUnits k n).2 < 10 ^ n := (Nat.div_lt_iff_lt_mul hd).2 (inUnits_bounds hk h1).2
  have hpos : 0 < (search (pick k) 17 1).1 := by
    rcases Nat.eq_zero_or_pos (search (pick k) 17 1).1 with h0 | h0
    · rw [h0, key_zero 10 (by decide)] at hkey; omega
    · exact h0
  have hle : (search (pick k) 17 1).1 ≤ 10 ^ n := by rcases hq with h | h <;> omega
  have hlt : (search (pick k) 17 1).1 < 10 ^ 18 := by
    have := Nat.pow_le_pow_right (n := 10) (by decide) (show n ≤ 17 by omega)
    have : (10 : Nat) ^ 17 < 10 ^ 18 := by decide
    omega
  obtain ⟨j, a, b, c⟩ := strip_spec 17 (search (pick k) 17 1) hpos hlt
  have hs : shortest k = strip 17 (search (pick k) 17 1) := rfl
  rw [← hs] at a b c
  have hm : (shortest k).1 < 10 ^ n := by
    have : (shortest k).1 ≤ (search (pick k) 17 1).1 := by rw [a]; exact Nat.le_mul_of_pos_right _ (Nat.pow_pos (by decide))
    rcases Nat.lt_or_ge (shortest k).1 (10 ^ n) with h | h
    · exact h
    · exfalso
      have e : (shortest k).1 = 10 ^ n := by omega
      obtain ⟨n, rfl⟩ : ∃ i, n = i + 1 := ⟨n - 1, by omega⟩
      rw [Nat.pow_succ] at e
      omega
  refine ⟨?_, c, ?_, n, h1, by omega, hm, hp, ⟨j, a, b⟩, fun i hi' hi'' => hmin i hi' hi''⟩
  · have := key_shift (shortest k).1 (shortest k).2 j
    rw [← a, b, show (search (pick k) 17 1).2 + (j : Int) - j = (search (pick k) 17 1).2 by omega, hkey] at this
    rw [b]; exact this.symm
  · have := Nat.pow_le_pow_right (n := 10) (by decide) (show n ≤ 17 by omega)
    omega

theorem shortest_minimal {k : Nat} (hk : 0 < k) (hi : k < infKey) {m : Nat} {e : Int} (h : key 10 m e = k) :
    (fmtNat (shortest k).1).length ≤ (fmtNat m).length := by
  obtain ⟨_, _, _, n, h1, h2, hm, _, _, hmin⟩ := shortest_spec hk hi
  have hl : n ≤ (fmtNat m).length := by
    rcases Nat.lt_or_ge (fmtNat m).length n with hlt | hge
    · obtain ⟨r, hr⟩ := pick_of_side (sides_of hk hi (fmtNat_len_pos m) (fmtNat_len m).1 h)
      rw [hmin _ (fmtNat_len_pos m) hlt] at hr
      cases hr
    · exact hge
  exact Nat.le_trans (fmtNat_len_le h1 hm) hl

end Verif.FloatText
