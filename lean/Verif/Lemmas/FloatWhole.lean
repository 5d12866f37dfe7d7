import Verif.Lemmas.FloatWrite
import Verif.Lemmas.JsonParse
/-
Floats as JSON numbers: which of them are written as whole numbers, and which whole numbers these are.
-/
set_option autoImplicit false
namespace Verif.FloatText
open Ieee JsonG Json

theorem digit_mod (m : Nat) : digit (m * 10 % 10) = 48 := by
  rw [Nat.mul_mod_left]; rfl

theorem fmtNatF_stable (n : Nat) : ∀ f g, n ≤ f → n ≤ g → fmtNatF f n = fmtNatF g n := by
  induction n using Nat.strongRecOn with
  | _ n ih =>
    intro f g hf hg
    cases f with
    | zero =>
      have : n = 0 := by omega
      subst this
      cases g <;> rfl
    | succ f =>
      cases g with
      | zero =>
        have : n = 0 := by omega
        subst this; rfl
      | succ g =>
        simp only [fmtNatF]
        by_cases h : n < 10
        · simp [h]
        · simp only [h, if_false]
          rw [ih (n / 10) (by omega) f g (by omega) (by omega)]

theorem fmtNat_ten {m : Nat} (h : 0 < m) : fmtNat (m * 10) = fmtNat m ++ [48] := by
  unfold fmtNat
  rw [fmtNatF_stable (m * 10) (m * 10) (m * 10 + 1) (Nat.le_refl _) (by omega)]
  simp only [fmtNatF]
  rw [if_neg (by omega), digit_mod, Nat.mul_div_cancel _ (by decide), fmtNatF_stable m (m * 10) m (by omega) (Nat.le_refl _)]

theorem fmtNat_pow {m : Nat} (h : 0 < m) (j : Nat) : fmtNat (m * 10 ^ j) = fmtNat m ++ zeros j := by
  induction j with
  | zero => simp [zeros]
  | succ j ih =>
    rw [Nat.pow_succ, ← Nat.mul_assoc, fmtNat_ten (Nat.mul_pos h (Nat.pow_pos (by decide))), ih, List.append_assoc]
    unfold zeros
    rw [List.replicate_succ']

attribute [local irreducible] near magVal unit infKey shortest key

/-! ### Whole floats -/

theorem key_whole (w : Nat) : key 10 w 0 = rnd (w * unit) 1 := by
  unfold key scaled; simp

/-- a whole float is written without a fraction -/
theorem whole_exp {k v : Nat} (hk : 0 < k) (hi : k < infKey) (hv : magVal k = v * unit) : 0 ≤ (shortest k).2 := by
  have hvp : 0 < v := by
    rcases Nat.eq_zero_or_pos v with rfl | h
    · have := magVal_pos hk; omega
    · exact h
  have hkey : key 10 v 0 = k := by
    rw [key_whole, ← hv]
    have := rnd_exact k 1 (by decide) (Nat.le_of_lt hi)
    rwa [Nat.mul_one] at this
  obtain ⟨_, _, _, n, h1, h2, hm, hp, ⟨j, _, hj⟩, hmin⟩ := shortest_spec hk hi
  have hl : n ≤ (fmtNat v).length := by
    rcases Nat.lt_or_ge (fmtNat v).length n with hlt | hge
    · obtain ⟨r, hr⟩ := pick_of_side (sides_of hk hi (fmtNat_len_pos v) (fmtNat_len v).1 hkey)
      rw [hmin _ (fmtNat_len_pos v) hlt] at hr
      cases hr
    · exact hge
  have hpl : places k = (fmtNat v).length + 400 := by
    unfold places
    rw [hv, Nat.mul_right_comm, Nat.mul_div_cancel _ unit_pos, fmtNat_pow hvp, List.length_append]
    unfold zeros; rw [List.length_replicate]
  have := (pick_sound hp).2.1
  rw [hj, this]
  unfold lastExp
  rw [hpl]; omega

/-- floats from 2^53 on are whole -/
theorem whole_above {k : Nat} (h : 2 ^ 53 * unit ≤ magVal k) : ∃ v, magVal k = v * unit := by
  rcases key_cases k with h' | ⟨t, m, h1, h2, rfl⟩
  · rw [magVal_small (by omega)] at h
    have := Nat.le_mul_of_pos_right (2 ^ 53) unit_pos
    omega
  · rw [magVal_normal t m h1 h2] at h ⊢
    have ht : 1074 ≤ t := by
      rcases Nat.lt_or_ge t 1074 with hlt | hge
      · have e1 := Nat.pow_le_pow_right (n := 2) (by decide) (Nat.le_of_lt hlt)
        have e2 : unit = 2 ^ 1074 := by unfold unit; rfl
        rw [← e2] at e1
        have := Nat.mul_lt_mul_of_lt_of_le h2 e1 unit_pos
        omega
      · exact hge
    refine ⟨m * 2 ^ (t - 1074), ?_⟩
    have e2 : unit = 2 ^ 1074 := by unfold unit; rfl
    rw [e2, Nat.mul_assoc, ← Nat.pow_add, Nat.sub_add_cancel ht]

theorem key_mono_whole {a b : Nat} (h : a ≤ b) : rnd (a * unit) 1 ≤ rnd (b * unit) 1 :=
  rnd_mono (by decide) (by decide) (by rw [Nat.mul_one, Nat.mul_one]; exact Nat.mul_le_mul_right _ h)

/-- what is written without a fraction is whole -/
theorem exp_whole {k : Nat} (hk : 0 < k) (hi : k < infKey) (he : 0 ≤ (shortest k).2) :
    rnd ((shortest k).1 * 10 ^ (shortest k).2.toNat * unit) 1 = k ∧ ∃ v, magVal k = v * unit := by
  have h1 : rnd ((shortest k).1 * 10 ^ (shortest k).2.toNat * unit) 1 = k := by
    have := key_shift (shortest k).1 (shortest k).2 (shortest k).2.toNat
    rw [show (shortest k).2 - ((shortest k).2.toNat : Int) = 0 by omega, key_whole, (shortest_spec hk hi).1] at this
    exact this
  refine ⟨h1, ?_⟩
  generalize (shortest k).1 * 10 ^ (shortest k).2.toNat = w at *
  rcases Nat.le_total w (2 ^ 53) with hw | hw
  · exact ⟨w, by rw [← h1]; exact (rnd_nat w hw).2⟩
  · apply whole_above
    rw [← (rnd_nat (2 ^ 53) (Nat.le_refl _)).2]
    rw [← h1]
    exact magVal_le (key_mono_whole hw)

/-- the whole number written for a float is its value up to 2^53 -/
theorem whole_small {k v w : Nat} (hv : magVal k = v * unit) (hl : v < 2 ^ 53) (h : rnd (w * unit) 1 = k) : w = v := by
  rcases Nat.lt_or_ge w (2 ^ 53) with hw | hw
  · have := (rnd_nat w (Nat.le_of_lt hw)).2
    rw [h, hv] at this
    exact (Nat.eq_of_mul_eq_mul_right unit_pos this).symm
  · have := magVal_le (key_mono_whole hw)
    rw [(rnd_nat (2 ^ 53) (Nat.le_refl _)).2, h, hv] at this
    have := Nat.le_of_mul_le_mul_right this unit_pos
    omega

theorem two63 : magVal (1086 * 2 ^ 52) = 2 ^ 63 * unit := by
  have := magVal_normal 1085 (2 ^ 52) (Nat.le_refl _) (by decide)
  have e2 : unit = 2 ^ 1074 := by unfold unit; rfl
  rw [show 1086 * 2 ^ 52 = 1085 * 2 ^ 52 + 2 ^ 52 by decide, this, e2, ← Nat.pow_add, ← Nat.pow_add]

theorem rnd_two63 : rnd (2 ^ 63 * unit) 1 = 1086 * 2 ^ 52 := by
  rw [← two63]
  have := rnd_exact (1086 * 2 ^ 52) 1 (by decide) (by unfold infKey; decide)
  rwa [Nat.mul_one] at this

/-- below 2^63 a number below 2^63 is written, beyond it a number beyond it -/
theorem whole_two63 {k v w : Nat} (hv : magVal k = v * unit) (h : rnd (w * unit) 1 = k) : (v < 2 ^ 63 → w < 2 ^ 63) ∧ (2 ^ 63 < v → 2 ^ 63 < w) := by
  constructor
  · intro hl
    rcases Nat.lt_or_ge w (2 ^ 63) with hw | hw
    · exact hw
    · have := magVal_le (key_mono_whole hw)
      rw [rnd_two63, two63, h, hv] at this
      have := Nat.le_of_mul_le_mul_right this unit_pos
      omega
  · intro hl
    rcases Nat.lt_or_ge (2 ^ 63) w with hw | hw
    · exact hw
    · have := magVal_le (key_mono_whole hw)
      rw [rnd_two63, two63, h, hv] at this
      have := Nat.le_of_mul_le_mul_right this unit_pos
      omega

/-! ### Shapes of texts -/

theorem intPart_take {ds : Bytes} (h : IntPart ds) (h0 : ds ≠ [48]) (n : Nat) (hn : 0 < n) : IntPart (ds.take n) := by
  cases h with
  | zero => exact absurd rfl h0
  | nonzero c t hc h1 hd =>
    obtain ⟨n, rfl⟩ : ∃ j, n = j + 1 := ⟨n - 1, by omega⟩
    rw [List.take_succ_cons]
    exact .nonzero c _ hc h1 fun x hx => hd x (List.mem_of_mem_take hx)

theorem fmtNat_ne_zero {m : Nat} (h : 0 < m) : fmtNat m ≠ [48] := by
  intro e
  have := natOf_fmtNat m
  rw [e] at this
  have : natOf [48] = 0 := rfl
  omega

theorem expText_shape (pad : Bool) {m : Nat} (hm : 0 < m) (dp : Int) : ∃ t u, IntPart t ∧ FracExp u ∧ expText pad (fmtNat m) dp = t ++ u := by
  have hi := fmtNat_intPart m
  have h0 := fmtNat_ne_zero hm
  have hne : fmtNat m ≠ [] := List.ne_nil_of_length_pos (fmtNat_len_pos m)
  generalize fmtNat m = ds at *
  unfold expText
  simp only [hne, if_false]
  obtain ⟨_, x2, x3⟩ := natOf_expDigits pad (dp - 1).natAbs
  generalize expDigits pad (dp - 1).natAbs = xs at *
  have hsg : ∀ c : UInt8, c = (if dp - 1 < 0 then 45 else 43) → ([c] = ([] : Bytes) ∨ [c] = ([43] : Bytes) ∨ [c] = ([45] : Bytes)) := by
    intro c hc; subst hc; split <;> simp
  have hsg := hsg _ rfl
  generalize (if dp - 1 < 0 then (45 : UInt8) else 43) = sg at *
  cases hi with
  | zero => exact absurd rfl h0
  | nonzero c t hc h1 hd =>
    have ic : IntPart [c] := .nonzero c [] hc h1 digits_nil
    cases t with
    | nil => exact ⟨[c], _, ic, .exp 101 [sg] xs (.inl rfl) hsg x3 x2, rfl⟩
    | cons d t => exact ⟨[c], _, ic, .both (d :: t) 101 [sg] xs (by simp) hd (.inl rfl) hsg x3 x2, rfl⟩

theorem plainText_shape {m : Nat} (hm : 0 < m) (e : Int) :
    (e < 0 → ∃ t u, IntPart t ∧ FracExp u ∧ plainText (fmtNat m) ((fmtNat m).length + e) = t ++ u) ∧
      (0 ≤ e → plainText (fmtNat m) ((fmtNat m).length + e) = fmtNat (m * 10 ^ e.toNat)) := by
  have hi := fmtNat_intPart m
  have h0 := fmtNat_ne_zero hm
  have hd := fmtNat_dig m
  have hl := fmtNat_len_pos m
  have hne : fmtNat m ≠ [] := List.ne_nil_of_length_pos hl
  constructor
  · intro he
    generalize fmtNat m = ds at *
    unfold plainText
    by_cases h1 : (ds.length : Int) + e ≤ 0
    · simp only [h1, if_true, hne, if_false]
      exact ⟨[48], 46 :: (zeros (-((ds.length : Int) + e)).toNat ++ ds), .zero, .frac _ (by simp [hne]) (digits_append.2 ⟨zeros_digits _, hd⟩), rfl⟩
    · have h2 : (ds.length : Int) + e < ds.length := by omega
      simp only [h1, if_false, h2, if_true]
      refine ⟨ds.take ((ds.length : Int) + e).toNat, 46 :: ds.drop ((ds.length : Int) + e).toNat, intPart_take hi h0 _ (by omega), .frac _ ?_ (take_drop_digits hd _).2, rfl⟩
      intro hnil
      have := congrArg List.length hnil
      simp only [List.length_drop, List.length_nil] at this
      omega
  · intro he
    rw [fmtNat_pow hm]
    unfold plainText
    rw [if_neg (by omega), if_neg (by omega)]
    congr 2; omega

/-- **the JSON text of a float**: with a fraction or an exponent, or a whole number -/
theorem json_shape {x : UInt64} (h : Ieee.Finite x) :
    (∃ t u, IntPart t ∧ FracExp u ∧ fmtJSON x = (if isNeg x then [45] else []) ++ (t ++ u)) ∧ (¬ (∃ v, magVal (f64Mag x) = v * unit) ∨ key 10 1 21 ≤ f64Mag x) ∨
      ∃ w v, fmtJSON x = (if isNeg x then [45] else []) ++ fmtNat w ∧ rnd (w * unit) 1 = f64Mag x ∧ magVal (f64Mag x) = v * unit ∧ f64Mag x < key 10 1 21 := by
  unfold fmtJSON
  rw [signed_finite h]
  rcases Nat.eq_zero_or_pos (f64Mag x) with h0 | h0
  · right
    refine ⟨0, 0, ?_, ?_, ?_, ?_⟩
    · have hn : ¬ (f64Mag x ≠ 0 ∧ (f64Mag x < key 10 1 (-6) ∨ key 10 1 21 ≤ f64Mag x)) := fun hc => hc.1 h0
      rw [if_neg hn]
      have hd : digits (f64Mag x) = [] := by unfold digits; rw [if_pos h0]
      have hp : point (f64Mag x) = 0 := by unfold point; rw [if_pos h0]
      rw [hd, hp]; rfl
    · rw [h0, ← key_whole, key_zero 10 (by decide)]
    · rw [h0, magVal_small (by decide)]; simp
    · rw [h0]
      have : key 10 1 21 ≠ 0 := by unfold key; decide +kernel
      omega
  · by_cases hc : f64Mag x ≠ 0 ∧ (f64Mag x < key 10 1 (-6) ∨ key 10 1 21 ≤ f64Mag x)
    · left
      obtain ⟨t, u, ht, hu, e⟩ := expText_shape false (shortest_pos h0 h) (point (f64Mag x))
      refine ⟨⟨t, u, ht, hu, by rw [if_pos hc, digits_ne h0, e]⟩, ?_⟩
      rcases hc.2 with hlt | hge
      · left
        rintro ⟨v, hv⟩
        have hv1 : 1 ≤ v := by
          rcases Nat.eq_zero_or_pos v with rfl | h
          · have := magVal_pos h0; omega
          · exact h
        have h1 : rnd (v * unit) 1 = f64Mag x := by
          rw [← hv]
          have := rnd_exact (f64Mag x) 1 (by decide) (Nat.le_of_lt h)
          rwa [Nat.mul_one] at this
        have h2 := key_mono_whole hv1
        rw [h1, ← key_whole] at h2
        have h3 : key 10 1 (-6) ≤ key 10 1 0 := key_mono (by decide) (by decide) (by unfold LeQ scaled; decide)
        omega
      · exact .inr hge
    · have hlt : f64Mag x < key 10 1 21 := by omega
      obtain ⟨p1, p2⟩ := plainText_shape (shortest_pos h0 h) (shortest (f64Mag x)).2
      rw [if_neg hc, digits_ne h0, point_ne h0]
      rcases Int.lt_or_le (shortest (f64Mag x)).2 0 with he | he
      · left
        obtain ⟨t, u, ht, hu, e⟩ := p1 he
        refine ⟨⟨t, u, ht, hu, by rw [e]⟩, .inl ?_⟩
        rintro ⟨v, hv⟩
        have := whole_exp h0 h hv
        omega
      · right
        obtain ⟨h1, v, hv⟩ := exp_whole h0 h he
        exact ⟨_, v, by rw [p2 he], h1, hv, hlt⟩

end Verif.FloatText
