import Verif.Lemmas.Cbor
import Verif.Spec.CborItem
import Mathlib.Tactic.Linarith
import Mathlib.Data.Rat.Cast.Order
import Mathlib.Algebra.Order.Field.Power
/-
What the CBOR reader makes of well-formed items.
-/
set_option autoImplicit false
namespace Verif.CborItem
open Verif.Cbor

/-- the major types and their first bytes -/
def base (major : Nat) : UInt8 := UInt8.ofNat (32 * major)

theorem info_lt {w : Width} {n : Nat} (h : w.Holds n) : w.info n < 0x1c := by
  cases w <;> simp only [Width.info, Width.Holds] at * <;> omega

theorem head_eq (major : Nat) (w : Width) (n : Nat) : head major w n = (base major + UInt8.ofNat (w.info n)) :: toBE w.size n := by
  simp [head, base]

theorem base_isBase {major : Nat} (h : major < 6) : IsBase (base major) := by
  have : ∀ m < 6, base m = 0x00 ∨ base m = 0x20 ∨ base m = 0x40 ∨ base m = 0x60 ∨ base m = 0x80 ∨ base m = 0xa0 := by decide
  exact this major h

theorem getVarLen_head {major : Nat} (hm : major < 6) {w : Width} {n : Nat} (h : w.Holds n) (r : Bytes) :
    getVarLenInt (base major + UInt8.ofNat (w.info n)) (toBE w.size n ++ r) = .ok (toInt64 n) r := by
  have hh := (head_and _ (base_isBase hm) _ (info_lt h)).1
  unfold getVarLenInt
  simp only [hh]
  cases w with
  | w0 =>
    simp only [Width.Holds] at h
    simp only [Width.info, Width.size, toBE, List.nil_append]
    have h1 : (UInt8.ofNat n).toNat = n := by simp; omega
    rw [if_pos (by rw [UInt8.lt_iff_toNat_lt, h1]; simpa using h), h1, toInt64_small (by omega)]
  | w1 => exact readIntBytes_toBE 1 n r (by omega) h
  | w2 => exact readIntBytes_toBE 2 n r (by omega) h
  | w4 => exact readIntBytes_toBE 4 n r (by omega) h
  | w8 => exact readIntBytes_toBE 8 n r (by omega) h

theorem holds_lt {w : Width} {n : Nat} (h : w.Holds n) : n < 2 ^ 64 := by
  cases w <;> simp only [Width.Holds, Width.size] at h <;> omega

/-- strings of definite length -/
theorem prefixed_head {major : Nat} (hm : major < 6) {w : Width} {s : Bytes} (h : w.Holds s.length) (r : Bytes) :
    (s.length ≤ 4096 ∧ readLengthPrefixedBytes (base major + UInt8.ofNat (w.info s.length)) (toBE w.size s.length ++ (s ++ r)) = .ok s r) ∨
    (¬ s.length ≤ 4096 ∧ ∃ e, e ≠ .eof ∧ readLengthPrefixedBytes (base major + UInt8.ofNat (w.info s.length)) (toBE w.size s.length ++ (s ++ r)) = .err e) := by
  unfold readLengthPrefixedBytes
  rw [getVarLen_head hm h]
  have hl := holds_lt h
  simp only
  have hb : bufSize = 4096 := rfl
  by_cases hs : s.length ≤ 4096
  · left
    refine ⟨hs, ?_⟩
    rw [toInt64_small (by omega)]
    exact readBytes_append s r (by omega)
  · right
    refine ⟨hs, ?_⟩
    unfold readBytes toInt64
    split
    · exact ⟨.bufferFull, by simp, by rw [if_neg (by omega), if_pos (by omega)]⟩
    · exact ⟨.negativeCount, by simp, by rw [if_pos (by omega)]⟩

theorem head_ne_break {major : Nat} (hm : major < 6) {w : Width} {n : Nat} (h : w.Holds n) (r : Bytes) : readBreak (head major w n ++ r) = none := by
  rw [head_eq, List.cons_append]
  have h3 := (head_and _ (base_isBase hm) _ (info_lt h)).2.2
  have hi := info_lt h
  have hb : ∀ m < 6, (base m).toNat ≤ 160 := by decide
  unfold readBreak
  simp only
  rw [if_neg]
  refine toNat_ne ?_
  have := hb major hm
  simp
  omega

/-- strings of indefinite length -/
theorem chunks_read {major : Nat} (hm : major < 6) (l : List (Width × Bytes)) (h : ∀ c ∈ l, c.1.Holds c.2.length) (f : Nat) (r : Bytes)
    (hf : (chunksBytes major l).length ≤ f) :
    ((∀ c ∈ l, c.2.length ≤ 4096) ∧ readChunks f (chunksBytes major l ++ r) = .ok (l.flatMap (·.2)) r) ∨
    (¬ (∀ c ∈ l, c.2.length ≤ 4096) ∧ ∃ e, e ≠ .eof ∧ readChunks f (chunksBytes major l ++ r) = .err e) := by
  induction l generalizing f with
  | nil =>
    left
    refine ⟨by simp, ?_⟩
    cases f with
    | zero => simp [chunksBytes] at hf
    | succ f => rfl
  | cons c l ih =>
    obtain ⟨w, s⟩ := c
    have hw : w.Holds s.length := h (w, s) (by simp)
    have e : chunksBytes major ((w, s) :: l) = head major w s.length ++ s ++ chunksBytes major l := rfl
    rw [e] at hf ⊢
    cases f with
    | zero => simp [head] at hf
    | succ f =>
      have hbr := head_ne_break hm hw (s ++ (chunksBytes major l ++ r))
      simp only [List.append_assoc]
      rw [head_eq, List.cons_append] at hbr ⊢
      rw [readChunks, hbr]
      simp only
      rcases prefixed_head hm hw (chunksBytes major l ++ r) with ⟨h1, h2⟩ | ⟨h1, er, h2, h3⟩
      · rw [h2]
        simp only
        have hf' : (chunksBytes major l).length ≤ f := by
          simp [head] at hf; omega
        rcases ih (fun c hc => h c (by simp [hc])) f hf' with ⟨i1, i2⟩ | ⟨i1, er, i2, i3⟩
        · left
          rw [i2]
          exact ⟨by intro c hc; rcases List.mem_cons.1 hc with rfl | hc; exacts [h1, i1 c hc], rfl⟩
        · right
          rw [i3]
          exact ⟨fun hall => i1 fun c hc => hall c (by simp [hc]), er, i2, rfl⟩
      · right
        rw [h3]
        exact ⟨fun hall => h1 (hall (w, s) (by simp)), er, h2, rfl⟩

/-! ### Short floats -/

theorem two_pow_lt_aux (a b : ℚ) (k : ℤ) (hk : -149 ≤ k) (ha : 1 ≤ a) (hb : b < 2 ^ 32) : b / 2 ^ 1074 ≠ a * 2 ^ k := by
  intro h
  have h1 : (2 : ℚ) ^ (-149 : ℤ) ≤ 2 ^ k := zpow_le_zpow_right₀ (by norm_num) hk
  have h2 : (2 : ℚ) ^ (-149 : ℤ) ≤ a * 2 ^ k := by
    have h0 : (0 : ℚ) < 2 ^ k := by positivity
    exact le_trans h1 (le_mul_of_one_le_left h0.le ha)
  have h3 : b / 2 ^ 1074 < (2 : ℚ) ^ (-149 : ℤ) := by
    rw [div_lt_iff₀ (by positivity)]
    refine lt_trans hb ?_
    rw [show (2 : ℚ) ^ 1074 = 2 ^ (1074 : ℤ) from (zpow_natCast (2 : ℚ) 1074).symm, ← zpow_add₀ (by norm_num), show (2 : ℚ) ^ 32 = 2 ^ (32 : ℤ) from (zpow_natCast (2 : ℚ) 32).symm]
    exact zpow_lt_zpow_right₀ (by norm_num) (by norm_num)
  exact absurd h (ne_of_lt (lt_of_lt_of_le h3 h2))

theorem short_float (e m n : Nat) (he : e = 5 ∧ m = 10 ∧ n < 2 ^ 16 ∨ e = 8 ∧ m = 23 ∧ n < 2 ^ 32) : SameFloat e m n (UInt64.ofNat n) ↔ n = 0 := by
  have hn : n < 2 ^ 32 := by omega
  have hx : (UInt64.ofNat n).toNat = n := by simp; omega
  have hmag : f64Mag (UInt64.ofNat n) = n := by rw [f64Mag, hx]; omega
  have hval : FloatText.value (UInt64.ofNat n) = (n : ℚ) / 2 ^ 1074 := by
    have hneg : Ieee.isNeg (UInt64.ofNat n) = false := by unfold Ieee.isNeg; rw [hx]; simp; omega
    unfold FloatText.value Ieee.val
    rw [if_neg (by rw [hneg]; decide), hmag]
    unfold Ieee.magVal
    rw [if_pos (by omega : n < 2 ^ 53), Int.cast_natCast]
  constructor
  · intro h
    unfold SameFloat at h
    rw [hmag, hx, hval] at h
    split at h
    · split at h
      · omega
      · unfold f64NaN at h
        rw [hmag] at h
        simp at h
        omega
    · rename_i hfin
      obtain ⟨_, h1, h2⟩ := h
      have hs : ¬ n / 2 ^ (e + m) % 2 = 1 := fun hh => by have := h2.1 hh; omega
      unfold fraction at h1
      rw [if_neg hs, one_mul] at h1
      by_contra hne
      have hk : (-149 : ℤ) ≤ (max 1 (n / 2 ^ m % 2 ^ e) : Nat) - ((2 ^ (e - 1) - 1 : Nat) : ℤ) - (m : ℤ) := by
        have : 1 ≤ max 1 (n / 2 ^ m % 2 ^ e) := le_max_left _ _
        rcases he with ⟨rfl, rfl, _⟩ | ⟨rfl, rfl, _⟩ <;> norm_num <;> omega
      refine two_pow_lt_aux _ (n : ℚ) _ hk ?_ (by exact_mod_cast hn) h1
      have : 1 ≤ (if n / 2 ^ m % 2 ^ e = 0 then n % 2 ^ m else 2 ^ m + n % 2 ^ m) := by
        rcases he with ⟨rfl, rfl, _⟩ | ⟨rfl, rfl, _⟩ <;> (split <;> norm_num at * <;> omega)
      exact_mod_cast this
  · rintro rfl
    have h0 : fraction e m 0 = 0 := by simp [fraction]
    unfold SameFloat
    rw [hmag, hx, hval, h0]
    rcases he with ⟨rfl, rfl, _⟩ | ⟨rfl, rfl, _⟩
    all_goals rw [if_neg (by decide)]; exact ⟨by decide, by rw [Nat.cast_zero, zero_div], by decide⟩

end Verif.CborItem
