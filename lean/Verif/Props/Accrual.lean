import Verif.Model.Accrual
import Verif.Go.Strconv
/-
C72: how long a periodicity lasts.
-/
set_option autoImplicit false
namespace Verif.Accrual

/-! ### ISO 8601 repeating intervals with one component -/

/-- nanoseconds of a designator of a date; years of 365 days, months of 30 -/
def dateUnit (c : UInt8) : Option Nat :=
  if c = 89 then some (365 * 86400 * 10 ^ 9)
  else if c = 77 then some (30 * 86400 * 10 ^ 9)
  else if c = 87 then some (7 * 86400 * 10 ^ 9)
  else if c = 68 then some (86400 * 10 ^ 9)
  else none

/-- nanoseconds of a designator of a time -/
def timeUnit (c : UInt8) : Option Nat :=
  if c = 72 then some (3600 * 10 ^ 9) else if c = 77 then some (60 * 10 ^ 9) else if c = 83 then some (10 ^ 9) else none

def digits (s : Bytes) : Prop := s ≠ [] ∧ ∀ c ∈ s, isDigit c = true

def value (s : Bytes) : Nat := s.foldl (fun n c => n * 10 + (c.toNat - 48)) 0

/-- `p` repeats after `num / den` nanoseconds -/
inductive Lasts : Bytes → Nat → Nat → Prop where
  | date (whole : Bytes) (c : UInt8) (u : Nat) : digits whole → dateUnit c = some u → Lasts (b!"R/P" ++ (whole ++ [c])) (value whole * u) 1
  | dateFrac (whole frac : Bytes) (c : UInt8) (u : Nat) : digits whole → digits frac → dateUnit c = some u →
      Lasts (b!"R/P" ++ (whole ++ 46 :: (frac ++ [c]))) ((value whole * 10 ^ frac.length + value frac) * u) (10 ^ frac.length)
  | time (whole : Bytes) (c : UInt8) (u : Nat) : digits whole → timeUnit c = some u → Lasts (b!"R/PT" ++ (whole ++ [c])) (value whole * u) 1

/-- the texts that have a duration -/
def known : List Bytes := [b!"R/P10Y", b!"R/P4Y", b!"R/P1Y", b!"R/P2M", b!"R/P3.5D", b!"R/P1D", b!"R/P2W", b!"R/P6M", b!"R/P2Y", b!"R/P3Y",
  b!"R/P0.33W", b!"R/P0.33M", b!"R/PT1S", b!"R/P1M", b!"R/P3M", b!"R/P0.5M", b!"R/P4M", b!"R/P1W", b!"R/PT1H"]

/-- those whose duration is another one -/
def wrong : List Bytes := [b!"R/P2M", b!"R/P3.5D", b!"R/P0.33W", b!"R/P0.33M", b!"R/P3M", b!"R/P4M"]

/-- C72: every other text, however plausible, lasts no time -/
theorem C72_known (p : Bytes) : duration p = 0 ↔ p ∉ known := by
  constructor
  · intro h hm
    have : ∀ p ∈ known, duration p ≠ 0 := by decide +kernel
    exact this p hm h
  · intro h
    simp only [known, List.mem_cons, List.not_mem_nil, or_false, not_or] at h
    simp only [duration, h, if_false]

theorem known_lasts : ∀ p ∈ known, ∃ num den, Lasts p num den ∧ 0 < den ∧ (p ∉ wrong → duration p * den = num) ∧ (p ∈ wrong → duration p * den ≠ num) := by
  have dg : ∀ s : Bytes, s ≠ [] → s.all isDigit = true → digits s := fun s h1 h2 => ⟨h1, List.all_eq_true.mp h2⟩
  have d : ∀ (p whole : Bytes) (c : UInt8) (u : Nat), whole ≠ [] → whole.all isDigit = true → dateUnit c = some u → p = b!"R/P" ++ (whole ++ [c]) →
      (decide (p ∈ wrong) = decide (duration p ≠ value whole * u)) →
      ∃ num den, Lasts p num den ∧ 0 < den ∧ (p ∉ wrong → duration p * den = num) ∧ (p ∈ wrong → duration p * den ≠ num) := by
    rintro p whole c u h1 h2 h3 rfl h5
    simp only [decide_eq_decide] at h5
    refine ⟨_, _, .date whole c u (dg _ h1 h2) h3, by omega, ?_, ?_⟩
    · intro h; rw [h5] at h; simpa using h
    · intro h; rw [h5] at h; simpa using h
  have f : ∀ (p whole frac : Bytes) (c : UInt8) (u : Nat), whole ≠ [] → whole.all isDigit = true → frac ≠ [] → frac.all isDigit = true → dateUnit c = some u →
      p = b!"R/P" ++ (whole ++ 46 :: (frac ++ [c])) →
      (decide (p ∈ wrong) = decide (duration p * 10 ^ frac.length ≠ (value whole * 10 ^ frac.length + value frac) * u)) →
      ∃ num den, Lasts p num den ∧ 0 < den ∧ (p ∉ wrong → duration p * den = num) ∧ (p ∈ wrong → duration p * den ≠ num) := by
    rintro p whole frac c u h1 h2 h3 h4 h5 rfl h6
    simp only [decide_eq_decide] at h6
    refine ⟨_, _, .dateFrac whole frac c u (dg _ h1 h2) (dg _ h3 h4) h5, Nat.pow_pos (by omega), ?_, ?_⟩
    · intro h; rw [h6] at h; simpa using h
    · intro h; rw [h6] at h; exact h
  have t : ∀ (p whole : Bytes) (c : UInt8) (u : Nat), whole ≠ [] → whole.all isDigit = true → timeUnit c = some u → p = b!"R/PT" ++ (whole ++ [c]) →
      (decide (p ∈ wrong) = decide (duration p ≠ value whole * u)) →
      ∃ num den, Lasts p num den ∧ 0 < den ∧ (p ∉ wrong → duration p * den = num) ∧ (p ∈ wrong → duration p * den ≠ num) := by
    rintro p whole c u h1 h2 h3 rfl h5
    simp only [decide_eq_decide] at h5
    refine ⟨_, _, .time whole c u (dg _ h1 h2) h3, by omega, ?_, ?_⟩
    · intro h; rw [h5] at h; simpa using h
    · intro h; rw [h5] at h; simpa using h
  intro p hp
  simp only [known, List.mem_cons, List.not_mem_nil, or_false] at hp
  rcases hp with rfl | rfl | rfl | rfl | rfl | rfl | rfl | rfl | rfl | rfl | rfl | rfl | rfl | rfl | rfl | rfl | rfl | rfl | rfl
  · exact d _ b!"10" 89 _ (by decide) (by decide) rfl rfl (by decide +kernel)
  · exact d _ b!"4" 89 _ (by decide) (by decide) rfl rfl (by decide +kernel)
  · exact d _ b!"1" 89 _ (by decide) (by decide) rfl rfl (by decide +kernel)
  · exact d _ b!"2" 77 _ (by decide) (by decide) rfl rfl (by decide +kernel)
  · exact f _ b!"3" b!"5" 68 _ (by decide) (by decide) (by decide) (by decide) rfl rfl (by decide +kernel)
  · exact d _ b!"1" 68 _ (by decide) (by decide) rfl rfl (by decide +kernel)
  · exact d _ b!"2" 87 _ (by decide) (by decide) rfl rfl (by decide +kernel)
  · exact d _ b!"6" 77 _ (by decide) (by decide) rfl rfl (by decide +kernel)
  · exact d _ b!"2" 89 _ (by decide) (by decide) rfl rfl (by decide +kernel)
  · exact d _ b!"3" 89 _ (by decide) (by decide) rfl rfl (by decide +kernel)
  · exact f _ b!"0" b!"33" 87 _ (by decide) (by decide) (by decide) (by decide) rfl rfl (by decide +kernel)
  · exact f _ b!"0" b!"33" 77 _ (by decide) (by decide) (by decide) (by decide) rfl rfl (by decide +kernel)
  · exact t _ b!"1" 83 _ (by decide) (by decide) rfl rfl (by decide +kernel)
  · exact d _ b!"1" 77 _ (by decide) (by decide) rfl rfl (by decide +kernel)
  · exact d _ b!"3" 77 _ (by decide) (by decide) rfl rfl (by decide +kernel)
  · exact f _ b!"0" b!"5" 77 _ (by decide) (by decide) (by decide) (by decide) rfl rfl (by decide +kernel)
  · exact d _ b!"4" 77 _ (by decide) (by decide) rfl rfl (by decide +kernel)
  · exact d _ b!"1" 87 _ (by decide) (by decide) rfl rfl (by decide +kernel)
  · exact t _ b!"1" 72 _ (by decide) (by decide) rfl rfl (by decide +kernel)

/-- C72: a text with a duration is a periodicity, and the duration is that of the periodicity but for the six exceptions -/
theorem C72_duration (p : Bytes) (h : duration p ≠ 0) :
    ∃ num den, Lasts p num den ∧ 0 < den ∧ (duration p * den = num ↔ p ∉ wrong) := by
  have hk : p ∈ known := by
    apply Classical.not_not.mp
    intro hn; exact h ((C72_known p).2 hn)
  obtain ⟨num, den, a, b, c, d⟩ := known_lasts p hk
  exact ⟨num, den, a, b, ⟨fun e hw => d hw e, c⟩⟩

/-- the violations: every two months is said to be longer than every six months, every three months shorter than two months, every four
months shorter than four; every 45 days, every seven days and compound periods have no duration -/
theorem C72_wrong : duration b!"R/P6M" < duration b!"R/P2M" ∧ duration b!"R/P3M" < 2 * duration b!"R/P1M" ∧ duration b!"R/P4M" < 4 * duration b!"R/P1M" ∧
    duration b!"R/P45D" = 0 ∧ duration b!"R/P1Y2M" = 0 ∧ duration b!"R/P7D" = 0 := by decide +kernel

example : duration b!"R/P2W" = 14 * 86400 * 10 ^ 9 ∧ duration b!"R/P0.33W" = 201600 * 10 ^ 9 ∧ duration b!"fortnightly" = 0 := by decide +kernel

end Verif.Accrual
