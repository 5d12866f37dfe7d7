import Verif.Go.Val
/-
Model of the integer half of Go's `strconv` (external library, documented behaviour):
`FormatInt(i, 10)`, `Atoi`, `ParseInt(s, 10, 64)`, and of `encoding/hex` digits.
-/
namespace Verif

/-- the ASCII digit of `n < 10` -/
def digit (n : Nat) : UInt8 := UInt8.ofNat (48 + n)

/-- decimal digits of `n`; the first argument bounds the recursion -/
def fmtNatF : Nat → Nat → Bytes
  | 0, n => [digit (n % 10)]
  | f + 1, n => if n < 10 then [digit n] else fmtNatF f (n / 10) ++ [digit (n % 10)]

/-- `strconv.FormatUint(n, 10)` -/
def fmtNat (n : Nat) : Bytes := fmtNatF n n

/-- `strconv.FormatInt(i, 10)`, also `strconv.Itoa` -/
def fmtInt (i : Int) : Bytes := if i < 0 then 45 :: fmtNat (-i).toNat else fmtNat i.toNat

/-- ASCII digit test -/
def isDigit (c : UInt8) : Bool := 48 ≤ c && c ≤ 57

/-- accumulate decimal digits; `none` on any other byte -/
def parseNatAux : Nat → Bytes → Option Nat
  | acc, [] => some acc
  | acc, c :: s => if isDigit c then parseNatAux (acc * 10 + (c.toNat - 48)) s else none

/-- a non-empty string of decimal digits -/
def parseNat : Bytes → Option Nat
  | [] => none
  | s => parseNatAux 0 s

/-- `strconv.Atoi` and `strconv.ParseInt(s, 10, 64)` on a 64-bit machine: optional sign, decimal
digits, value in the int64 range; anything else is an error. -/
def atoi : Bytes → Option Int
  | [] => none
  | c :: s =>
    let n := if c = 45 ∨ c = 43 then parseNat s else parseNat (c :: s)
    match n with
    | none => none
    | some n =>
      let i : Int := if c = 45 then -(n : Int) else n
      if IsInt64 i then some i else none

theorem digit_toNat {n : Nat} (h : n < 10) : (digit n).toNat = 48 + n := by
  simp [digit]; omega

theorem isDigit_digit {n : Nat} (h : n < 10) : isDigit (digit n) = true := by
  have := digit_toNat h
  simp [isDigit, UInt8.le_iff_toNat_le, this]; omega

theorem isDigit_iff (c : UInt8) : isDigit c = true ↔ 48 ≤ c.toNat ∧ c.toNat ≤ 57 := by
  simp [isDigit, UInt8.le_iff_toNat_le]

theorem fmtNatF_digits (f n : Nat) : ∀ c ∈ fmtNatF f n, isDigit c = true := by
  induction f generalizing n with
  | zero => intro c hc; simp [fmtNatF] at hc; subst hc; exact isDigit_digit (by omega)
  | succ f ih =>
    intro c hc
    simp only [fmtNatF] at hc
    split at hc
    · simp at hc; subst hc; exact isDigit_digit (by omega)
    · simp at hc
      rcases hc with hc | hc
      · exact ih _ c hc
      · subst hc; exact isDigit_digit (by omega)

theorem fmtNatF_ne_nil (f n : Nat) : fmtNatF f n ≠ [] := by
  cases f with
  | zero => simp [fmtNatF]
  | succ f => simp only [fmtNatF]; split <;> simp

theorem parseNatAux_append (s t : Bytes) (acc : Nat) :
    parseNatAux acc (s ++ t) = (parseNatAux acc s).bind fun a => parseNatAux a t := by
  induction s generalizing acc with
  | nil => simp [parseNatAux]
  | cons c s ih =>
    simp only [List.cons_append, parseNatAux]
    split
    · exact ih _
    · rfl

theorem parseNatAux_fmt (f n : Nat) (h : n ≤ f) : parseNatAux 0 (fmtNatF f n) = some n := by
  induction f generalizing n with
  | zero =>
    have : n = 0 := by omega
    subst this; decide
  | succ f ih =>
    simp only [fmtNatF]
    split
    · rename_i h10
      simp [parseNatAux, isDigit_digit h10, digit_toNat h10]
    · rw [parseNatAux_append, ih (n / 10) (by omega)]
      have h10 : n % 10 < 10 := by omega
      simp [parseNatAux, isDigit_digit h10, digit_toNat h10]
      omega

theorem parseNat_eq {s : Bytes} (h : s ≠ []) : parseNat s = parseNatAux 0 s := by
  cases s with
  | nil => exact absurd rfl h
  | cons => rfl

theorem parseNat_fmtNat (n : Nat) : parseNat (fmtNat n) = some n := by
  unfold fmtNat; rw [parseNat_eq (fmtNatF_ne_nil _ _)]; exact parseNatAux_fmt n n (Nat.le_refl n)

theorem fmtNat_head (n : Nat) : ∃ c t, fmtNat n = c :: t ∧ isDigit c = true := by
  cases h : fmtNat n with
  | nil => exact absurd h (fmtNatF_ne_nil _ _)
  | cons c t => exact ⟨c, t, rfl, fmtNatF_digits n n c (by unfold fmtNat at h; rw [h]; simp)⟩

/-- C41 core: printing an int64 and parsing it again gives it back. -/
theorem atoi_fmtInt (i : Int) (h : IsInt64 i) : atoi (fmtInt i) = some i := by
  unfold fmtInt
  split
  · rename_i hneg
    simp only [atoi]
    simp only [true_or, if_true, parseNat_fmtNat]
    have e : -(((-i).toNat : Nat) : Int) = i := by omega
    rw [e, if_pos h]
  · rename_i hpos
    obtain ⟨c, t, hc, hd⟩ := fmtNat_head i.toNat
    have hp := parseNat_fmtNat i.toNat
    rw [hc] at hp ⊢
    have hd' := (isDigit_iff c).mp hd
    have h1 : c ≠ 45 := by rintro rfl; simp at hd'
    have h2 : c ≠ 43 := by rintro rfl; simp at hd'
    simp only [atoi, h1, h2, or_self, if_false, hp]
    have e : ((i.toNat : Nat) : Int) = i := by omega
    rw [e, if_pos h]

/-- value of a hexadecimal digit -/
def hexVal (c : UInt8) : Option Nat :=
  if 48 ≤ c ∧ c ≤ 57 then some (c.toNat - 48)
  else if 97 ≤ c ∧ c ≤ 102 then some (c.toNat - 87)
  else if 65 ≤ c ∧ c ≤ 70 then some (c.toNat - 55)
  else none

/-- the lower case hexadecimal digit of `n < 16` -/
def hexDigit (n : Nat) : UInt8 := if n < 10 then UInt8.ofNat (48 + n) else UInt8.ofNat (87 + n)

theorem hexVal_hexDigit : ∀ n, n < 16 → hexVal (hexDigit n) = some n := by decide

end Verif
