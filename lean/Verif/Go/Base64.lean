import Verif.Go.Bytes
/-
`encoding/base64.StdEncoding`, used by encoding/json for `[]byte`.
-/
namespace Verif

def b64char (n : Nat) : UInt8 :=
  if n < 26 then UInt8.ofNat (65 + n) else if n < 52 then UInt8.ofNat (71 + n) else if n < 62 then UInt8.ofNat (n - 4)
  else if n = 62 then 43 else 47

def b64val (c : UInt8) : Option Nat :=
  if 65 ≤ c ∧ c ≤ 90 then some (c.toNat - 65) else if 97 ≤ c ∧ c ≤ 122 then some (c.toNat - 71)
  else if 48 ≤ c ∧ c ≤ 57 then some (c.toNat + 4) else if c = 43 then some 62 else if c = 47 then some 63 else none

def b64enc : Bytes → Bytes
  | a :: b :: c :: t =>
    b64char (a.toNat / 4) :: b64char (a.toNat % 4 * 16 + b.toNat / 16) :: b64char (b.toNat % 16 * 4 + c.toNat / 64) ::
      b64char (c.toNat % 64) :: b64enc t
  | [a, b] => [b64char (a.toNat / 4), b64char (a.toNat % 4 * 16 + b.toNat / 16), b64char (b.toNat % 16 * 4), 61]
  | [a] => [b64char (a.toNat / 4), b64char (a.toNat % 4 * 16), 61, 61]
  | [] => []

def b64dec : Bytes → Option Bytes
  | [] => some []
  | p :: q :: r :: s :: t =>
    match b64val p, b64val q with
    | some x, some y =>
      match b64val r with
      | some z =>
        match b64val s with
        | some w => (b64dec t).map fun l => UInt8.ofNat (x * 4 + y / 16) :: UInt8.ofNat (y % 16 * 16 + z / 4) :: UInt8.ofNat (z % 4 * 64 + w) :: l
        | none => if s = 61 ∧ t = [] then some [UInt8.ofNat (x * 4 + y / 16), UInt8.ofNat (y % 16 * 16 + z / 4)] else none
      | none => if r = 61 ∧ s = 61 ∧ t = [] then some [UInt8.ofNat (x * 4 + y / 16)] else none
    | _, _ => none
  | _ => none

/-- Go's decoder skips CR and LF wherever they are -/
def b64decNL (s : Bytes) : Option Bytes := b64dec (s.filter fun c => c != 13 && c != 10)

theorem b64val_char : ∀ n, n < 64 → b64val (b64char n) = some n := by decide

theorem b64dec_enc (l : Bytes) : b64dec (b64enc l) = some l := by
  induction l using b64enc.induct with
  | case1 a b c t ih =>
    have ha := a.toNat_lt; have hb := b.toNat_lt; have hc := c.toNat_lt
    simp only [b64enc, b64dec]
    rw [b64val_char _ (by omega), b64val_char _ (by omega), b64val_char _ (by omega), b64val_char _ (by omega), ih]
    simp only [Option.map_some, Option.some.injEq, List.cons.injEq, and_true]
    refine ⟨?_, ?_, ?_⟩
    · have : a.toNat / 4 * 4 + (a.toNat % 4 * 16 + b.toNat / 16) / 16 = a.toNat := by omega
      rw [this]; simp
    · have : (a.toNat % 4 * 16 + b.toNat / 16) % 16 * 16 + (b.toNat % 16 * 4 + c.toNat / 64) / 4 = b.toNat := by omega
      rw [this]; simp
    · have : (b.toNat % 16 * 4 + c.toNat / 64) % 4 * 64 + c.toNat % 64 = c.toNat := by omega
      rw [this]; simp
  | case2 a b =>
    have ha := a.toNat_lt; have hb := b.toNat_lt
    simp only [b64enc, b64dec]
    rw [b64val_char _ (by omega), b64val_char _ (by omega), b64val_char _ (by omega)]
    have e : b64val 61 = none := by decide
    simp only [e, and_true, if_true, Option.some.injEq, List.cons.injEq]
    constructor
    · have : a.toNat / 4 * 4 + (a.toNat % 4 * 16 + b.toNat / 16) / 16 = a.toNat := by omega
      rw [this]; simp
    · have : (a.toNat % 4 * 16 + b.toNat / 16) % 16 * 16 + (b.toNat % 16 * 4) / 4 = b.toNat := by omega
      rw [this]; simp
  | case3 a =>
    have ha := a.toNat_lt
    simp only [b64enc, b64dec]
    rw [b64val_char _ (by omega), b64val_char _ (by omega)]
    have e : b64val 61 = none := by decide
    simp only [e, and_true, if_true, Option.some.injEq, List.cons.injEq]
    have : a.toNat / 4 * 4 + (a.toNat % 4 * 16) / 16 = a.toNat := by omega
    rw [this]; simp
  | case4 => rfl

theorem b64char_noNL : ∀ n, n < 64 → b64char n ≠ 13 ∧ b64char n ≠ 10 := by decide

theorem b64enc_noNL (l : Bytes) : ∀ c ∈ b64enc l, c ≠ 13 ∧ c ≠ 10 := by
  induction l using b64enc.induct with
  | case1 a b c t ih =>
    have ha := a.toNat_lt; have hb := b.toNat_lt; have hc := c.toNat_lt
    intro x hx
    simp only [b64enc, List.mem_cons] at hx
    rcases hx with rfl | rfl | rfl | rfl | hx
    · exact b64char_noNL _ (by omega)
    · exact b64char_noNL _ (by omega)
    · exact b64char_noNL _ (by omega)
    · exact b64char_noNL _ (by omega)
    · exact ih x hx
  | case2 a b =>
    have ha := a.toNat_lt; have hb := b.toNat_lt
    intro x hx
    simp only [b64enc, List.mem_cons, List.not_mem_nil, or_false] at hx
    rcases hx with rfl | rfl | rfl | rfl
    · exact b64char_noNL _ (by omega)
    · exact b64char_noNL _ (by omega)
    · exact b64char_noNL _ (by omega)
    · decide
  | case3 a =>
    have ha := a.toNat_lt
    intro x hx
    simp only [b64enc, List.mem_cons, List.not_mem_nil, or_false] at hx
    rcases hx with rfl | rfl | rfl | rfl
    · exact b64char_noNL _ (by omega)
    · exact b64char_noNL _ (by omega)
    · decide
    · decide
  | case4 => simp [b64enc]

theorem b64decNL_enc (l : Bytes) : b64decNL (b64enc l) = some l := by
  unfold b64decNL
  rw [List.filter_eq_self.mpr, b64dec_enc]
  intro c hc
  have := b64enc_noNL l c hc
  simp [this.1, this.2]

example : b64enc b!"hello" = b!"aGVsbG8=" := by decide +kernel

end Verif
