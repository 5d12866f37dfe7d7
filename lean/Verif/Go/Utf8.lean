import Verif.Go.Val
/-
Model of Go's `unicode/utf8` (external library, documented behaviour).  Code points are `Nat`s.
-/
namespace Verif

/-- the replacement character U+FFFD -/
def runeError : Nat := 0xFFFD

/-- a Unicode scalar value (`utf8.ValidRune`) -/
def ValidRune (c : Nat) : Prop := c < 0xD800 ∨ (0xE000 ≤ c ∧ c ≤ 0x10FFFF)

instance (c : Nat) : Decidable (ValidRune c) := inferInstanceAs (Decidable (_ ∨ _))

/-- UTF-8 bytes of a scalar value (`utf8.EncodeRune`) -/
def utf8Enc (c : Nat) : Bytes :=
  if c < 0x80 then [UInt8.ofNat c]
  else if c < 0x800 then [UInt8.ofNat (0xC0 + c / 64), UInt8.ofNat (0x80 + c % 64)]
  else if c < 0x10000 then
    [UInt8.ofNat (0xE0 + c / 4096), UInt8.ofNat (0x80 + c / 64 % 64), UInt8.ofNat (0x80 + c % 64)]
  else
    [UInt8.ofNat (0xF0 + c / 262144), UInt8.ofNat (0x80 + c / 4096 % 64), UInt8.ofNat (0x80 + c / 64 % 64),
      UInt8.ofNat (0x80 + c % 64)]

/-- continuation byte in the given range -/
def inRange (lo hi : Nat) (b : UInt8) : Bool := lo ≤ b.toNat && b.toNat ≤ hi

/-- `utf8.DecodeRuneInString`: the first code point and its width; `(U+FFFD, 1)` on
invalid or truncated input, `(U+FFFD, 0)` on empty input. -/
def utf8Dec : Bytes → Nat × Nat
  | [] => (runeError, 0)
  | b0 :: s =>
    let n := b0.toNat
    if n < 0x80 then (n, 1)
    else if 0xC2 ≤ n ∧ n ≤ 0xDF then
      match s with
      | b1 :: _ =>
        if inRange 0x80 0xBF b1 then ((n - 0xC0) * 64 + (b1.toNat - 0x80), 2) else (runeError, 1)
      | _ => (runeError, 1)
    else if 0xE0 ≤ n ∧ n ≤ 0xEF then
      match s with
      | b1 :: b2 :: _ =>
        if inRange (if n = 0xE0 then 0xA0 else 0x80) (if n = 0xED then 0x9F else 0xBF) b1 && inRange 0x80 0xBF b2 then
          ((n - 0xE0) * 4096 + (b1.toNat - 0x80) * 64 + (b2.toNat - 0x80), 3)
        else (runeError, 1)
      | _ => (runeError, 1)
    else if 0xF0 ≤ n ∧ n ≤ 0xF4 then
      match s with
      | b1 :: b2 :: b3 :: _ =>
        if inRange (if n = 0xF0 then 0x90 else 0x80) (if n = 0xF4 then 0x8F else 0xBF) b1 && inRange 0x80 0xBF b2 &&
            inRange 0x80 0xBF b3 then
          ((n - 0xF0) * 262144 + (b1.toNat - 0x80) * 4096 + (b2.toNat - 0x80) * 64 + (b3.toNat - 0x80), 4)
        else (runeError, 1)
      | _ => (runeError, 1)
    else (runeError, 1)

/-- Valid UTF-8: a concatenation of encoded scalar values. -/
inductive ValidUtf8 : Bytes → Prop
  | nil : ValidUtf8 []
  | cons (c : Nat) (s : Bytes) : ValidRune c → ValidUtf8 s → ValidUtf8 (utf8Enc c ++ s)

theorem ofNat_toNat {n : Nat} (h : n < 256) : (UInt8.ofNat n).toNat = n := by
  simp; omega

/-- decoding what was encoded -/
theorem utf8Dec_enc (c : Nat) (h : ValidRune c) (s : Bytes) :
    utf8Dec (utf8Enc c ++ s) = (c, (utf8Enc c).length) := by
  have hc : c ≤ 0x10FFFF := by rcases h with h | h <;> omega
  unfold utf8Enc
  split
  · rename_i h1
    have e0 : (UInt8.ofNat c).toNat = c := ofNat_toNat (by omega)
    simp only [List.cons_append, List.nil_append, utf8Dec, e0]
    rw [if_pos h1]; rfl
  · rename_i h1
    split
    · rename_i h2
      have e0 : (UInt8.ofNat (0xC0 + c / 64)).toNat = 0xC0 + c / 64 := ofNat_toNat (by omega)
      have e1 : (UInt8.ofNat (0x80 + c % 64)).toNat = 0x80 + c % 64 := ofNat_toNat (by omega)
      simp only [List.cons_append, List.nil_append, utf8Dec, e0, inRange, e1]
      rw [if_neg (by omega), if_pos (by omega), if_pos (by simp; omega)]
      simp; omega
    · rename_i h2
      split
      · rename_i h3
        have e0 : (UInt8.ofNat (0xE0 + c / 4096)).toNat = 0xE0 + c / 4096 := ofNat_toNat (by omega)
        have e1 : (UInt8.ofNat (0x80 + c / 64 % 64)).toNat = 0x80 + c / 64 % 64 := ofNat_toNat (by omega)
        have e2 : (UInt8.ofNat (0x80 + c % 64)).toNat = 0x80 + c % 64 := ofNat_toNat (by omega)
        simp only [List.cons_append, List.nil_append, utf8Dec, e0, inRange, e1, e2]
        rw [if_neg (by omega), if_neg (by omega), if_pos (by omega), if_pos]
        · simp; omega
        · have : ¬ (0xD800 ≤ c ∧ c < 0xE000) := by rcases h with h | h <;> omega
          simp
          refine ⟨⟨?_, ?_⟩, ?_⟩
          · split <;> omega
          · split <;> omega
          · omega
      · rename_i h3
        have e0 : (UInt8.ofNat (0xF0 + c / 262144)).toNat = 0xF0 + c / 262144 := ofNat_toNat (by omega)
        have e1 : (UInt8.ofNat (0x80 + c / 4096 % 64)).toNat = 0x80 + c / 4096 % 64 := ofNat_toNat (by omega)
        have e2 : (UInt8.ofNat (0x80 + c / 64 % 64)).toNat = 0x80 + c / 64 % 64 := ofNat_toNat (by omega)
        have e3 : (UInt8.ofNat (0x80 + c % 64)).toNat = 0x80 + c % 64 := ofNat_toNat (by omega)
        simp only [List.cons_append, List.nil_append, utf8Dec, e0, inRange, e1, e2, e3]
        rw [if_neg (by omega), if_neg (by omega), if_neg (by omega), if_pos (by omega), if_pos]
        · simp; omega
        · simp
          refine ⟨⟨⟨?_, ?_⟩, ?_⟩, ?_⟩
          · split <;> omega
          · split <;> omega
          · omega
          · omega

theorem utf8Enc_length_pos (c : Nat) : 0 < (utf8Enc c).length := by
  unfold utf8Enc; split
  · simp
  split
  · simp
  split <;> simp

theorem utf8Enc_ascii {c : Nat} (h : c < 0x80) : utf8Enc c = [UInt8.ofNat c] := by simp [utf8Enc, h]

/-- all bytes of a multi-byte encoding have the high bit set -/
theorem utf8Enc_high {c : Nat} (h : 0x80 ≤ c) (hc : ValidRune c) : ∀ b ∈ utf8Enc c, 0x80 ≤ b.toNat := by
  have hc : c ≤ 0x10FFFF := by rcases hc with h | h <;> omega
  intro b hb
  unfold utf8Enc at hb
  rw [if_neg (by omega)] at hb
  split at hb
  · simp only [List.mem_cons, List.not_mem_nil, or_false] at hb; rcases hb with rfl | rfl <;> rw [ofNat_toNat (by omega)] <;> omega
  split at hb
  · simp only [List.mem_cons, List.not_mem_nil, or_false] at hb; rcases hb with rfl | rfl | rfl <;> rw [ofNat_toNat (by omega)] <;> omega
  · simp only [List.mem_cons, List.not_mem_nil, or_false] at hb; rcases hb with rfl | rfl | rfl | rfl <;> rw [ofNat_toNat (by omega)] <;> omega

/-- Replace each invalid byte by U+FFFD.  The first argument counts bytes of the current
code point still to be skipped. -/
def toValidUtf8 : Nat → Bytes → Bytes
  | _, [] => []
  | k + 1, _ :: t => toValidUtf8 k t
  | 0, b :: t => utf8Enc (utf8Dec (b :: t)).1 ++ toValidUtf8 ((utf8Dec (b :: t)).2 - 1) t

theorem uint8_ofNat_eq {b : UInt8} {n : Nat} (h : n = b.toNat) : UInt8.ofNat n = b := by
  subst h; exact UInt8.ofNat_toNat

/-- what was decoded is the encoding of its code point -/
theorem utf8Enc_dec (b : UInt8) (t : Bytes) :
    ((utf8Dec (b :: t)).1 = runeError ∧ (utf8Dec (b :: t)).2 = 1) ∨
    (ValidRune (utf8Dec (b :: t)).1 ∧ utf8Enc (utf8Dec (b :: t)).1 = (b :: t).take (utf8Dec (b :: t)).2 ∧
      0 < (utf8Dec (b :: t)).2 ∧ (utf8Dec (b :: t)).2 ≤ (b :: t).length) := by
  have hb := b.toNat_lt
  unfold utf8Dec
  simp only
  split
  · rename_i h1
    right
    refine ⟨Or.inl (by simp only; omega), ?_, by simp, by simp⟩
    simp [utf8Enc, h1]
  split
  · rename_i h1 h2
    cases t with
    | nil => simp
    | cons b1 t =>
      simp only
      split
      · rename_i h3
        simp only [inRange, Bool.and_eq_true, decide_eq_true_eq] at h3
        right
        refine ⟨Or.inl (by simp only; omega), ?_, by simp, by simp⟩
        unfold utf8Enc
        rw [if_neg (by simp only; omega), if_pos (by simp only; omega)]
        simp only [List.take]
        rw [uint8_ofNat_eq (b := b) (by omega), uint8_ofNat_eq (b := b1) (by omega)]
      · simp
  split
  · rename_i h1 h2 h3
    match t with
    | [] => simp
    | [b1] => simp
    | b1 :: b2 :: t =>
      simp only
      generalize hlo : (if b.toNat = 0xE0 then 0xA0 else 0x80) = lo
      generalize hhi : (if b.toNat = 0xED then 0x9F else 0xBF) = hi
      split
      · rename_i h4
        simp only [inRange, Bool.and_eq_true, decide_eq_true_eq] at h4
        have h5 : (b.toNat = 0xE0 → 0xA0 ≤ b1.toNat) ∧ (b.toNat = 0xED → b1.toNat ≤ 0x9F) ∧ 0x80 ≤ b1.toNat ∧
            b1.toNat ≤ 0xBF := by
          split at hlo <;> split at hhi <;> omega
        right
        refine ⟨?_, ?_, by simp, by simp⟩
        · unfold ValidRune; simp only; omega
        unfold utf8Enc
        rw [if_neg (by simp only; omega), if_neg (by simp only; omega), if_pos (by simp only; omega)]
        simp only [List.take]
        rw [uint8_ofNat_eq (b := b) (by omega), uint8_ofNat_eq (b := b1) (by omega), uint8_ofNat_eq (b := b2) (by omega)]
      · simp
  split
  · rename_i h1 h2 h3 h4
    match t with
    | [] => simp
    | [b1] => simp
    | [b1, b2] => simp
    | b1 :: b2 :: b3 :: t =>
      simp only
      generalize hlo : (if b.toNat = 0xF0 then 0x90 else 0x80) = lo
      generalize hhi : (if b.toNat = 0xF4 then 0x8F else 0xBF) = hi
      split
      · rename_i h5
        simp only [inRange, Bool.and_eq_true, decide_eq_true_eq] at h5
        have h6 : (b.toNat = 0xF0 → 0x90 ≤ b1.toNat) ∧ (b.toNat = 0xF4 → b1.toNat ≤ 0x8F) ∧ 0x80 ≤ b1.toNat ∧
            b1.toNat ≤ 0xBF := by
          split at hlo <;> split at hhi <;> omega
        right
        refine ⟨?_, ?_, by simp, by simp⟩
        · unfold ValidRune; simp only; omega
        unfold utf8Enc
        rw [if_neg (by simp only; omega), if_neg (by simp only; omega), if_neg (by simp only; omega)]
        simp only [List.take]
        rw [uint8_ofNat_eq (b := b) (by omega), uint8_ofNat_eq (b := b1) (by omega),
          uint8_ofNat_eq (b := b2) (by omega), uint8_ofNat_eq (b := b3) (by omega)]
      · simp
  · simp

theorem toValidUtf8_skip (l s : Bytes) : toValidUtf8 l.length (l ++ s) = toValidUtf8 0 s := by
  induction l with
  | nil => rfl
  | cons c l ih => simpa [toValidUtf8] using ih

/-- valid text is unchanged -/
theorem toValidUtf8_valid {s : Bytes} (h : ValidUtf8 s) : toValidUtf8 0 s = s := by
  induction h with
  | nil => rfl
  | cons c s hc _ ih =>
    have hdec := utf8Dec_enc c hc s
    cases hbl : utf8Enc c with
    | nil => have := utf8Enc_length_pos c; rw [hbl] at this; simp at this
    | cons b l =>
      rw [hbl, List.cons_append] at hdec
      rw [List.cons_append, toValidUtf8.eq_def]
      simp only [hdec, hbl]
      have := toValidUtf8_skip l s
      simp only [List.length_cons, Nat.add_sub_cancel, this, ih]
      rfl

end Verif
