import Verif.Lemmas.JsonParse
/-
Encoded JSON holds no control bytes, in particular no line ends.
-/
set_option autoImplicit false
namespace Verif.JsonStd

theorem escAscii_vis {b : UInt8} : ∀ c ∈ escAscii b, 32 ≤ c.toNat := by
  have hx : ∀ n < 16, 32 ≤ (hexDigit n).toNat := by decide
  have hb := b.toNat_lt
  unfold escAscii
  split
  · rename_i h
    simp only [List.mem_singleton, forall_eq]
    simp only [htmlSafe, Bool.and_eq_true, decide_eq_true_eq] at h
    have h1 := h.1.1.1.1.1.1
    rw [UInt8.le_iff_toNat_le] at h1
    exact h1
  split
  · rename_i h
    rcases h with rfl | rfl <;> decide
  split
  · decide
  split
  · decide
  split
  · decide
  · intro c hc
    simp only [List.mem_cons, List.not_mem_nil, or_false] at hc
    rcases hc with rfl | rfl | rfl | rfl | rfl | rfl
    · decide
    · decide
    · decide
    · decide
    · exact hx _ (by omega)
    · exact hx _ (by omega)

theorem escBody_vis (s : Bytes) : ∀ c ∈ escBody 0 s, 32 ≤ c.toNat := by
  suffices H : ∀ n (s : Bytes), s.length ≤ n → ∀ c ∈ escBody 0 s, 32 ≤ c.toNat from H _ s (Nat.le_refl _)
  intro n
  induction n with
  | zero =>
    intro s hs
    cases s with
    | nil => simp [escBody]
    | cons => simp at hs
  | succ n ih =>
    intro s hs
    cases s with
    | nil => simp [escBody]
    | cons b t =>
      simp only [List.length_cons] at hs
      by_cases hb : b < 0x80
      · rw [escBody.eq_def]
        simp only [if_pos hb]
        intro c hc
        rcases List.mem_append.mp hc with h | h
        · exact escAscii_vis c h
        · exact ih t (by omega) c h
      · have hb' : 0x80 ≤ b.toNat := by
          rw [UInt8.lt_iff_toNat_lt] at hb
          have e : (0x80 : UInt8).toNat = 128 := rfl
          omega
        rw [escBody.eq_def]
        simp only [if_neg hb]
        rcases utf8Enc_dec b t with ⟨h1, h2⟩ | ⟨hv, h1, h2, h3⟩
        · rw [if_pos ⟨h1, h2⟩]
          intro c hc
          rcases List.mem_append.mp hc with h | h
          · clear hc; revert h; revert c; decide
          · exact ih t (by omega) c h
        · generalize utf8Dec (b :: t) = p at *
          obtain ⟨r, k⟩ := p
          simp only at *
          have hne : ¬ (r = runeError ∧ k = 1) := by
            rintro ⟨rfl, rfl⟩
            rw [show utf8Enc runeError = [0xEF, 0xBF, 0xBD] by decide] at h1
            simp at h1
          simp only [List.length_cons] at h3
          rw [if_neg hne, Json.escBody_drop _ _ (by omega)]
          have IH := ih (t.drop (k - 1)) (by simp; omega)
          have hr : 0x80 ≤ r := by
            apply Nat.le_of_not_lt
            intro hlt
            rw [utf8Enc_ascii hlt] at h1
            cases k with
            | zero => omega
            | succ k =>
              simp at h1
              rw [← h1.1, ofNat_toNat (by omega)] at hb'
              omega
          split
          · intro c hc
            rcases List.mem_append.mp hc with h | h
            · clear hc; revert h; revert c; decide
            · exact IH c h
          · split
            · intro c hc
              rcases List.mem_append.mp hc with h | h
              · clear hc; revert h; revert c; decide
              · exact IH c h
            · rw [← h1]
              intro c hc
              rcases List.mem_append.mp hc with h | h
              · exact Nat.le_trans (by decide) (utf8Enc_high hr hv c h)
              · exact IH c h

theorem digits_vis {t : Bytes} (h : ∀ c ∈ t, isDigit c = true) : ∀ c ∈ t, 32 ≤ c.toNat := by
  intro c hc
  have := h _ hc
  simp only [isDigit, Bool.and_eq_true, decide_eq_true_eq] at this
  have := this.1
  rw [UInt8.le_iff_toNat_le] at this
  exact Nat.le_trans (by decide) this

theorem numeral_vis {n : Bytes} (h : Numeral n) : ∀ c ∈ n, 32 ≤ c.toNat := by
  obtain ⟨sign, t, u, hs, ht, hu, rfl⟩ := h
  have h1 : ∀ c ∈ sign, 32 ≤ c.toNat := by rcases hs with rfl | rfl <;> simp
  have h2 : ∀ c ∈ t, 32 ≤ c.toNat := by
    cases ht with
    | zero => simp
    | nonzero c t a _ b =>
      refine digits_vis ?_
      intro x hx
      simp only [List.mem_cons] at hx
      rcases hx with rfl | hx
      · exact a
      · exact b x hx
  have hsg : ∀ sg : Bytes, (sg = [] ∨ sg = [43] ∨ sg = [45]) → ∀ c ∈ sg, 32 ≤ c.toNat := by
    rintro sg (rfl | rfl | rfl) <;> simp
  have hee : ∀ e : UInt8, (e = 101 ∨ e = 69) → 32 ≤ e.toNat := by rintro e (rfl | rfl) <;> decide
  have h3 : ∀ c ∈ u, 32 ≤ c.toNat := by
    rcases hu with rfl | hu
    · simp
    cases hu with
    | frac v _ hv =>
      intro c hc
      simp only [List.mem_cons] at hc
      rcases hc with rfl | hc
      · decide
      · exact digits_vis hv c hc
    | exp e sg v he hs' _ hv =>
      intro c hc
      simp only [List.mem_cons, List.mem_append] at hc
      rcases hc with rfl | hc | hc
      · exact hee _ he
      · exact hsg _ hs' c hc
      · exact digits_vis hv c hc
    | both w e sg v _ hw he hs' _ hv =>
      intro c hc
      simp only [List.mem_cons, List.mem_append] at hc
      rcases hc with rfl | hc | rfl | hc | hc
      · decide
      · exact digits_vis hw c hc
      · exact hee _ he
      · exact hsg _ hs' c hc
      · exact digits_vis hv c hc
  intro c hc
  simp only [List.mem_append] at hc
  rcases hc with hc | hc | hc
  · exact h1 c hc
  · exact h2 c hc
  · exact h3 c hc

mutual
theorem enc_vis (F : FloatCodec) : ∀ v, NumsOK F v → ∀ c ∈ enc F v, 32 ≤ c.toNat
  | .null, _ => by simp [enc]
  | .bool true, _ => by simp [enc]
  | .bool false, _ => by simp [enc]
  | .int i, _ => numeral_vis (fmtInt_numeral i)
  | .gint i, _ => numeral_vis (fmtInt_numeral i)
  | .f64 x, h => by simp only [NumsOK] at h; simp only [enc]; exact numeral_vis h
  | .str s, _ => by
    intro c hc
    simp only [enc, jsonStr, List.mem_cons, List.mem_append, List.not_mem_nil, or_false] at hc
    rcases hc with rfl | hc | rfl
    · decide
    · exact escBody_vis s c hc
    · decide
  | .bytes s, _ => by
    intro c hc
    simp only [enc, List.mem_cons, List.mem_append, List.not_mem_nil, or_false] at hc
    rcases hc with rfl | hc | rfl
    · decide
    · exact (base64_ascii s c hc).2
    · decide
  | .arr l, h => by
    simp only [NumsOK] at h
    intro c hc
    simp only [enc, List.mem_cons, List.mem_append, List.not_mem_nil, or_false] at hc
    rcases hc with rfl | hc | rfl
    · decide
    · exact encL_vis F l h c hc
    · decide
  | .obj m, h => by
    simp only [NumsOK] at h
    intro c hc
    simp only [enc, List.mem_cons, List.mem_append, List.not_mem_nil, or_false] at hc
    rcases hc with rfl | hc | rfl
    · decide
    · exact encF_vis F m h c hc
    · decide
theorem encL_vis (F : FloatCodec) : ∀ l, NumsOKL F l → ∀ c ∈ encL F l, 32 ≤ c.toNat
  | [], _ => by simp [encL]
  | [v], h => by
    simp only [NumsOKL] at h
    simp only [encL]
    exact enc_vis F v h.1
  | v :: w :: l, h => by
    rw [NumsOKL] at h
    intro c hc
    simp only [encL, List.mem_cons, List.mem_append] at hc
    rcases hc with hc | rfl | hc
    · exact enc_vis F v h.1 c hc
    · decide
    · exact encL_vis F (w :: l) h.2 c hc
theorem encF_vis (F : FloatCodec) : ∀ m, NumsOKF F m → ∀ c ∈ encF F m, 32 ≤ c.toNat
  | [], _ => by simp [encF]
  | [(k, v)], h => by
    simp only [NumsOKF] at h
    intro c hc
    simp only [encF, jsonStr, List.mem_cons, List.mem_append, List.not_mem_nil, or_false] at hc
    rcases hc with (rfl | hc | rfl) | rfl | hc
    · decide
    · exact escBody_vis k c hc
    · decide
    · decide
    · exact enc_vis F v h.1 c hc
  | (k, v) :: w :: m, h => by
    rw [NumsOKF] at h
    intro c hc
    simp only [encF, jsonStr, List.mem_cons, List.mem_append, List.not_mem_nil, or_false] at hc
    rcases hc with (rfl | hc | rfl) | rfl | hc | rfl | hc
    · decide
    · exact escBody_vis k c hc
    · decide
    · decide
    · exact enc_vis F v h.1 c hc
    · decide
    · exact encF_vis F (w :: m) h.2 c hc
end

end Verif.JsonStd
