import Verif.Lemmas.FloatRead
/-
The texts written for floats are decimal texts that mean the shortest digits, and are read as the float they were written for.
-/
set_option autoImplicit false
namespace Verif.FloatText
open Ieee JsonG

attribute [local irreducible] near magVal unit infKey shortest key

theorem shortest_pos {k : Nat} (hk : 0 < k) (hi : k < infKey) : 0 < (shortest k).1 := by
  have := (shortest_spec hk hi).2.1
  omega

theorem shortest_len {k : Nat} (hk : 0 < k) (hi : k < infKey) : (fmtNat (shortest k).1).length ≤ 17 :=
  fmtNat_len_le (by decide) (shortest_spec hk hi).2.2.1

theorem digits_ne {k : Nat} (hk : 0 < k) : digits k = fmtNat (shortest k).1 := by
  unfold digits; rw [if_neg (by omega)]

theorem point_ne {k : Nat} (hk : 0 < k) : point k = (fmtNat (shortest k).1).length + (shortest k).2 := by
  unfold point; rw [if_neg (by omega), digits_ne hk]

/-- where the point can be -/
theorem point_bounds {k : Nat} (hk : 0 < k) (hi : k < infKey) : -400 < point k ∧ (shortest k).2 < 400 ∧ point k < 417 := by
  have h1 := (shortest_spec hk hi).1
  have h2 := shortest_len hk hi
  have h3 : (shortest k).2 < 400 := by
    rcases Int.lt_or_le (shortest k).2 400 with h | h
    · exact h
    · rw [key_inf (shortest_pos hk hi) h] at h1; omega
  rw [point_ne hk]
  refine ⟨?_, h3, by omega⟩
  rcases Int.lt_or_le (-400) ((fmtNat (shortest k).1).length + (shortest k).2) with h | h
  · exact h
  · rw [key_small (fmtNat_len _).1 h] at h1; omega

theorem fmtNat_dig (n : Nat) : Digits (fmtNat n) := fmtNat_digits n

theorem take_drop_digits {ds : Bytes} (h : Digits ds) (n : Nat) : Digits (ds.take n) ∧ Digits (ds.drop n) :=
  ⟨fun c hc => h c (List.mem_of_mem_take hc), fun c hc => h c (List.mem_of_mem_drop hc)⟩

/-- texts without an exponent -/
theorem plain_decimal (sign : Bytes) (hs : sign = [] ∨ sign = [43] ∨ sign = [45]) {m : Nat} {e : Int} (hm : 0 < m) :
    ∃ m' e', Decimal (sign ++ plainText (fmtNat m) ((fmtNat m).length + e)) [] (sign = [45]) m' e' ∧ key 10 m' e' = key 10 m e ∧
      (e < 0 → m' = m ∧ e' = e) ∧ (0 ≤ e → m' = m * 10 ^ e.toNat ∧ e' = 0) := by
  have hne : fmtNat m ≠ [] := List.ne_nil_of_length_pos (fmtNat_len_pos m)
  have hd := fmtNat_dig m
  have hv := natOf_fmtNat m
  generalize hds : fmtNat m = ds at *
  have hl : 0 < ds.length := List.length_pos_of_ne_nil hne
  unfold plainText
  by_cases h1 : (ds.length : Int) + e ≤ 0
  · simp only [h1, if_true, hne, if_false]
    have d := Decimal.mk sign [48] (46 :: (zeros (-((ds.length : Int) + e)).toNat ++ ds)) (zeros (-((ds.length : Int) + e)).toNat ++ ds) [] [] 0 hs
      (by intro c hc; simp only [List.mem_singleton] at hc; subst hc; decide) (.some _ (digits_append.2 ⟨zeros_digits _, hd⟩)) (by simp) .none
    have e1 : natOf ([48] ++ (zeros (-((ds.length : Int) + e)).toNat ++ ds)) = m := by
      rw [← List.append_assoc, natOf_append, hv, natOf_append, natOf_zeros]
      have : natOf [48] = 0 := rfl
      rw [this]; simp
    have e2 : (0 : Int) - ((zeros (-((ds.length : Int) + e)).toNat ++ ds).length : Int) = e := by
      simp only [List.length_append, zeros, List.length_replicate]; omega
    rw [e1, e2] at d
    refine ⟨m, e, by simpa using d, rfl, fun _ => ⟨rfl, rfl⟩, fun h => by omega⟩
  · simp only [h1, if_false]
    by_cases h2 : (ds.length : Int) + e < ds.length
    · simp only [h2, if_true]
      obtain ⟨t1, t2⟩ := take_drop_digits hd ((ds.length : Int) + e).toNat
      have d := Decimal.mk sign (ds.take ((ds.length : Int) + e).toNat) (46 :: ds.drop ((ds.length : Int) + e).toNat) (ds.drop ((ds.length : Int) + e).toNat) [] [] 0 hs
        t1 (.some _ t2) (by rw [List.take_append_drop]; exact hne) .none
      rw [List.take_append_drop, hv] at d
      have e2 : (0 : Int) - ((ds.drop ((ds.length : Int) + e).toNat).length : Int) = e := by
        simp only [List.length_drop]; omega
      rw [e2] at d
      refine ⟨m, e, by simpa using d, rfl, fun _ => ⟨rfl, rfl⟩, fun h => by omega⟩
    · simp only [h2, if_false]
      have e0 : ((ds.length : Int) + e - ds.length).toNat = e.toNat := by congr 1; omega
      have d := Decimal.mk sign (ds ++ zeros e.toNat) [] [] [] [] 0 hs (digits_append.2 ⟨hd, zeros_digits _⟩) .none (by simp [hne]) .none
      rw [List.append_nil (ds ++ zeros e.toNat), natOf_append, natOf_zeros, hv] at d
      simp only [zeros, List.length_replicate, Nat.add_zero, List.append_nil, List.length_nil, Int.natCast_zero, Int.sub_zero] at d
      rw [e0]
      refine ⟨m * 10 ^ e.toNat, 0, d, ?_, fun h => by omega, fun _ => ⟨rfl, rfl⟩⟩
      have := key_shift m e e.toNat
      rwa [show e - (e.toNat : Int) = 0 by omega] at this

theorem natOf_expDigits (pad : Bool) (n : Nat) : natOf (expDigits pad n) = n ∧ Digits (expDigits pad n) ∧ expDigits pad n ≠ [] := by
  unfold expDigits
  split
  · refine ⟨?_, ?_, by simp⟩
    · rw [natOf_cons, natOf_fmtNat]; simp
    · intro c hc
      rcases List.mem_cons.1 hc with rfl | hc
      · decide
      · exact fmtNat_dig n c hc
  · exact ⟨natOf_fmtNat n, fmtNat_dig n, List.ne_nil_of_length_pos (fmtNat_len_pos n)⟩

/-- texts with an exponent -/
theorem exp_decimal (pad : Bool) (sign : Bytes) (hs : sign = [] ∨ sign = [43] ∨ sign = [45]) (m : Nat) (e : Int) :
    Decimal (sign ++ expText pad (fmtNat m) ((fmtNat m).length + e)) (expDigits pad ((fmtNat m).length + e - 1).natAbs) (sign = [45]) m e := by
  have hne : fmtNat m ≠ [] := List.ne_nil_of_length_pos (fmtNat_len_pos m)
  have hd := fmtNat_dig m
  have hv := natOf_fmtNat m
  generalize hds : fmtNat m = ds at *
  unfold expText
  simp only [hne, if_false]
  obtain ⟨x1, x2, x3⟩ := natOf_expDigits pad ((ds.length : Int) + e - 1).natAbs
  have hx : ∀ E : Int, E = (ds.length : Int) + e - 1 → ExpText (101 :: (if E < 0 then 45 else 43) :: expDigits pad E.natAbs) (expDigits pad E.natAbs) E := by
    intro E hE
    rw [← hE] at x1 x2 x3
    by_cases h : E < 0
    · simp only [h, if_true]
      have := ExpText.neg 101 _ (.inl rfl) x3 x2
      rw [x1] at this
      rwa [show -((E.natAbs : Nat) : Int) = E by omega] at this
    · simp only [h, if_false]
      have := ExpText.pos 101 [43] _ (.inl rfl) (.inr rfl) x3 x2
      rw [x1] at this
      rwa [show ((E.natAbs : Nat) : Int) = E by omega] at this
  have hx := hx _ rfl
  cases ds with
  | nil => exact absurd rfl hne
  | cons d t =>
    cases t with
    | nil =>
      have dd := Decimal.mk sign [d] [] [] _ _ _ hs hd .none (by simp) hx
      rw [List.append_nil, hv] at dd
      simp only [List.length_cons, List.length_nil, Nat.zero_add, Int.natCast_one, Int.natCast_zero, Int.sub_zero] at dd ⊢
      rw [show (1 : Int) + e - 1 = e by omega] at dd ⊢
      exact dd
    | cons d2 t =>
      have dd := Decimal.mk sign [d] (46 :: d2 :: t) (d2 :: t) _ _ _ hs (fun c hc => hd c (by simp at hc; simp [hc])) (.some _ fun c hc => hd c (List.mem_cons_of_mem _ hc)) (by simp) hx
      rw [show natOf ([d] ++ d2 :: t) = m from hv] at dd
      rw [show ((d :: d2 :: t).length : Int) + e - 1 - ((d2 :: t).length : Int) = e by simp only [List.length_cons]; omega] at dd
      exact dd

/-! ### Floats -/

theorem and_exp (n : Nat) : n &&& 0x7FF0000000000000 = n / 2 ^ 52 % 2 ^ 11 * 2 ^ 52 := by
  apply Nat.eq_of_testBit_eq
  intro i
  have e : (0x7FF0000000000000 : Nat) = (2 ^ 11 - 1) * 2 ^ 52 := by decide
  rw [Nat.testBit_and, e, Nat.testBit_mul_two_pow, Nat.testBit_mul_two_pow, Nat.testBit_two_pow_sub_one, Nat.testBit_mod_two_pow, Nat.testBit_div_two_pow]
  by_cases h : 52 ≤ i
  · simp only [h, decide_true, Bool.true_and, Nat.sub_add_cancel h]
    cases n.testBit i <;> simp
  · simp [h]

theorem finite_iff (x : UInt64) : floatFinite x = true ↔ Finite x := by
  have h := x.toNat_lt
  have e := and_exp x.toNat
  have e1 : (x &&& 0x7FF0000000000000).toNat = x.toNat &&& 0x7FF0000000000000 := by rw [UInt64.toNat_and]; rfl
  have e2 : (0x7FF0000000000000 : UInt64).toNat = 0x7FF0000000000000 := rfl
  unfold floatFinite Ieee.Finite f64Mag infKey
  rw [bne_iff_ne, ne_eq, ← UInt64.toNat_inj, e1, e2, e]
  omega

theorem sign_of (x : UInt64) : ((if isNeg x then [45] else [] : Bytes) = [] ∨ (if isNeg x then [45] else [] : Bytes) = [43] ∨ (if isNeg x then [45] else [] : Bytes) = [45]) ∧
    decide ((if isNeg x then [45] else [] : Bytes) = [45]) = isNeg x := by
  cases isNeg x <;> simp

theorem signed_finite {x : UInt64} (h : Finite x) (f : Nat → Bytes) : signed x f = (if isNeg x then [45] else []) ++ f (f64Mag x) := by
  unfold signed; rw [h.notNaN, h.notInf]; simp

/-- a text that means the float: decimal, and rounding to it -/
def Means (s : Bytes) (x : UInt64) : Prop := ∃ xs m e, Decimal s xs (isNeg x) m e ∧ natOf xs < 100000 ∧ key 10 m e = f64Mag x

theorem means_read {s : Bytes} {x : UInt64} (hx : Finite x) (h : Means s x) : parse64 s = some x := by
  obtain ⟨xs, m, e, h1, h2, h3⟩ := h
  rw [parse64_decimal h1 h2, h3, if_neg (by unfold Ieee.Finite at hx; omega), mk_eta]

theorem plain_means {x : UInt64} (h : Finite x) : Means ((if isNeg x then [45] else []) ++ plainText (digits (f64Mag x)) (point (f64Mag x))) x := by
  obtain ⟨s1, s2⟩ := sign_of x
  rcases Nat.eq_zero_or_pos (f64Mag x) with h0 | h0
  · have hd : digits (f64Mag x) = [] := by unfold digits; rw [if_pos h0]
    have hp : point (f64Mag x) = 0 := by unfold point; rw [if_pos h0]
    rw [hd, hp]
    have d := Decimal.mk (if isNeg x then [45] else []) [48] [] [] [] [] 0 s1 (by intro c hc; simp only [List.mem_singleton] at hc; subst hc; decide) .none (by simp) .none
    rw [s2] at d
    refine ⟨[], natOf [48], 0, ?_, by decide, ?_⟩
    · simpa [plainText] using d
    · have : natOf [48] = 0 := rfl
      rw [this, key_zero 10 (by decide), h0]
  · rw [digits_ne h0, point_ne h0]
    obtain ⟨m, e, d, hk, _⟩ := plain_decimal _ s1 (e := (shortest (f64Mag x)).2) (shortest_pos h0 h)
    rw [s2] at d
    exact ⟨[], m, e, d, by decide, by rw [hk, (shortest_spec h0 h).1]⟩

theorem exp_means {x : UInt64} (h : Finite x) (pad : Bool) : Means ((if isNeg x then [45] else []) ++ expText pad (digits (f64Mag x)) (point (f64Mag x))) x := by
  obtain ⟨s1, s2⟩ := sign_of x
  rcases Nat.eq_zero_or_pos (f64Mag x) with h0 | h0
  · have hd : digits (f64Mag x) = [] := by unfold digits; rw [if_pos h0]
    rw [hd]
    obtain ⟨x1, x2, x3⟩ := natOf_expDigits pad 0
    have d := Decimal.mk (if isNeg x then [45] else []) [48] [] [] (101 :: ([43] ++ expDigits pad 0)) (expDigits pad 0) (natOf (expDigits pad 0)) s1
      (by intro c hc; simp only [List.mem_singleton] at hc; subst hc; decide) .none (by simp) (.pos 101 [43] _ (.inl rfl) (.inr rfl) x3 x2)
    rw [s2] at d
    refine ⟨_, natOf [48], _, by simpa [expText] using d, by rw [x1]; decide, ?_⟩
    have : natOf [48] = 0 := rfl
    rw [this, key_zero 10 (by decide), h0]
  · have d := exp_decimal pad _ s1 (shortest (f64Mag x)).1 (shortest (f64Mag x)).2
    rw [s2, ← point_ne h0, ← digits_ne h0] at d
    obtain ⟨b1, _, b2⟩ := point_bounds h0 h
    refine ⟨_, _, _, d, ?_, (shortest_spec h0 h).1⟩
    rw [(natOf_expDigits _ _).1]; omega

theorem fmtF_means {x : UInt64} (h : Finite x) : Means (fmtF x) x := by
  unfold fmtF; rw [signed_finite h]; exact plain_means h
theorem fmtE_means {x : UInt64} (h : Finite x) : Means (fmtE x) x := by
  unfold fmtE; rw [signed_finite h]; exact exp_means h true
theorem fmtG_means {x : UInt64} (h : Finite x) : Means (fmtG x) x := by
  unfold fmtG; rw [signed_finite h]
  by_cases hc : point (f64Mag x) - 1 < -4 ∨ 6 ≤ point (f64Mag x) - 1
  · rw [if_pos hc]; exact exp_means h true
  · rw [if_neg hc]; exact plain_means h
theorem fmtJSON_means {x : UInt64} (h : Finite x) : Means (fmtJSON x) x := by
  unfold fmtJSON; rw [signed_finite h]
  by_cases hc : f64Mag x ≠ 0 ∧ (f64Mag x < key 10 1 (-6) ∨ key 10 1 21 ≤ f64Mag x)
  · rw [if_pos hc]; exact exp_means h false
  · rw [if_neg hc]; exact plain_means h

/-- the texts for infinities and NaN are read -/
theorem special_texts {x : UInt64} (h : ¬ Finite x) (f : Nat → Bytes) :
    parse64 (signed x f) = some (if f64NaN x then nan else x) := by
  unfold signed
  cases hn : f64NaN x with
  | true => simp only [if_true]; decide +kernel
  | false =>
    have hi : isInf x = true := by
      cases h' : isInf x with
      | true => rfl
      | false => exact absurd (finite_of hn h') h
    have hx := mk_eta x
    have hm : f64Mag x = infKey := by simpa [isInf] using hi
    simp only [Bool.false_eq_true, if_false, hi, if_true]
    rw [hm] at hx
    cases hg : isNeg x with
    | true => rw [hg] at hx; rw [← hx]; decide +kernel
    | false => rw [hg] at hx; rw [← hx]; decide +kernel

end Verif.FloatText
