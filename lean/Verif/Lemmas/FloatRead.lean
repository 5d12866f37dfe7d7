import Verif.Spec.FloatText
import Verif.Lemmas.FloatDigits
/-
Reading decimal texts.
-/
set_option autoImplicit false
namespace Verif.FloatText
open Ieee JsonG

/-! ### Digits -/

theorem natOf_acc (n : Nat) (ds : Bytes) : ds.foldl (fun n c => n * 10 + (c.toNat - 48)) n = n * 10 ^ ds.length + natOf ds := by
  unfold natOf
  induction ds generalizing n with
  | nil => simp
  | cons c ds ih =>
    simp only [List.foldl_cons, List.length_cons]
    rw [ih, ih (0 * 10 + (c.toNat - 48)), Nat.pow_succ, Nat.add_mul, Nat.mul_assoc, Nat.mul_comm 10, Nat.zero_mul, Nat.zero_add]
    omega

theorem natOf_append (a b : Bytes) : natOf (a ++ b) = natOf a * 10 ^ b.length + natOf b := by
  have : natOf (a ++ b) = b.foldl (fun n c => n * 10 + (c.toNat - 48)) (natOf a) := List.foldl_append
  rw [this, natOf_acc]

theorem natOf_cons (c : UInt8) (s : Bytes) : natOf (c :: s) = (c.toNat - 48) * 10 ^ s.length + natOf s := by
  have : natOf (c :: s) = s.foldl (fun n c => n * 10 + (c.toNat - 48)) (0 * 10 + (c.toNat - 48)) := rfl
  rw [this, natOf_acc]; simp

theorem parseNatAux_natOf (ds : Bytes) (acc : Nat) (h : Digits ds) : parseNatAux acc ds = some (acc * 10 ^ ds.length + natOf ds) := by
  induction ds generalizing acc with
  | nil => simp [parseNatAux, natOf]
  | cons c s ih =>
    simp only [parseNatAux, h c (by simp), if_true]
    rw [ih _ (fun x hx => h x (by simp [hx])), natOf_cons, List.length_cons, Nat.pow_succ, Nat.add_mul, Nat.mul_assoc, Nat.mul_comm 10]
    simp only [Option.some.injEq]; omega

theorem fmtNat_digits (n : Nat) : Digits (fmtNat n) := fmtNatF_digits n n

theorem natOf_fmtNat (n : Nat) : natOf (fmtNat n) = n := by
  have h := parseNat_fmtNat n
  rw [parseNat_eq (show fmtNat n ≠ [] from fmtNatF_ne_nil _ _), parseNatAux_natOf _ _ (fmtNat_digits n)] at h
  simpa using h

theorem zeros_digits (n : Nat) : Digits (zeros n) := by
  intro c hc
  have := List.eq_of_mem_replicate hc
  subst this; decide

theorem natOf_zeros (n : Nat) : natOf (zeros n) = 0 := by
  induction n with
  | zero => rfl
  | succ n ih =>
    have : zeros (n + 1) = 48 :: zeros n := rfl
    rw [this, natOf_cons, ih]; simp

theorem digits_append {a b : Bytes} : Digits (a ++ b) ↔ Digits a ∧ Digits b := by
  unfold Digits
  constructor
  · exact fun h => ⟨fun c hc => h c (by simp [hc]), fun c hc => h c (by simp [hc])⟩
  · rintro ⟨h1, h2⟩ c hc
    rcases List.mem_append.1 hc with h | h
    · exact h1 c h
    · exact h2 c h

theorem isDigit_ne {c : UInt8} (h : isDigit c = true) : c ≠ 95 ∧ c ≠ 46 ∧ c ≠ 43 ∧ c ≠ 45 ∧ c ≠ 101 ∧ c ≠ 69 := by
  refine ⟨?_, ?_, ?_, ?_, ?_, ?_⟩ <;> (rintro rfl; revert h; decide)

/-! ### Scanning -/

theorem scanMant_digits (a : Mant) (ds r : Bytes) (h : Digits ds) :
    scanMant false a (ds ++ r) = scanMant false { m := a.m * 10 ^ ds.length + natOf ds, frac := if a.dot then a.frac + ds.length else a.frac, dot := a.dot, digs := a.digs || !ds.isEmpty } r := by
  induction ds generalizing a with
  | nil =>
    simp [natOf]
  | cons c s ih =>
    obtain ⟨h1, h2, _⟩ := isDigit_ne (h c (by simp))
    rw [List.cons_append]
    conv => lhs; unfold scanMant
    simp only [h1, h2, if_false, digitVal, h c (by simp), Bool.false_eq_true, if_true]
    rw [ih _ (fun x hx => h x (by simp [hx]))]
    congr 1
    simp only [Mant.mk.injEq, Bool.true_or, List.length_cons, List.isEmpty_cons, Bool.not_false, Bool.or_true, and_true, true_and]
    constructor
    · rw [natOf_cons, Nat.pow_succ, Nat.add_mul, Nat.mul_assoc, Nat.mul_comm 10]; omega
    · split <;> omega

theorem scanExp_digits (e : Nat) (ds : Bytes) (h : Digits ds) (hl : e * 10 ^ ds.length + natOf ds < 100000) : scanExp e ds = (e * 10 ^ ds.length + natOf ds, []) := by
  induction ds generalizing e with
  | nil => simp [scanExp, natOf]
  | cons c s ih =>
    obtain ⟨h1, _⟩ := isDigit_ne (h c (by simp))
    rw [natOf_cons, List.length_cons, Nat.pow_succ] at hl
    have hp : 0 < 10 ^ s.length := Nat.pow_pos (by decide)
    have he : e < 10000 := by
      rcases Nat.lt_or_ge e 10000 with h | h
      · exact h
      · have := Nat.mul_le_mul h (show 10 ≤ 10 ^ s.length * 10 by omega)
        omega
    have e1 : (e * 10 + (c.toNat - 48)) * 10 ^ s.length + natOf s = e * 10 ^ (s.length + 1) + ((c.toNat - 48) * 10 ^ s.length + natOf s) := by
      rw [Nat.add_mul, Nat.mul_assoc, Nat.mul_comm 10, ← Nat.pow_succ, Nat.add_assoc]
    simp only [scanExp, h1, if_false, h c (by simp), if_true, he]
    rw [ih _ (fun x hx => h x (by simp [hx])) (by rw [e1, Nat.pow_succ]; exact hl), e1, natOf_cons, List.length_cons]

theorem natOf_lt (ds : Bytes) (h : Digits ds) : natOf ds < 10 ^ ds.length := by
  induction ds with
  | nil => decide
  | cons c s ih =>
    have := ih fun x hx => h x (by simp [hx])
    have hc := (isDigit_iff c).1 (h c (by simp))
    rw [natOf_cons, List.length_cons, Nat.pow_succ]
    have := Nat.mul_le_mul_right (10 ^ s.length) (show c.toNat - 48 ≤ 9 by omega)
    omega

theorem scanExp_ge (e : Nat) (ds : Bytes) (h : Digits ds) : (scanExp e ds).2 = [] ∧ (10000 ≤ e * 10 ^ ds.length + natOf ds → 10000 ≤ (scanExp e ds).1) := by
  induction ds generalizing e with
  | nil => simp [scanExp, natOf]
  | cons c s ih =>
    obtain ⟨h1, _⟩ := isDigit_ne (h c (by simp))
    simp only [scanExp, h1, if_false, h c (by simp), if_true]
    have ih := ih (if e < 10000 then e * 10 + (c.toNat - 48) else e) (fun x hx => h x (by simp [hx]))
    refine ⟨ih.1, fun hl => ih.2 ?_⟩
    split
    · rw [natOf_cons, List.length_cons, Nat.pow_succ] at hl
      rw [Nat.add_mul, Nat.mul_assoc, Nat.mul_comm 10]; omega
    · have := Nat.mul_le_mul (show 10000 ≤ e by omega) (show 1 ≤ 10 ^ s.length from Nat.pow_pos (by decide))
      omega

theorem scanExp_clamp (ds : Bytes) (h : Digits ds) : ∃ C, scanExp 0 ds = (C, []) ∧ (natOf ds < 100000 → C = natOf ds) ∧ (C = natOf ds ∨ 10000 ≤ C ∧ 10000 ≤ natOf ds) := by
  obtain ⟨h1, h2⟩ := scanExp_ge 0 ds h
  have h3 := scanExp_digits 0 ds h
  simp only [Nat.zero_mul, Nat.zero_add] at h2 h3
  refine ⟨(scanExp 0 ds).1, by rw [← h1], fun hl => by rw [h3 hl], ?_⟩
  rcases Nat.lt_or_ge (natOf ds) 100000 with hl | hl
  · left; rw [h3 hl]
  · exact .inr ⟨h2 (by omega), by omega⟩

theorem expo_text {c : UInt8} {x xs : Bytes} {E : Int} (h : ExpText (c :: x) xs E) : c ||| 32 = 101 ∧
    ∃ C, expo x = some (C, []) ∧ (natOf xs < 100000 → C = E) ∧ (C = E ∨ 10000 ≤ C ∧ 10000 ≤ E ∨ C ≤ -10000 ∧ E ≤ -10000) := by
  cases h with
  | pos _ sg _ hc hsg hne hd =>
    refine ⟨by rcases hc with rfl | rfl <;> decide, ?_⟩
    cases xs with
    | nil => exact absurd rfl hne
    | cons d t =>
      have hd0 := hd d (by simp)
      obtain ⟨_, _, h3, h4, _⟩ := isDigit_ne hd0
      obtain ⟨C, hs, hC1, hC2⟩ := scanExp_clamp (d :: t) hd
      refine ⟨(C : Int), ?_, fun hl => by rw [hC1 hl], by omega⟩
      rcases hsg with rfl | rfl
      · simp only [expo, List.nil_append, List.head?_cons, Option.some.injEq, h3, h4, or_self, if_false, hd0, if_true, hs, decide_false, Bool.false_eq_true]
      · simp only [expo, List.cons_append, List.nil_append, List.head?_cons, Option.some.injEq, or_true, if_true, List.tail_cons, hd0, hs]
        rfl
  | neg _ _ hc hne hd =>
    refine ⟨by rcases hc with rfl | rfl <;> decide, ?_⟩
    cases xs with
    | nil => exact absurd rfl hne
    | cons d t =>
      have hd0 := hd d (by simp)
      obtain ⟨C, hs, hC1, hC2⟩ := scanExp_clamp (d :: t) hd
      refine ⟨-(C : Int), ?_, fun hl => by rw [hC1 hl], by omega⟩
      simp only [expo, List.head?_cons, true_or, if_true, List.tail_cons, hd0, hs, decide_true]

/-- the characters of decimal numbers -/
def NumCh (c : UInt8) : Prop := isDigit c = true ∨ c = 46 ∨ c = 101 ∨ c = 69 ∨ c = 43 ∨ c = 45

theorem expText_ch {x xs : Bytes} {E : Int} (h : ExpText x xs E) : ∀ c ∈ x, NumCh c := by
  intro c hc
  cases h with
  | none => cases hc
  | pos d sg _ hd hsg _ hdig =>
    rcases List.mem_cons.1 hc with rfl | hc
    · rcases hd with rfl | rfl <;> simp [NumCh]
    · rcases List.mem_append.1 hc with hc | hc
      · rcases hsg with rfl | rfl
        · cases hc
        · simp only [List.mem_singleton] at hc; subst hc; simp [NumCh]
      · exact .inl (hdig c hc)
  | neg d _ hd _ hdig =>
    rcases List.mem_cons.1 hc with rfl | hc
    · rcases hd with rfl | rfl <;> simp [NumCh]
    · rcases List.mem_cons.1 hc with rfl | hc
      · simp [NumCh]
      · exact .inl (hdig c hc)

theorem fracText_ch {f b : Bytes} (h : FracText f b) : ∀ c ∈ f, NumCh c := by
  intro c hc
  cases h with
  | none => cases hc
  | some _ hb =>
    rcases List.mem_cons.1 hc with rfl | hc
    · simp [NumCh]
    · exact .inl (hb c hc)

theorem numCh_bits {c : UInt8} (h : NumCh c) : c ≠ 95 ∧ c ||| 32 ≠ 120 ∧ (if 65 ≤ c ∧ c ≤ 90 then c + 32 else c) ≠ 105 ∧ (if 65 ≤ c ∧ c ≤ 90 then c + 32 else c) ≠ 110 := by
  have key : ∀ n : Fin 256, (isDigit (UInt8.ofNat n.1) = true ∨ UInt8.ofNat n.1 = 46 ∨ UInt8.ofNat n.1 = 101 ∨ UInt8.ofNat n.1 = 69 ∨ UInt8.ofNat n.1 = 43 ∨ UInt8.ofNat n.1 = 45) →
      UInt8.ofNat n.1 ≠ 95 ∧ UInt8.ofNat n.1 ||| 32 ≠ 120 ∧ (if 65 ≤ UInt8.ofNat n.1 ∧ UInt8.ofNat n.1 ≤ 90 then UInt8.ofNat n.1 + 32 else UInt8.ofNat n.1) ≠ 105 ∧
        (if 65 ≤ UInt8.ofNat n.1 ∧ UInt8.ofNat n.1 ≤ 90 then UInt8.ofNat n.1 + 32 else UInt8.ofNat n.1) ≠ 110 := by decide +kernel
  have := key ⟨c.toNat, c.toNat_lt⟩
  simp only [UInt8.ofNat_toNat] at this
  exact this h

theorem hexPrefix_num {t : Bytes} (h : ∀ c ∈ t, NumCh c) : hexPrefix t = false := by
  unfold hexPrefix
  split
  · rename_i c x y r
    have := (numCh_bits (h x (by simp))).2.1
    simp [this]
  · rfl

theorem special_num {s : Bytes} (h : ∀ c ∈ s, NumCh c) : special s = none := by
  have h1 : ∀ t : Bytes, (∀ c ∈ t, NumCh c) → ∀ d : UInt8, ∀ r, (d = 105 ∨ d = 110) → lowerAscii t ≠ d :: r := by
    intro t ht d r hd e
    cases t with
    | nil => cases e
    | cons c t =>
      have := numCh_bits (ht c (by simp))
      simp only [lowerAscii, List.map_cons, List.cons.injEq] at e
      rcases hd with rfl | rfl
      · exact this.2.2.1 e.1
      · exact this.2.2.2 e.1
  have hu : ∀ c ∈ unsign s, NumCh c := by
    intro c hc
    unfold unsign at hc
    split at hc
    · exact h c (List.mem_of_mem_tail hc)
    · exact h c hc
  unfold special
  simp only
  rw [if_neg, if_neg]
  · exact h1 s h 110 b!"an" (.inr rfl)
  · rintro (e | e)
    · exact h1 _ hu 105 b!"nf" (.inl rfl) e
    · exact h1 _ hu 105 b!"nfinity" (.inl rfl) e

theorem scanMant_stop (a : Mant) (x xs : Bytes) (E : Int) (h : ExpText x xs E) : scanMant false a x = (a, x) := by
  cases h with
  | none => rfl
  | pos c _ _ hc _ _ _ => rcases hc with rfl | rfl <;> simp [scanMant, digitVal, isDigit]
  | neg c _ hc _ _ => rcases hc with rfl | rfl <;> simp [scanMant, digitVal, isDigit]

theorem unsign_sign {sign t : Bytes} (h : sign = [] ∨ sign = [43] ∨ sign = [45]) (ht : ∀ c r, t = c :: r → c ≠ 43 ∧ c ≠ 45) :
    unsign (sign ++ t) = t ∧ decide ((sign ++ t).head? = some 45) = decide (sign = [45]) := by
  rcases h with rfl | rfl | rfl
  · cases t with
    | nil => exact ⟨rfl, rfl⟩
    | cons c r =>
      obtain ⟨h1, h2⟩ := ht c r rfl
      simp [unsign, h1, h2]
  · simp [unsign]
  · simp [unsign]

theorem decimal_ch {s xs : Bytes} {neg : Bool} {m : Nat} {e : Int} (h : Decimal s xs neg m e) : ∀ c ∈ s, NumCh c := by
  cases h with
  | mk sign a f b x _ E hs ha hf _ hx =>
    intro c hc
    rcases List.mem_append.1 hc with hc | hc
    · rcases hs with rfl | rfl | rfl
      · cases hc
      · simp only [List.mem_singleton] at hc; subst hc; simp [NumCh]
      · simp only [List.mem_singleton] at hc; subst hc; simp [NumCh]
    · rcases List.mem_append.1 hc with hc | hc
      · exact .inl (ha c hc)
      · rcases List.mem_append.1 hc with hc | hc
        · exact fracText_ch hf c hc
        · exact expText_ch hx c hc

/-- decimal texts are read -/
theorem readFloat_decimal {s xs : Bytes} {neg : Bool} {m : Nat} {e : Int} (h : Decimal s xs neg m e) :
    ∃ e', readFloat s = some { neg := neg, hex := false, m := m, e := e' } ∧ (natOf xs < 100000 → e' = e) ∧
      (s.length ≤ 9000 → e' = e ∨ 400 ≤ e' ∧ 400 ≤ e ∨ ∃ n : Nat, m < 10 ^ n ∧ n + e' ≤ -400 ∧ n + e ≤ -400) := by
  have hch := decimal_ch h
  cases h with
  | mk sign a f b x _ E hs ha hf hne hx =>
    have hhead : ∀ c r, a ++ (f ++ x) = c :: r → c ≠ 43 ∧ c ≠ 45 := by
      intro c r e
      cases a with
      | cons d t =>
        simp only [List.cons_append, List.cons.injEq] at e
        obtain ⟨_, _, h3, h4, _⟩ := isDigit_ne (ha d (by simp))
        exact ⟨e.1 ▸ h3, e.1 ▸ h4⟩
      | nil =>
        cases hf with
        | none => exact absurd rfl hne
        | some _ _ =>
          simp only [List.nil_append, List.cons_append, List.cons.injEq] at e
          rw [← e.1]; decide
    obtain ⟨hu, hn⟩ := unsign_sign hs hhead
    have h95 : (95 : UInt8) ∉ sign ++ (a ++ (f ++ x)) := fun hc => (numCh_bits (hch _ hc)).1 rfl
    have hhex : hexPrefix (a ++ (f ++ x)) = false := hexPrefix_num fun c hc => hch c (List.mem_append.2 (.inr hc))
    have hfin : ∀ (M : Mant) (E' : Int), finish (sign ++ (a ++ (f ++ x))) false M E' = some { neg := decide (sign = [45]), hex := false, m := M.m, e := E' - M.frac } := by
      intro M E'
      simp only [finish, h95, false_and, if_false, Bool.false_eq_true, hn]
    have hscan : scanMant false {} (a ++ (f ++ x)) = ({ m := natOf (a ++ b), frac := b.length, dot := !f.isEmpty, digs := true }, x) := by
      rw [scanMant_digits _ _ _ ha]
      cases hf with
      | none =>
        have ha' : a ≠ [] := by simpa using hne
        have hie : a.isEmpty = false := by cases a with | nil => exact absurd rfl ha' | cons => rfl
        rw [List.nil_append, scanMant_stop _ _ _ _ hx]
        simp [hie]
      | some _ hb =>
        rw [List.cons_append]
        conv => lhs; unfold scanMant
        simp only [show (46 : UInt8) ≠ 95 by decide, if_false, if_true, Bool.false_eq_true]
        rw [scanMant_digits _ _ _ hb, scanMant_stop _ _ _ _ hx]
        simp only [Nat.zero_mul, Nat.zero_add, Bool.false_or, if_true, ← natOf_append, Prod.mk.injEq, Mant.mk.injEq, true_and, and_true, List.isEmpty_cons, Bool.not_false]
        cases a with
        | cons c t => rfl
        | nil => cases b with
          | nil => exact absurd rfl hne
          | cons c t => rfl
    unfold readFloat
    simp only [hu, hhex, Bool.false_eq_true, if_false, hscan, Bool.true_eq_false]
    cases x with
    | nil =>
      cases hx
      exact ⟨0 - b.length, by simp only [hfin], fun _ => rfl, fun _ => .inl rfl⟩
    | cons c y =>
      obtain ⟨h2, C, h1, hC1, hC2⟩ := expo_text hx
      refine ⟨C - b.length, by simp only [h1, h2, if_true, hfin], fun hl => by rw [hC1 hl], fun hlen => ?_⟩
      have hbl : b.length ≤ f.length := by cases hf <;> simp
      simp only [List.length_append] at hlen
      rcases hC2 with rfl | ⟨c1, c2⟩ | ⟨c1, c2⟩
      · exact .inl rfl
      · exact .inr (.inl (by omega))
      · refine .inr (.inr ⟨(a ++ b).length, natOf_lt _ ?_, ?_, ?_⟩)
        · intro z hz
          rcases List.mem_append.1 hz with hz | hz
          · exact ha z hz
          · cases hf with
            | none => cases hz
            | some _ hb => exact hb z hz
        · simp only [List.length_append]; omega
        · simp only [List.length_append]; omega

theorem parse64_decimal {s xs : Bytes} {neg : Bool} {m : Nat} {e : Int} (h : Decimal s xs neg m e) (hl : natOf xs < 100000) :
    parse64 s = if key 10 m e = infKey then none else some (mk neg (key 10 m e)) := by
  obtain ⟨e', h1, h2, _⟩ := readFloat_decimal h
  unfold parse64
  rw [special_num (decimal_ch h), h1, h2 hl]
  simp

/-! ### What is read is a decimal text -/

theorem scanExp_inv (e e' : Nat) (s : Bytes) (h : scanExp e s = (e', [])) (h95 : (95 : UInt8) ∉ s) : Digits s := by
  induction s generalizing e with
  | nil => intro c hc; cases hc
  | cons c s ih =>
    have h1 : c ≠ 95 := fun e => h95 (by simp [e])
    simp only [scanExp, h1, if_false] at h
    by_cases hd : isDigit c = true
    · simp only [hd, if_true] at h
      have := ih _ h (fun hc => h95 (by simp [hc]))
      intro x hx
      rcases List.mem_cons.1 hx with rfl | hx
      · exact hd
      · exact this x hx
    · simp [hd] at h

theorem digits_nil : Digits [] := fun c hc => by cases hc

theorem scanMant_inv (a : Mant) (s : Bytes) (h95 : (95 : UInt8) ∉ s) :
    ∃ d f b r, s = d ++ (f ++ r) ∧ Digits d ∧ FracText f b ∧ (a.dot = true → f = []) ∧ (scanMant false a s).2 = r ∧ ((scanMant false a s).1.digs = true ↔ a.digs = true ∨ d ++ b ≠ []) := by
  induction s generalizing a with
  | nil => exact ⟨[], [], [], [], rfl, digits_nil, .none, fun _ => rfl, rfl, by simp [scanMant]⟩
  | cons c s ih =>
    have h1 : c ≠ 95 := fun e => h95 (by simp [e])
    have h95' : (95 : UInt8) ∉ s := fun hc => h95 (by simp [hc])
    simp only [scanMant, h1, if_false]
    by_cases hc : c = 46
    · subst hc
      simp only [if_true]
      cases hdot : a.dot with
      | true =>
        simp only [if_true]
        exact ⟨[], [], [], 46 :: s, rfl, digits_nil, .none, fun _ => rfl, rfl, by simp⟩
      | false =>
        simp only [Bool.false_eq_true, if_false]
        obtain ⟨d, f, b, r, e, hd, hf, hfd, hr, hg⟩ := ih { a with dot := true } h95'
        have hf0 := hfd rfl
        subst hf0
        cases hf
        refine ⟨[], 46 :: d, d, r, by rw [e]; simp, digits_nil, .some d hd, (fun h => by cases h), hr, ?_⟩
        rw [hg]; simp
    · simp only [hc, if_false]
      cases hv : digitVal false c with
      | none => exact ⟨[], [], [], c :: s, rfl, digits_nil, .none, fun _ => rfl, rfl, by simp⟩
      | some v =>
        have hdig : isDigit c = true := by
          cases hh : isDigit c with
          | true => rfl
          | false => simp [digitVal, hh] at hv
        simp only
        obtain ⟨d, f, b, r, e, hd, hf, hfd, hr, hg⟩ := ih { a with m := a.m * (if (false : Bool) = true then 16 else 10) + v, frac := if a.dot then a.frac + 1 else a.frac, digs := true } h95'
        refine ⟨c :: d, f, b, r, by rw [e]; rfl, ?_, hf, hfd, hr, ?_⟩
        · intro x hx
          rcases List.mem_cons.1 hx with rfl | hx
          · exact hdig
          · exact hd x hx
        · rw [hg]; simp

theorem expo_inv {v : Bytes} {E : Int} {c : UInt8} (h : expo v = some (E, [])) (h95 : (95 : UInt8) ∉ v) (hc : c ||| 32 = 101) :
    ∃ xs E', ExpText (c :: v) xs E' := by
  have hc' : c = 101 ∨ c = 69 := by
    have key : ∀ n : Fin 256, UInt8.ofNat n.1 ||| 32 = 101 → UInt8.ofNat n.1 = 101 ∨ UInt8.ofNat n.1 = 69 := by decide +kernel
    have := key ⟨c.toNat, c.toNat_lt⟩
    simp only [UInt8.ofNat_toNat] at this
    exact this hc
  have hu : ∀ u : Bytes, (95 : UInt8) ∉ u → ∀ e' : Nat, scanExp 0 u = (e', []) → Digits u := fun u hu e' h => scanExp_inv 0 e' u h hu
  cases v with
  | nil => simp [expo] at h
  | cons s v =>
    by_cases hs : s = 45 ∨ s = 43
    · have hs' : (some s = some (45 : UInt8) ∨ some s = some (43 : UInt8)) := by simpa using hs
      simp only [expo, List.head?_cons, hs', if_true, List.tail_cons] at h
      cases v with
      | nil => cases h
      | cons d t =>
        simp only at h
        by_cases hd : isDigit d = true
        · simp only [hd, if_true, Option.some.injEq, Prod.mk.injEq] at h
          have hdd : Digits (d :: t) := hu (d :: t) (fun hh => h95 (by simp at hh ⊢; exact .inr hh)) (scanExp 0 (d :: t)).1 (by rw [← h.2])
          rcases hs with rfl | rfl
          · exact ⟨d :: t, _, .neg c (d :: t) hc' (by simp) hdd⟩
          · exact ⟨d :: t, _, .pos c [43] (d :: t) hc' (.inr rfl) (by simp) hdd⟩
        · simp [hd] at h
    · have hs' : ¬ (some s = some (45 : UInt8) ∨ some s = some (43 : UInt8)) := by simpa using hs
      simp only [expo, List.head?_cons, hs', if_false] at h
      by_cases hd : isDigit s = true
      · simp only [hd, if_true, Option.some.injEq, Prod.mk.injEq] at h
        have hdd : Digits (s :: v) := hu (s :: v) h95 (scanExp 0 (s :: v)).1 (by rw [← h.2])
        exact ⟨s :: v, _, .pos c [] (s :: v) hc' (.inl rfl) (by simp) hdd⟩
      · simp [hd] at h

/-- what is read without underscores and not as hexadecimal is a decimal text -/
theorem readFloat_inv {s : Bytes} {n : Num} (h : readFloat s = some n) (h95 : (95 : UInt8) ∉ s) (hx : hexPrefix (unsign s) = false) :
    ∃ xs neg m e, Decimal s xs neg m e := by
  obtain ⟨sign, hsign, hs⟩ : ∃ sign, (sign = [] ∨ sign = [43] ∨ sign = [45]) ∧ s = sign ++ unsign s := by
    unfold unsign
    cases s with
    | nil => exact ⟨[], .inl rfl, rfl⟩
    | cons c s =>
      by_cases h1 : c = 45
      · subst h1; exact ⟨[45], by simp, by simp⟩
      · by_cases h2 : c = 43
        · subst h2; exact ⟨[43], by simp, by simp⟩
        · exact ⟨[], .inl rfl, by simp [h1, h2]⟩
  have h95' : (95 : UInt8) ∉ unsign s := fun hc => h95 (by rw [hs]; exact List.mem_append.2 (.inr hc))
  obtain ⟨d, f, b, r, e, hd, hf, _, hr, hg⟩ := scanMant_inv {} (unsign s) h95'
  unfold readFloat at h
  simp only [hx, Bool.false_eq_true, if_false] at h
  cases hdg : (scanMant false {} (unsign s)).1.digs with
  | false => simp [hdg] at h
  | true =>
    have hne : d ++ b ≠ [] := by
      rcases hg.1 hdg with h | h
      · cases h
      · exact h
    simp only [hdg, Bool.true_eq_false, if_false, hr] at h
    have fin : ∀ xs E, ExpText r xs E → ∃ xs neg m e, Decimal s xs neg m e := by
      intro xs E hE
      have := Decimal.mk sign d f b r xs E hsign hd hf hne hE
      rw [← e, ← hs] at this
      exact ⟨_, _, _, _, this⟩
    cases r with
    | nil => exact fin _ _ .none
    | cons c v =>
      simp only at h
      by_cases hc : c ||| 32 = 101
      · simp only [hc, if_true] at h
        cases hex : expo v with
        | none => rw [hex] at h; cases h
        | some p =>
          obtain ⟨E, q⟩ := p
          cases q with
          | cons y q => rw [hex] at h; cases h
          | nil =>
            have hv : (95 : UInt8) ∉ v := fun hh => h95' (by rw [e]; simp [hh])
            obtain ⟨xs, E', hE⟩ := expo_inv hex hv hc
            exact fin xs E' hE
      · simp [hc] at h

/-! ### Large exponents -/

theorem key_huge : key 10 1 400 = infKey := by decide +kernel
theorem key_tiny : key 10 1 (-400) = 0 := by decide +kernel

theorem key_inf {m : Nat} {e : Int} (hm : 0 < m) (he : 400 ≤ e) : key 10 m e = infKey := by
  refine Nat.le_antisymm (rnd_le _ _) ?_
  rw [← key_huge]
  refine key_mono (by decide) (by decide) ?_
  unfold LeQ scaled
  have h0 : (0 : Int) ≤ e := by omega
  simp only [show (0 : Int) ≤ 400 by decide, h0, if_true, Nat.mul_one, Nat.one_mul]
  have := Nat.pow_le_pow_right (n := 10) (by decide) (show (400 : Int).toNat ≤ e.toNat by omega)
  exact Nat.le_trans this (Nat.le_mul_of_pos_left _ hm)

theorem key_small {m n : Nat} {e : Int} (hm : m < 10 ^ n) (he : n + e ≤ -400) : key 10 m e = 0 := by
  refine Nat.le_antisymm ?_ (Nat.zero_le _)
  rw [← key_tiny]
  refine key_mono (by decide) (by decide) ?_
  unfold LeQ scaled
  have h0 : ¬ (0 : Int) ≤ e := by omega
  simp only [show ¬ (0 : Int) ≤ -400 by decide, h0, if_false, Nat.one_mul]
  have h1 : (-e).toNat = n + (400 + ((-e).toNat - n - 400)) := by omega
  have h2 : (-(-400 : Int)).toNat = 400 := rfl
  rw [h1, h2, Nat.pow_add]
  exact Nat.mul_le_mul (Nat.le_of_lt hm) (Nat.pow_le_pow_right (by decide) (by omega))

theorem parse64_short {s xs : Bytes} {neg : Bool} {m : Nat} {e : Int} (h : Decimal s xs neg m e) (hl : s.length ≤ 9000) :
    parse64 s = if key 10 m e = infKey then none else some (mk neg (key 10 m e)) := by
  obtain ⟨e', h1, _, h2⟩ := readFloat_decimal h
  have hk : key 10 m e' = key 10 m e := by
    rcases h2 hl with rfl | ⟨a, b⟩ | ⟨n, hn, a, b⟩
    · rfl
    · rcases Nat.eq_zero_or_pos m with rfl | hm
      · rw [key_zero _ (by decide), key_zero _ (by decide)]
      · rw [key_inf hm a, key_inf hm b]
    · rw [key_small hn a, key_small hn b]
  unfold parse64
  rw [special_num (decimal_ch h), h1]
  simp [hk]

theorem lt_bound_big {B m : Nat} {e : Int} (hB : B < 10 ^ 400) (hm : 0 < m) (he : 400 ≤ e) : ¬ (scaled 10 m e).1 < B * (scaled 10 m e).2 := by
  have h0 : (0 : Int) ≤ e := by omega
  unfold scaled
  simp only [h0, if_true, Nat.mul_one]
  have := Nat.pow_le_pow_right (n := 10) (by decide) (show 400 ≤ e.toNat by omega)
  have := Nat.le_mul_of_pos_left (10 ^ e.toNat) hm
  omega

theorem lt_bound_small {B m n : Nat} {e : Int} (hB : 0 < B) (hm : m < 10 ^ n) (he : n + e ≤ -400) : (scaled 10 m e).1 < B * (scaled 10 m e).2 := by
  have h0 : ¬ (0 : Int) ≤ e := by omega
  unfold scaled
  simp only [h0, if_false]
  have := Nat.pow_le_pow_right (n := 10) (by decide) (show n ≤ (-e).toNat by omega)
  have := Nat.le_mul_of_pos_left (10 ^ (-e).toNat) hB
  omega

theorem parse32_short {s xs : Bytes} {neg : Bool} {m : Nat} {e : Int} (h : Decimal s xs neg m e) (hl : s.length ≤ 9000) :
    parse32 s = decide ((scaled 10 m e).1 < (2 ^ 128 - 2 ^ 103) * (scaled 10 m e).2) := by
  obtain ⟨e', h1, _, h2⟩ := readFloat_decimal h
  have hB : 2 ^ 128 - 2 ^ 103 < 10 ^ 400 := by decide +kernel
  have hB0 : 0 < 2 ^ 128 - 2 ^ 103 := by decide +kernel
  have hk : ∀ B, B < 10 ^ 400 → 0 < B → decide ((scaled 10 m e').1 < B * (scaled 10 m e').2) = decide ((scaled 10 m e).1 < B * (scaled 10 m e).2) := by
    intro B hB hB0
    rcases h2 hl with rfl | ⟨a, b⟩ | ⟨n, hn, a, b⟩
    · rfl
    · rcases Nat.eq_zero_or_pos m with rfl | hm
      · have z : ∀ e, (scaled 10 0 e).1 = 0 := fun e => by unfold scaled; split <;> simp
        rw [z, z, decide_eq_true (Nat.mul_pos hB0 (scaled_pos (by decide) _ _)), decide_eq_true (Nat.mul_pos hB0 (scaled_pos (by decide) _ _))]
      · rw [decide_eq_false (lt_bound_big hB hm a), decide_eq_false (lt_bound_big hB hm b)]
    · rw [decide_eq_true (lt_bound_small hB0 hn a), decide_eq_true (lt_bound_small hB0 hn b)]
  unfold parse32
  rw [special_num (decimal_ch h), h1]
  exact hk _ hB hB0

end Verif.FloatText
