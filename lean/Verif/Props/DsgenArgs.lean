import Verif.Model.Dsgen
import Verif.Props.FloatSyntax
/-
C86 (arguments): the flags of dsgen and the numbers they take.
-/
set_option autoImplicit false
namespace Verif.Dsgen
open Verif.Doc Verif.FloatText

/-! ### Numbers -/

/-- `c` is the digit `d` of numbers in this base -/
def DigitOf (base : Nat) (c : UInt8) (d : Nat) : Prop :=
  d < base ∧ (c.toNat = 48 + d ∧ d < 10 ∨ 10 ≤ d ∧ d < 36 ∧ (c.toNat = 97 + (d - 10) ∨ c.toNat = 65 + (d - 10)))

/-- the digits say this number -/
def Says (base : Nat) (t : Bytes) (n : Nat) : Prop := ∃ ds : List Nat, List.Forall₂ (DigitOf base) t ds ∧ n = ds.foldl (fun a d => a * base + d) 0

/-- an integer as in Go programs: decimal, or with `0b`, `0o`, `0` or `0x` before it -/
def Written (t : Bytes) (n : Nat) : Prop :=
  (t ≠ [] ∧ t.head? ≠ some 48 ∧ Says 10 t n) ∨
  (∃ u, t = 48 :: u ∧ Says 8 u n) ∨
  (∃ u x, t = 48 :: x :: u ∧ u ≠ [] ∧ ((x = 98 ∨ x = 66) ∧ Says 2 u n ∨ (x = 111 ∨ x = 79) ∧ Says 8 u n ∨ (x = 120 ∨ x = 88) ∧ Says 16 u n))

theorem digitValue_iff (c : UInt8) (base d : Nat) (hb : base ≤ 36) : digitValue c = some d ∧ d < base ↔ DigitOf base c d := by
  have key : ∀ c : UInt8, ∀ d, d < 36 → (digitValue c = some d ↔ (c.toNat = 48 + d ∧ d < 10 ∨ 10 ≤ d ∧ (c.toNat = 97 + (d - 10) ∨ c.toNat = 65 + (d - 10)))) := by
    have : ∀ n : Fin 256, ∀ d : Fin 36, digitValue (UInt8.ofNat n.val) = some d.val ↔
        (n.val = 48 + d.val ∧ d.val < 10 ∨ 10 ≤ d.val ∧ (n.val = 97 + (d.val - 10) ∨ n.val = 65 + (d.val - 10))) := by decide +kernel
    intro c d hd
    have h := this ⟨c.toNat, c.toNat_lt⟩ ⟨d, hd⟩
    simpa using h
  unfold DigitOf
  constructor
  · rintro ⟨h1, h2⟩
    refine ⟨h2, ?_⟩
    rcases (key c d (by omega)).1 h1 with h | ⟨h, h'⟩
    · exact .inl h
    · exact .inr ⟨h, by omega, h'⟩
  · rintro ⟨h2, h⟩
    refine ⟨(key c d (by omega)).2 ?_, h2⟩
    rcases h with h | ⟨h, _, h'⟩
    · exact .inl h
    · exact .inr ⟨h, h'⟩

theorem digitsLoop_iff (base : Nat) (hb : base ≤ 36) (t : Bytes) (h95 : (95 : UInt8) ∉ t) (a n : Nat) :
    digitsLoop base a t = some n ↔ ∃ ds : List Nat, List.Forall₂ (DigitOf base) t ds ∧ n = ds.foldl (fun a d => a * base + d) a := by
  induction t generalizing a with
  | nil =>
    simp only [digitsLoop, Option.some.injEq, List.forall₂_nil_left_iff]
    constructor
    · rintro rfl; exact ⟨[], rfl, rfl⟩
    · rintro ⟨_, rfl, rfl⟩; rfl
  | cons c t ih =>
    have hc : c ≠ 95 := fun e => h95 (by simp [e])
    have h95' : (95 : UInt8) ∉ t := fun h => h95 (List.mem_cons_of_mem _ h)
    rw [digitsLoop, if_neg hc]
    constructor
    · intro h
      split at h
      · cases h
      · rename_i d hd
        split at h
        · rename_i hlt
          obtain ⟨ds, h1, h2⟩ := (ih h95' _).1 h
          exact ⟨d :: ds, .cons ((digitValue_iff c base d hb).1 ⟨hd, hlt⟩) h1, h2⟩
        · cases h
    · rintro ⟨ds, h1, h2⟩
      cases h1 with
      | cons hd h1 =>
        obtain ⟨e1, e2⟩ := (digitValue_iff c base _ hb).2 hd
        rw [e1]
        simp only [e2, if_true]
        exact (ih h95' _).2 ⟨_, h1, h2⟩

theorem parseUint0_eq {t : Bytes} (ht : t ≠ []) :
    parseUint0 t = if (95 : UInt8) ∈ (baseOf t).2 ∧ underscoreOK t = false then none else digitsLoop (baseOf t).1 0 (baseOf t).2 := by
  unfold parseUint0
  rw [if_neg ht]
  cases digitsLoop (baseOf t).1 0 (baseOf t).2 <;> simp

/-- the prefix in a text, and the digits that follow it -/
theorem written_iff (t : Bytes) (h95 : (95 : UInt8) ∉ t) (n : Nat) : parseUint0 t = some n ↔ Written t n := by
  have key : ∀ base u, base ≤ 36 → (95 : UInt8) ∉ u → (digitsLoop base 0 u = some n ↔ Says base u n) := fun base u hb hu => digitsLoop_iff base hb u hu 0 n
  cases t with
  | nil => simp [parseUint0, Written]
  | cons c u =>
    rw [parseUint0_eq (by simp)]
    have hu : (95 : UInt8) ∉ u := fun h => h95 (List.mem_cons_of_mem _ h)
    have hsub : (95 : UInt8) ∉ (baseOf (c :: u)).2 := by
      unfold baseOf
      split
      · rename_i e
        obtain ⟨rfl, rfl⟩ := List.cons.inj e
        split
        · rename_i x y v
          have : (95 : UInt8) ∉ y :: v := fun h => hu (List.mem_cons_of_mem _ h)
          repeat' split
          all_goals first | exact this | exact hu
        · exact hu
      · exact h95
    rw [if_neg (fun h => hsub h.1)]
    by_cases hc : c = 48
    · subst hc
      have h8 : ¬ ((48 :: u : Bytes) ≠ [] ∧ (48 :: u : Bytes).head? ≠ some 48 ∧ Says 10 (48 :: u) n) := by simp
      unfold Written
      have e2 : (∃ v, (48 : UInt8) :: u = 48 :: v ∧ Says 8 v n) ↔ Says 8 u n := by simp
      simp only [h8, e2, false_or]
      match u, hu with
      | [], hu =>
        show digitsLoop 8 0 [] = some n ↔ _
        rw [key 8 [] (by omega) hu]
        simp
      | [x], hu =>
        show digitsLoop 8 0 [x] = some n ↔ _
        rw [key 8 [x] (by omega) hu]
        simp
      | x :: y :: v, hu =>
        have hv : (95 : UInt8) ∉ y :: v := fun h => hu (List.mem_cons_of_mem _ h)
        have e3 : (∃ w x', (48 : UInt8) :: x :: y :: v = 48 :: x' :: w ∧ w ≠ [] ∧
            ((x' = 98 ∨ x' = 66) ∧ Says 2 w n ∨ (x' = 111 ∨ x' = 79) ∧ Says 8 w n ∨ (x' = 120 ∨ x' = 88) ∧ Says 16 w n)) ↔
            ((x = 98 ∨ x = 66) ∧ Says 2 (y :: v) n ∨ (x = 111 ∨ x = 79) ∧ Says 8 (y :: v) n ∨ (x = 120 ∨ x = 88) ∧ Says 16 (y :: v) n) := by
          constructor
          · rintro ⟨w, x', e, _, h⟩
            simp only [List.cons.injEq, true_and] at e
            obtain ⟨rfl, rfl⟩ := e
            exact h
          · intro h; exact ⟨_, _, rfl, by simp, h⟩
        rw [e3]
        have hletter : ∀ k : UInt8, (k = 98 ∨ k = 66 ∨ k = 111 ∨ k = 79 ∨ k = 120 ∨ k = 88) → ¬ Says 8 (k :: y :: v) n := by
          rintro k hk ⟨ds, h1, _⟩
          cases h1 with
          | cons hd _ =>
            obtain ⟨h1, h2⟩ := hd
            rcases hk with rfl | rfl | rfl | rfl | rfl | rfl <;> simp at h2 <;> omega
        have cases_ : ∀ x : UInt8, (x ||| 32 = 98 ↔ x = 98 ∨ x = 66) ∧ (x ||| 32 = 111 ↔ x = 111 ∨ x = 79) ∧ (x ||| 32 = 120 ↔ x = 120 ∨ x = 88) := by
          have : ∀ n : Fin 256, (UInt8.ofNat n.val ||| 32 = 98 ↔ UInt8.ofNat n.val = 98 ∨ UInt8.ofNat n.val = 66) ∧
            (UInt8.ofNat n.val ||| 32 = 111 ↔ UInt8.ofNat n.val = 111 ∨ UInt8.ofNat n.val = 79) ∧
            (UInt8.ofNat n.val ||| 32 = 120 ↔ UInt8.ofNat n.val = 120 ∨ UInt8.ofNat n.val = 88) := by decide +kernel
          intro x
          have h := this ⟨x.toNat, x.toNat_lt⟩
          simpa using h
        obtain ⟨c1, c2, c3⟩ := cases_ x
        show digitsLoop (baseOf (48 :: x :: y :: v)).1 0 (baseOf (48 :: x :: y :: v)).2 = some n ↔ _
        have n1 := c1.not
        have n2 := c2.not
        have n3 := c3.not
        by_cases b1 : x = 98 ∨ x = 66
        · have : baseOf (48 :: x :: y :: v) = (2, y :: v) := by simp [baseOf, c1.2 b1]
          rw [this, key 2 _ (by omega) hv]
          have := hletter x (by rcases b1 with h | h <;> simp [h])
          have : ¬ (x = 111 ∨ x = 79) ∧ ¬ (x = 120 ∨ x = 88) := by rcases b1 with rfl | rfl <;> decide
          simp_all
        · by_cases b2 : x = 111 ∨ x = 79
          · have : baseOf (48 :: x :: y :: v) = (8, y :: v) := by simp only [baseOf, if_neg (n1.2 b1), if_pos (c2.2 b2)]
            rw [this, key 8 _ (by omega) hv]
            have := hletter x (by rcases b2 with h | h <;> simp [h])
            have : ¬ (x = 120 ∨ x = 88) := by rcases b2 with rfl | rfl <;> decide
            simp_all
          · by_cases b3 : x = 120 ∨ x = 88
            · have : baseOf (48 :: x :: y :: v) = (16, y :: v) := by simp only [baseOf, if_neg (n1.2 b1), if_neg (n2.2 b2), if_pos (c3.2 b3)]
              rw [this, key 16 _ (by omega) hv]
              have := hletter x (by rcases b3 with h | h <;> simp [h])
              simp_all
            · have : baseOf (48 :: x :: y :: v) = (8, x :: y :: v) := by simp only [baseOf, if_neg (n1.2 b1), if_neg (n2.2 b2), if_neg (n3.2 b3)]
              rw [this, key 8 _ (by omega) hu]
              simp [b1, b2, b3]
    · have : baseOf (c :: u) = (10, c :: u) := by
        unfold baseOf
        split
        · rename_i e; exact absurd (List.cons.inj e).1 hc
        · rfl
      rw [this, key 10 _ (by omega) h95]
      unfold Written
      simp [hc]

/-- **C86**: numbers given to the command are integers as in Go programs, with a sign or not, that fit 64 bits. -/
theorem C86_number (s : Bytes) (h95 : (95 : UInt8) ∉ s) (i : Int) :
    parseInt0 s = some i ↔ IsInt64 i ∧ ∃ n : Nat, (s.head? ≠ some 45 ∧ s.head? ≠ some 43 ∧ Written s n ∧ i = n) ∨
      (∃ t, s = 43 :: t ∧ Written t n ∧ i = n) ∨ (∃ t, s = 45 :: t ∧ Written t n ∧ i = -n) := by
  have hu : (95 : UInt8) ∉ unsign s := by
    unfold unsign
    split
    · intro h; exact h95 (List.mem_of_mem_tail h)
    · exact h95
  have hp : parseInt0 s = some i ↔ IsInt64 i ∧ ∃ n : Nat, Written (unsign s) n ∧ i = if s.head? = some 45 then -(n : Int) else n := by
    unfold parseInt0
    constructor
    · intro h
      split at h
      · cases h
      · rename_i n hn
        by_cases h64 : IsInt64 (if s.head? = some 45 then -(n : Int) else n)
        · simp only [h64, if_true, Option.some.injEq] at h
          exact ⟨h ▸ h64, n, (written_iff _ hu n).1 hn, h.symm⟩
        · simp [h64] at h
    · rintro ⟨h64, n, hw, rfl⟩
      rw [(written_iff _ hu n).2 hw]
      simp [h64]
  rw [hp]
  refine and_congr_right fun _ => exists_congr fun n => ?_
  cases s with
  | nil => simp [unsign]
  | cons c t =>
    by_cases h1 : c = 45
    · subst h1; simp [unsign]
    · by_cases h2 : c = 43
      · subst h2; simp [unsign]
      · simp [unsign, h1, h2]

/-- sign, digits and underscores only -/
def DecimalBytes (s : Bytes) : Prop := ∀ c ∈ s, isDigit c = true ∨ c = 45 ∨ c = 43 ∨ c = 95

theorem digitsLoop_plain (base : Nat) (s : Bytes) (a : Nat) : digitsLoop base a s = digitsLoop base a (plain s) := by
  induction s generalizing a with
  | nil => rfl
  | cons c s ih =>
    by_cases hc : c = 95
    · subst hc; rw [plain_under, ← ih]; simp [digitsLoop]
    · rw [plain_cons hc, digitsLoop, digitsLoop, if_neg hc, if_neg hc]
      simp only [ih]

/-- **C86**: with underscores in it, a number in decimal or octal digits is read as if they were not there if each of them stands between two
digits, and otherwise not at all. -/
theorem C86_number_underscores (s : Bytes) (hd : DecimalBytes s) (h95 : (95 : UInt8) ∈ s) :
    (Between s → parseInt0 s = parseInt0 (plain s)) ∧ (¬ Between s → parseInt0 s = none) := by
  have hx : ∀ t : Bytes, DecimalBytes t → ∀ c ∈ t, c ≠ 120 ∧ c ≠ 88 := by
    intro t ht c hc
    rcases ht c hc with h | rfl | rfl | rfl
    · constructor <;> (rintro rfl; revert h; decide)
    all_goals decide
  have hdu : DecimalBytes (unsign s) := by
    unfold unsign
    split
    · exact fun c hc => hd c (List.mem_of_mem_tail hc)
    · exact hd
  have hbo : ∀ t : Bytes, DecimalBytes t → baseOf t = if t.head? = some 48 then (8, t.tail) else (10, t) := by
    intro t ht
    unfold baseOf
    split
    · rename_i t
      split
      · rename_i x y u
        have : ¬ x ||| 32 = 98 ∧ ¬ x ||| 32 = 111 ∧ ¬ x ||| 32 = 120 := by
          have hh : ∀ n : Fin 256, (isDigit (UInt8.ofNat n.val) = true ∨ UInt8.ofNat n.val = 45 ∨ UInt8.ofNat n.val = 43 ∨ UInt8.ofNat n.val = 95) →
            ¬ UInt8.ofNat n.val ||| 32 = 98 ∧ ¬ UInt8.ofNat n.val ||| 32 = 111 ∧ ¬ UInt8.ofNat n.val ||| 32 = 120 := by decide +kernel
          have := hh ⟨x.toNat, x.toNat_lt⟩
          simp only [UInt8.ofNat_toNat] at this
          exact this (ht x (by simp))
        rw [if_neg this.1, if_neg this.2.1, if_neg this.2.2]
        rfl
      · rfl
    · rename_i h
      rw [if_neg]
      intro e
      cases t with
      | nil => simp at e
      | cons c t => simp at e; subst e; exact h t rfl
  have hun : (95 : UInt8) ∈ unsign s := by
    unfold unsign
    split
    · rename_i h
      cases s with
      | nil => simp at h95
      | cons c s =>
        rcases List.mem_cons.1 h95 with rfl | h'
        · simp at h
        · exact h'
    · exact h95
  have hnb : ∀ x t, unsign (unsign s) = 48 :: x :: t → ¬ (x ||| 32 = 98 ∨ x ||| 32 = 111) := by
    intro x t e
    have hm : x ∈ s := by
      have : x ∈ unsign (unsign s) := by rw [e]; simp
      have h1 : ∀ u : Bytes, x ∈ unsign u → x ∈ u := by
        intro u hu
        unfold unsign at hu
        split at hu
        · exact List.mem_of_mem_tail hu
        · exact hu
      exact h1 _ (h1 _ this)
    have hh : ∀ n : Fin 256, (isDigit (UInt8.ofNat n.val) = true ∨ UInt8.ofNat n.val = 45 ∨ UInt8.ofNat n.val = 43 ∨ UInt8.ofNat n.val = 95) →
      ¬ (UInt8.ofNat n.val ||| 32 = 98 ∨ UInt8.ofNat n.val ||| 32 = 111) := by decide +kernel
    have := hh ⟨x.toNat, x.toNat_lt⟩
    simp only [UInt8.ofNat_toNat] at this
    exact this (hd x hm)
  refine ⟨fun hb => ?_, fun hb => ?_⟩
  · -- the first byte is no underscore
    have hhead := between_head hb
    have hu : unsign (plain s) = plain (unsign s) ∧ (plain s).head? = s.head? := by
      cases s with
      | nil => simp at h95
      | cons c s =>
        have hc : c ≠ 95 := by simpa using hhead
        rw [plain_cons hc]
        refine ⟨?_, rfl⟩
        unfold unsign
        by_cases h : c = 45 ∨ c = 43
        · rw [if_pos (by simpa using h), if_pos (by simpa using h)]; rfl
        · rw [if_neg (by simpa using h), if_neg (by simpa using h), plain_cons hc]
    unfold parseInt0
    rw [hu.1, hu.2]
    have hok : underscoreOK (unsign s) = true := underscoreOK_of (hx _ hdu) ((between_unsign s).2 hb)
    have hpu : parseUint0 (unsign s) = parseUint0 (plain (unsign s)) := by
      have hbu := (between_unsign s).2 hb
      have hhu := between_head hbu
      generalize unsign s = t at *
      cases t with
      | nil => rfl
      | cons c t =>
        have hc : c ≠ 95 := by simpa using hhu
        rw [plain_cons hc, parseUint0_eq (by simp), parseUint0_eq (by simp)]
        have hno : (95 : UInt8) ∉ (baseOf (c :: plain t)).2 := by
          rw [hbo _ (by
            intro x hxm
            rw [← plain_cons hc] at hxm
            exact hdu x (List.mem_filter.1 hxm).1)]
          have hp : (95 : UInt8) ∉ plain t := by simp [plain]
          split
          · exact hp
          · rw [List.mem_cons]; rintro (h | h)
            · exact hc h.symm
            · exact hp h
        rw [if_neg (by simp [hok]), if_neg (fun h => hno h.1), hbo _ hdu, hbo _ (by
            intro x hxm
            rw [← plain_cons hc] at hxm
            exact hdu x (List.mem_filter.1 hxm).1)]
        by_cases h48 : c = 48
        · subst h48
          exact digitsLoop_plain 8 t 0
        · rw [if_neg (by simpa using h48), if_neg (by simpa using h48), ← plain_cons hc]
          exact digitsLoop_plain 10 (c :: t) 0
    rw [hpu]
  · have hok : underscoreOK (unsign s) = false := by
      rw [Bool.eq_false_iff]
      intro h
      exact hb ((between_unsign s).1 (between_of_ok (hx _ hdu) h hnb))
    have : parseUint0 (unsign s) = none := by
      rw [parseUint0_eq (List.ne_nil_of_mem hun), if_pos]
      refine ⟨?_, hok⟩
      rw [hbo _ hdu]
      generalize unsign s = t at *
      cases t with
      | nil => simp at hun
      | cons c t =>
        split
        · rename_i h
          rcases List.mem_cons.1 hun with h' | h'
          · subst h'; simp at h
          · exact h'
        · exact hun
    unfold parseInt0
    rw [this]

/-! ### Flags -/

/-- `-rows n`, `--rows n`, `-rows=n` or `--rows=n` -/
def RowsOption (opt : List Bytes) (i : Int) : Prop :=
  ∃ dash ∈ [b!"-", b!"--"], ∃ v, parseInt0 v = some i ∧ (opt = [dash ++ b!"rows", v] ∨ opt = [dash ++ b!"rows=" ++ v])

/-- no flag: a text that does not begin with a dash, or a dash alone -/
def Argument (a : Bytes) : Prop := a.length < 2 ∨ a.head? ≠ some 45

/-- these arguments ask for `i` rows, `r` if they say nothing, and `rest` are those that are no flags -/
inductive Given : Int → List Bytes → Int → List Bytes → Prop where
  | over (r : Int) (rest : List Bytes) (h : ∀ a ∈ rest.head?, Argument a) : Given r rest r rest
  | dashes (r : Int) (rest : List Bytes) : Given r (b!"--" :: rest) r rest
  | rows {r i j : Int} {opt args rest : List Bytes} (h : RowsOption opt j) (h' : Given j args i rest) : Given r (opt ++ args) i rest

theorem cutValue_rows (name : Bytes) (v : Option Bytes) :
    cutValue name = (b!"rows", v) ↔ (v = none ∧ name = b!"rows") ∨ ∃ x, v = some x ∧ name = b!"rows=" ++ x := by
  constructor
  · intro h
    cases name with
    | nil => simp [cutValue] at h
    | cons c s =>
      simp only [cutValue, Prod.mk.injEq, List.cons.injEq] at h
      obtain ⟨⟨rfl, ht⟩, hv⟩ := h
      have hs : s = s.takeWhile (· ≠ 61) ++ s.dropWhile (· ≠ 61) := List.takeWhile_append_dropWhile.symm
      by_cases hm : (61 : UInt8) ∈ s
      · rw [if_pos hm] at hv
        refine .inr ⟨_, hv.symm, ?_⟩
        have hd : ∃ u, s.dropWhile (· ≠ 61) = 61 :: u := by
          clear ht hv hs
          induction s with
          | nil => simp at hm
          | cons a s ih =>
            by_cases ha : a = 61
            · subst ha; exact ⟨s, by simp⟩
            · simp only [List.mem_cons, Ne.symm ha, false_or] at hm
              obtain ⟨u, hu⟩ := ih hm
              exact ⟨u, by simpa [ha] using hu⟩
        obtain ⟨u, hu⟩ := hd
        rw [hs, ht, hu]
        simp
      · rw [if_neg hm] at hv
        refine .inl ⟨hv.symm, ?_⟩
        have : s.takeWhile (· ≠ 61) = s := by
          clear ht hv hs
          induction s with
          | nil => rfl
          | cons a s ih =>
            simp only [List.mem_cons, not_or] at hm
            rw [List.takeWhile_cons_of_pos (by simpa using Ne.symm hm.1), ih hm.2]
        rw [this] at ht
        rw [ht]
  · rintro (⟨rfl, rfl⟩ | ⟨x, rfl, rfl⟩)
    · decide
    · simp [cutValue]

/-- one flag at the front -/
theorem parse_option {opt : List Bytes} {j : Int} (h : RowsOption opt j) (r : Int) (args : List Bytes) : parseFlags r (opt ++ args) = parseFlags j args := by
  obtain ⟨dash, hd, v, hv, h⟩ := h
  simp only [List.mem_cons, List.not_mem_nil, or_false] at hd
  rcases h with rfl | rfl <;> rcases hd with rfl | rfl
  all_goals
    rw [List.cons_append, parseFlags.eq_def]
    simp [cutValue, hv]

/-- **C86**: the arguments begin with flags, each `-rows` or `--rows` with a number, the last of which counts; they end where something comes that is
no flag, or with `--`. -/
theorem C86_flags (r i : Int) (args rest : List Bytes) : parseFlags r args = .args i rest ↔ Given r args i rest := by
  constructor
  · intro h
    induction hn : args.length using Nat.strongRecOn generalizing r args with
    | _ n ih =>
      subst hn
      cases args with
      | nil =>
        simp only [parseFlags, Flags.args.injEq] at h
        obtain ⟨rfl, rfl⟩ := h
        exact .over _ _ (by simp)
      | cons s t =>
        rw [parseFlags.eq_def] at h
        simp only at h
        split at h
        · rename_i h1
          simp only [Flags.args.injEq] at h
          obtain ⟨rfl, rfl⟩ := h
          exact .over _ _ (by simpa [Argument] using h1)
        · rename_i h1
          split at h
          · rename_i h2
            simp only [Flags.args.injEq] at h
            obtain ⟨rfl, rfl⟩ := h
            rw [h2]
            exact .dashes _ _
          · rename_i h2
            have hs : ∃ dash ∈ [b!"-", b!"--"], s = dash ++ (if (s.drop 1).head? = some 45 then s.drop 2 else s.drop 1) := by
              match s, h1 with
              | [], h1 => simp at h1
              | [_], h1 => simp at h1
              | a :: b :: s, h1 =>
                simp only [List.length_cons, List.head?_cons, ne_eq, Option.some.injEq, not_or, Classical.not_not] at h1
                obtain ⟨_, rfl⟩ := h1
                by_cases hb : b = 45
                · subst hb; exact ⟨b!"--", by simp, by simp⟩
                · exact ⟨b!"-", by simp, by simp [hb]⟩
            obtain ⟨dash, hd, hs⟩ := hs
            generalize (if (s.drop 1).head? = some 45 then s.drop 2 else s.drop 1) = name at h hs
            split at h
            · cases h
            · split at h
              · split at h <;> cases h
              · rename_i hrows
                simp only [ne_eq, Classical.not_not] at hrows
                split at h
                · rename_i v hv
                  split at h
                  · cases h
                  · rename_i j hj
                    have := (cutValue_rows name (some v)).1 (by rw [← hrows, ← hv])
                    simp only [reduceCtorEq, false_and, Option.some.injEq, false_or] at this
                    obtain ⟨x, rfl, rfl⟩ := this
                    exact .rows (opt := [s]) ⟨dash, hd, v, hj, .inr (by rw [hs, List.append_assoc])⟩ (ih t.length (by simp) _ _ h rfl)
                · rename_i hv
                  split at h
                  · cases h
                  · rename_i v rest'
                    split at h
                    · cases h
                    · rename_i j hj
                      have := (cutValue_rows name none).1 (by rw [← hrows, ← hv])
                      simp only [true_and, reduceCtorEq, false_and, exists_false, or_false] at this
                      subst this
                      exact .rows (opt := [s, v]) ⟨dash, hd, v, hj, .inl (by rw [hs])⟩ (ih rest'.length (by simp) _ _ h rfl)
  · intro h
    induction h with
    | over r rest h =>
      cases rest with
      | nil => rfl
      | cons a t =>
        rw [parseFlags.eq_def]
        simp only
        rw [if_pos]
        exact h a rfl
    | dashes r rest =>
      rw [parseFlags.eq_def]
      simp
    | rows h h' ih => rw [parse_option h]; exact ih

/-- **C86**: as soon as an argument is no flag all that follows is none either: called as its help says, `dsgen structure.json --rows n` or
`dsgen fixed --rows n`, the command makes 1000 rows whatever `n` is. -/
theorem C86_usage {ρ : Type} (E : Formats.Env) (S : Generate.Source ρ) (seed : ρ) (disk : Disk.Disk) (a : Bytes) (ha : Argument a) (more : List Bytes) :
    main E S seed disk (a :: more) = if a = b!"fixed" then .printed (writeFixed 1000 0) else generateFile E S seed disk a 1000 := by
  have := (C86_flags 1000 1000 (a :: more) (a :: more)).2 (.over _ _ (by simpa using ha))
  unfold main
  rw [this]

/-- **C86**: with the flag before it, the number counts. -/
theorem C86_usage_before {ρ : Type} (E : Formats.Env) (S : Generate.Source ρ) (seed : ρ) (disk : Disk.Disk) (opt : List Bytes) (n : Int) (h : RowsOption opt n)
    (a : Bytes) (ha : Argument a) (more : List Bytes) :
    main E S seed disk (opt ++ a :: more) = if a = b!"fixed" then .printed (writeFixed n 0) else generateFile E S seed disk a n := by
  have := (C86_flags 1000 n (opt ++ a :: more) (a :: more)).2 (.rows h (.over _ _ (by simpa using ha)))
  unfold main
  rw [this]

/-! ### examples -/

example : parseInt0 b!"-0x1F" = some (-31) ∧ parseInt0 b!"010" = some 8 ∧ parseInt0 b!"+1_000" = some 1000 ∧ parseInt0 b!"1__0" = none := by decide +kernel
example : parseInt0 b!"0b102" = none ∧ parseInt0 b!"9223372036854775808" = none ∧ parseInt0 b!"-9223372036854775808" = some (-9223372036854775808) ∧
    parseInt0 b!"0" = some 0 := by decide +kernel
example : parseFlags 1000 [b!"--rows", b!"5", b!"-rows=7", b!"fixed", b!"--rows", b!"9"] = .args 7 [b!"fixed", b!"--rows", b!"9"] ∧
    parseFlags 1000 [b!"-h"] = .help ∧ parseFlags 1000 [b!"--lines=3"] = .bad ∧ parseFlags 1000 [b!"--", b!"-rows=3"] = .args 1000 [b!"-rows=3"] := by decide +kernel
example : RowsOption [b!"--rows=0x10"] 16 := ⟨b!"--", by simp, b!"0x10", by decide, .inr rfl⟩

end Verif.Dsgen
