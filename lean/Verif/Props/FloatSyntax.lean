import Verif.Props.FloatText
/-
C81, continued: texts with underscores, hexadecimal texts and the names of what is no number.
-/
set_option autoImplicit false
namespace Verif.FloatText
open Ieee JsonG
attribute [local irreducible] near magVal unit infKey shortest key

/-! ### Underscores -/

/-- every underscore stands between two digits -/
def Between (s : Bytes) : Prop :=
  ∀ a b, s = a ++ 95 :: b → (∃ d, a.getLast? = some d ∧ isDigit d = true) ∧ (∃ d, b.head? = some d ∧ isDigit d = true)

/-- the text without its underscores -/
def plain (s : Bytes) : Bytes := s.filter (· ≠ 95)

theorem plain_cons {c : UInt8} (h : c ≠ 95) (s : Bytes) : plain (c :: s) = c :: plain s := by simp [plain, h]
theorem plain_under (s : Bytes) : plain (95 :: s) = plain s := by simp [plain]

theorem scanMant_plain (a : Mant) (s : Bytes) : scanMant false a (plain s) = ((scanMant false a s).1, plain (scanMant false a s).2) := by
  induction s generalizing a with
  | nil => rfl
  | cons c s ih =>
    by_cases h1 : c = 95
    · subst h1; rw [plain_under, ih]; simp [scanMant]
    · rw [plain_cons h1]
      simp only [scanMant, h1, if_false]
      by_cases h2 : c = 46
      · simp only [h2, if_true]
        cases a.dot
        · simp only [Bool.false_eq_true, if_false]; rw [ih]
        · simp only [if_true]; rw [plain_cons (by decide)]
      · simp only [h2, if_false]
        cases digitVal false c with
        | none => simp only; rw [plain_cons h1]
        | some d => simp only; rw [ih]

theorem scanExp_plain (e : ℕ) (s : Bytes) : scanExp e (plain s) = ((scanExp e s).1, plain (scanExp e s).2) := by
  induction s generalizing e with
  | nil => rfl
  | cons c s ih =>
    by_cases h1 : c = 95
    · subst h1; rw [plain_under, ih]; simp [scanExp]
    · rw [plain_cons h1]
      simp only [scanExp, h1, if_false]
      by_cases h2 : isDigit c = true
      · simp only [h2, if_true]; rw [ih]
      · simp only [h2]; simp only [Bool.false_eq_true, if_false]; rw [plain_cons h1]

theorem scanMant_rest (hex : Bool) (a : Mant) (s : Bytes) : ∃ p, s = p ++ (scanMant hex a s).2 := by
  induction s generalizing a with
  | nil => exact ⟨[], rfl⟩
  | cons c s ih =>
    have ext : ∀ a', scanMant hex a (c :: s) = scanMant hex a' s → ∃ p, c :: s = p ++ (scanMant hex a (c :: s)).2 := by
      intro a' h
      obtain ⟨p, hp⟩ := ih a'
      exact ⟨c :: p, by rw [h, List.cons_append, ← hp]⟩
    have stop : scanMant hex a (c :: s) = (a, c :: s) → ∃ p, c :: s = p ++ (scanMant hex a (c :: s)).2 := fun h => ⟨[], by rw [h]; rfl⟩
    by_cases h1 : c = 95
    · exact ext a (by simp only [scanMant, h1, if_true])
    · by_cases h2 : c = 46
      · cases hd : a.dot with
        | true => exact stop (by simp [scanMant, h2, hd])
        | false => exact ext { a with dot := true } (by simp [scanMant, h2, hd])
      · cases hv : digitVal hex c with
        | none => exact stop (by simp [scanMant, h1, h2, hv])
        | some d => exact ext _ (by simp only [scanMant, h1, h2, if_false, hv]; rfl)

/-- what the loop of `underscoreOK` checks -/
theorem loop_iff (i : Before) (s : Bytes) : underscoreLoop false i s = true ↔
    (i = .underscore → ∃ d, s.head? = some d ∧ isDigit d = true) ∧
    ∀ a b, s = a ++ 95 :: b → ((a = [] ∧ i = .digit) ∨ ∃ d, a.getLast? = some d ∧ isDigit d = true) ∧ (∃ d, b.head? = some d ∧ isDigit d = true) := by
  induction s generalizing i with
  | nil => cases i <;> simp [underscoreLoop]
  | cons c s ih =>
    have hdv : ((digitVal false c).isSome || isDigit c) = isDigit c := by
      unfold digitVal
      cases isDigit c <;> simp
    unfold underscoreLoop
    rw [hdv]
    by_cases hd : isDigit c = true
    · have hc : c ≠ 95 := by rintro rfl; revert hd; decide
      rw [if_pos hd, ih]
      constructor
      · rintro ⟨_, h⟩
        refine ⟨fun _ => ⟨c, rfl, hd⟩, fun a b e => ?_⟩
        cases a with
        | nil => simp at e; exact absurd e.1 hc
        | cons c' a =>
          simp only [List.cons_append, List.cons.injEq] at e
          obtain ⟨rfl, e⟩ := e
          obtain ⟨h1, h2⟩ := h a b e
          refine ⟨.inr ?_, h2⟩
          rcases h1 with ⟨rfl, _⟩ | ⟨d, hg, hdd⟩
          · exact ⟨c, rfl, hd⟩
          · exact ⟨d, by rw [List.getLast?_cons, hg]; rfl, hdd⟩
      · rintro ⟨_, h⟩
        refine ⟨by simp, fun a b e => ?_⟩
        obtain ⟨h1, h2⟩ := h (c :: a) b (by rw [e]; rfl)
        refine ⟨?_, h2⟩
        rcases h1 with ⟨h1, _⟩ | ⟨d, hg, hdd⟩
        · cases h1
        · cases a with
          | nil => exact .inl ⟨rfl, rfl⟩
          | cons x a => exact .inr ⟨d, by rw [List.getLast?_cons_cons] at hg; exact hg, hdd⟩
    · rw [if_neg hd]
      by_cases hc : c = 95
      · subst hc
        rw [if_pos rfl]
        by_cases hi : i = .digit
        · subst hi
          rw [if_neg (by simp), ih]
          constructor
          · rintro ⟨h0, h⟩
            refine ⟨by simp, fun a b e => ?_⟩
            cases a with
            | nil =>
              simp only [List.nil_append, List.cons.injEq, true_and] at e
              subst e
              exact ⟨.inl ⟨rfl, rfl⟩, h0 rfl⟩
            | cons c' a =>
              simp only [List.cons_append, List.cons.injEq] at e
              obtain ⟨rfl, e⟩ := e
              obtain ⟨h1, h2⟩ := h a b e
              refine ⟨.inr ?_, h2⟩
              rcases h1 with ⟨_, h1⟩ | ⟨d, hg, hdd⟩
              · cases h1
              · exact ⟨d, by rw [List.getLast?_cons, hg]; rfl, hdd⟩
          · rintro ⟨_, h⟩
            have h0 := (h [] s rfl).2
            refine ⟨fun _ => h0, fun a b e => ?_⟩
            obtain ⟨h1, h2⟩ := h (95 :: a) b (by rw [e]; rfl)
            refine ⟨?_, h2⟩
            rcases h1 with ⟨h1, _⟩ | ⟨d, hg, hdd⟩
            · cases h1
            · cases a with
              | nil =>
                simp at hg; subst hg; revert hdd; decide
              | cons x a => exact .inr ⟨d, by rw [List.getLast?_cons_cons] at hg; exact hg, hdd⟩
        · rw [if_pos hi]
          constructor
          · intro h; cases h
          · rintro ⟨_, h⟩
            obtain ⟨h1, _⟩ := h [] s rfl
            rcases h1 with ⟨_, h1⟩ | ⟨d, hg, _⟩
            · exact absurd h1 hi
            · cases hg
      · rw [if_neg hc]
        by_cases hi : i = .underscore
        · rw [if_pos hi]
          constructor
          · intro h; cases h
          · rintro ⟨h, _⟩
            obtain ⟨d, he, hdd⟩ := h hi
            simp at he; subst he; exact absurd hdd hd
        · rw [if_neg hi, ih]
          constructor
          · rintro ⟨_, h⟩
            refine ⟨fun h => absurd h hi, fun a b e => ?_⟩
            cases a with
            | nil => simp at e; exact absurd e.1 hc
            | cons c' a =>
              simp only [List.cons_append, List.cons.injEq] at e
              obtain ⟨rfl, e⟩ := e
              obtain ⟨h1, h2⟩ := h a b e
              refine ⟨.inr ?_, h2⟩
              rcases h1 with ⟨_, h1⟩ | ⟨d, hg, hdd⟩
              · cases h1
              · exact ⟨d, by rw [List.getLast?_cons, hg]; rfl, hdd⟩
          · rintro ⟨_, h⟩
            refine ⟨by simp, fun a b e => ?_⟩
            obtain ⟨h1, h2⟩ := h (c :: a) b (by rw [e]; rfl)
            refine ⟨?_, h2⟩
            rcases h1 with ⟨h1, _⟩ | ⟨d, hg, hdd⟩
            · cases h1
            · cases a with
              | nil => simp at hg; subst hg; exact absurd hdd hd
              | cons x a => exact .inr ⟨d, by rw [List.getLast?_cons_cons] at hg; exact hg, hdd⟩

theorem loop_start (s : Bytes) : underscoreLoop false .start s = true ↔ Between s := by
  rw [loop_iff]
  simp [Between]

theorem between_unsign (s : Bytes) : Between (unsign s) ↔ Between s := by
  unfold unsign
  split
  · rename_i h
    cases s with
    | nil => simp at h
    | cons c s =>
      have hc : c = 45 ∨ c = 43 := by simpa using h
      have hd : isDigit c = false ∧ c ≠ 95 := by rcases hc with rfl | rfl <;> decide
      simp only [List.tail_cons]
      constructor
      · intro hb a b e
        cases a with
        | nil => simp at e; exact absurd e.1 hd.2
        | cons c' a =>
          simp only [List.cons_append, List.cons.injEq] at e
          obtain ⟨rfl, e⟩ := e
          obtain ⟨⟨d, hg, hdd⟩, h2⟩ := hb a b e
          exact ⟨⟨d, by rw [List.getLast?_cons, hg]; rfl, hdd⟩, h2⟩
      · intro hb a b e
        obtain ⟨⟨d, hg, hdd⟩, h2⟩ := hb (c :: a) b (by rw [e]; rfl)
        refine ⟨⟨d, ?_, hdd⟩, h2⟩
        cases a with
        | nil => simp at hg; subst hg; rw [hd.1] at hdd; cases hdd
        | cons x a => rw [List.getLast?_cons_cons] at hg; exact hg
  · exact Iff.rfl

theorem scanMant_head (hex : Bool) (a : Mant) (s : Bytes) : (scanMant hex a s).2.head? ≠ some 95 := by
  induction s generalizing a with
  | nil => simp [scanMant]
  | cons c s ih =>
    by_cases h1 : c = 95
    · simp only [scanMant, h1, if_true]; exact ih _
    · simp only [scanMant, h1, if_false]
      by_cases h2 : c = 46
      · simp only [h2, if_true]
        cases a.dot
        · simp only [Bool.false_eq_true, if_false]; exact ih _
        · simp
      · simp only [h2, if_false]
        cases digitVal hex c with
        | none => simpa using h1
        | some d => exact ih _

theorem scanExp_head (e : ℕ) (s : Bytes) : (scanExp e s).2.head? ≠ some 95 := by
  induction s generalizing e with
  | nil => simp [scanExp]
  | cons c s ih =>
    by_cases h1 : c = 95
    · simp only [scanExp, h1, if_true]; exact ih _
    · simp only [scanExp, h1, if_false]
      by_cases h2 : isDigit c = true
      · simp only [h2, if_true]; exact ih _
      · simp only [h2]; simpa using h1

theorem plain_nil_iff {s : Bytes} (h : s.head? ≠ some 95) : plain s = [] ↔ s = [] := by
  cases s with
  | nil => simp [plain]
  | cons c s =>
    have : c ≠ 95 := by simpa using h
    rw [plain_cons this]; simp

theorem plain_self {s : Bytes} (h : (95 : UInt8) ∉ s) : plain s = s := by
  unfold plain
  rw [List.filter_eq_self]
  intro c hc
  simp only [decide_eq_true_eq]
  rintro rfl; exact h hc

theorem between_self {s : Bytes} (h : (95 : UInt8) ∉ s) : Between s := fun a b e => absurd (by rw [e]; simp) h

/-- after something that is no digit there is no underscore -/
theorem between_next {p v : Bytes} {c : UInt8} (h : Between (p ++ c :: v)) (hc : isDigit c = false) : v.head? ≠ some 95 := by
  intro hv
  cases v with
  | nil => cases hv
  | cons x v =>
    simp at hv; subst hv
    obtain ⟨⟨d, hg, hd⟩, _⟩ := h (p ++ [c]) v (by simp)
    simp at hg
    subst hg
    rw [hc] at hd; cases hd

theorem between_head {s : Bytes} (h : Between s) : s.head? ≠ some 95 := by
  intro hv
  cases s with
  | nil => cases hv
  | cons x v =>
    simp at hv; subst hv
    obtain ⟨⟨d, hg, _⟩, _⟩ := h [] v rfl
    cases hg

theorem head_plain {s : Bytes} (h : s.head? ≠ some 95) : (plain s).head? = s.head? := by
  cases s with
  | nil => rfl
  | cons x v =>
    have : x ≠ 95 := by simpa using h
    rw [plain_cons this]; rfl

theorem tail_plain {s : Bytes} (h : s.head? ≠ some 95) : (plain s).tail = plain s.tail := by
  cases s with
  | nil => rfl
  | cons x v =>
    have : x ≠ 95 := by simpa using h
    rw [plain_cons this]; rfl

theorem unsign_plain {s : Bytes} (h : s.head? ≠ some 95) : unsign (plain s) = plain (unsign s) := by
  unfold unsign
  rw [head_plain h, tail_plain h]
  split <;> rfl

theorem expo_plain {p v : Bytes} {c : UInt8} (h : Between (p ++ c :: v)) (hc : isDigit c = false) :
    expo (plain v) = (expo v).map fun r => (r.1, plain r.2) := by
  have hv := between_next h hc
  unfold expo
  simp only
  rw [head_plain hv, tail_plain hv]
  have hu : (if v.head? = some 45 ∨ v.head? = some 43 then v.tail else v).head? ≠ some 95 := by
    split
    · rename_i hs
      cases v with
      | nil => simp at hs
      | cons x v =>
        have hx : isDigit x = false := by
          have : x = 45 ∨ x = 43 := by simpa using hs
          rcases this with rfl | rfl <;> decide
        exact between_next (p := p ++ [c]) (by simpa using h) hx
    · exact hv
  have e : (if v.head? = some 45 ∨ v.head? = some 43 then plain v.tail else plain v) = plain (if v.head? = some 45 ∨ v.head? = some 43 then v.tail else v) := by
    split <;> rfl
  rw [e]
  generalize (if v.head? = some 45 ∨ v.head? = some 43 then v.tail else v) = u at *
  cases u with
  | nil => rfl
  | cons d t =>
    have hd : d ≠ 95 := by simpa using hu
    rw [plain_cons hd]
    simp only
    by_cases hdg : isDigit d = true
    · simp only [hdg, if_true]
      rw [← plain_cons hd, scanExp_plain]
      rfl
    · simp [hdg]

/-- texts without x have no hexadecimal prefix -/
theorem hexPrefix_none {t : Bytes} (h : ∀ c ∈ t, c ≠ 120 ∧ c ≠ 88) : hexPrefix t = false := by
  match t, h with
  | [], _ => rfl
  | [_], _ => rfl
  | [_, _], _ => rfl
  | c :: x :: y :: t, h =>
    have hx := h x (by simp)
    have key : ∀ n : Fin 256, UInt8.ofNat n.1 ||| 32 = 120 → UInt8.ofNat n.1 = 120 ∨ UInt8.ofNat n.1 = 88 := by decide +kernel
    have := key ⟨x.toNat, x.toNat_lt⟩
    simp only [UInt8.ofNat_toNat] at this
    simp only [hexPrefix, Bool.and_eq_false_iff, decide_eq_false_iff_not]
    right
    intro he
    rcases this he with h | h
    · exact hx.1 h
    · exact hx.2 h

theorem underscoreOK_of {s : Bytes} (hx : ∀ c ∈ s, c ≠ 120 ∧ c ≠ 88) (h : Between s) : underscoreOK s = true := by
  have hu := (between_unsign s).2 h
  have hx' : ∀ c ∈ unsign s, c ≠ 120 ∧ c ≠ 88 := fun c hc => hx c (unsign_mem hc)
  unfold underscoreOK
  generalize unsign s = t at *
  split
  · rename_i x t
    have h120 : ¬ (x ||| 32 = 120) := by
      have hx := hx' x (by simp)
      have key : ∀ n : Fin 256, UInt8.ofNat n.1 ||| 32 = 120 → UInt8.ofNat n.1 = 120 ∨ UInt8.ofNat n.1 = 88 := by decide +kernel
      have := key ⟨x.toNat, x.toNat_lt⟩
      simp only [UInt8.ofNat_toNat] at this
      intro he
      rcases this he with h | h
      · exact hx.1 h
      · exact hx.2 h
    split
    · simp only [h120, decide_false]
      rw [loop_iff]
      refine ⟨by simp, fun a b e => ?_⟩
      obtain ⟨⟨d, hg, hd⟩, h2⟩ := hu (48 :: x :: a) b (by rw [e]; rfl)
      refine ⟨?_, h2⟩
      cases a with
      | nil => exact .inl ⟨rfl, rfl⟩
      | cons y a => exact .inr ⟨d, by rw [List.getLast?_cons_cons, List.getLast?_cons_cons] at hg; exact hg, hd⟩
    · exact (loop_start _).2 hu
  · exact (loop_start _).2 hu

theorem between_of_ok {s : Bytes} (hx : ∀ c ∈ s, c ≠ 120 ∧ c ≠ 88) (h : underscoreOK s = true) (hb : ∀ x t, unsign s = 48 :: x :: t → ¬ (x ||| 32 = 98 ∨ x ||| 32 = 111)) : Between s := by
  rw [← between_unsign]
  have hx' : ∀ c ∈ unsign s, c ≠ 120 ∧ c ≠ 88 := fun c hc => hx c (unsign_mem hc)
  unfold underscoreOK at h
  generalize unsign s = t at *
  split at h
  · rename_i x t
    have h120 : ¬ (x ||| 32 = 120) := by
      have hx := hx' x (by simp)
      have key : ∀ n : Fin 256, UInt8.ofNat n.1 ||| 32 = 120 → UInt8.ofNat n.1 = 120 ∨ UInt8.ofNat n.1 = 88 := by decide +kernel
      have := key ⟨x.toNat, x.toNat_lt⟩
      simp only [UInt8.ofNat_toNat] at this
      intro he
      rcases this he with h | h
      · exact hx.1 h
      · exact hx.2 h
    have := hb x t rfl
    rw [if_neg (by tauto)] at h
    exact (loop_start _).1 h
  · exact (loop_start _).1 h

theorem readFloat_between {s : Bytes} (hx : ∀ c ∈ s, c ≠ 120 ∧ c ≠ 88) (h : Between s) : readFloat s = readFloat (plain s) := by
  have hh := between_head h
  have hu := unsign_plain hh
  have hxu : ∀ c ∈ unsign s, c ≠ 120 ∧ c ≠ 88 := fun c hc => hx c (unsign_mem hc)
  have hxp : ∀ c ∈ plain (unsign s), c ≠ 120 ∧ c ≠ 88 := fun c hc => hxu c (List.mem_of_mem_filter hc)
  have hf : ∀ a e, finish s false a e = finish (plain s) false a e := by
    intro a e
    unfold finish
    have h95 : (95 : UInt8) ∉ plain s := by intro hm; have := List.of_mem_filter hm; simp at this
    simp only [Bool.false_eq_true, if_false]
    rw [if_neg (by rw [underscoreOK_of hx h]; simp), if_neg (fun hc => h95 hc.1), head_plain hh]
  have hbu := (between_unsign s).2 h
  unfold readFloat
  simp only
  rw [hu, hexPrefix_none hxu, hexPrefix_none hxp]
  simp only [Bool.false_eq_true, if_false]
  rw [scanMant_plain]
  have hsh := scanMant_head false {} (unsign s)
  obtain ⟨p, hp⟩ := scanMant_rest false {} (unsign s)
  rw [hp] at hbu
  generalize scanMant false {} (unsign s) = r at *
  obtain ⟨a, q⟩ := r
  simp only at *
  cases a.digs
  · rfl
  · simp only [Bool.true_eq_false, if_false]
    cases q with
    | nil => exact hf a 0
    | cons c v =>
      have hc : c ≠ 95 := by simpa using hsh
      rw [plain_cons hc]
      simp only
      by_cases he : c ||| 32 = 101
      · have hcd : isDigit c = false := by
          have key : ∀ n : Fin 256, UInt8.ofNat n.1 ||| 32 = 101 → isDigit (UInt8.ofNat n.1) = false := by decide +kernel
          have := key ⟨c.toNat, c.toNat_lt⟩
          simp only [UInt8.ofNat_toNat] at this
          exact this he
        simp only [he, if_true]
        rw [expo_plain hbu hcd]
        cases hex : expo v with
        | none => rfl
        | some r =>
          obtain ⟨E, q⟩ := r
          have hq : q.head? ≠ some 95 := by
            unfold expo at hex
            simp only at hex
            split at hex
            · cases hex
            · split at hex
              · simp only [Option.some.injEq, Prod.mk.injEq] at hex
                rw [← hex.2]
                exact scanExp_head _ _
              · cases hex
          cases q with
          | nil => exact hf a E
          | cons y q =>
            have hy : y ≠ 95 := by simpa using hq
            simp only [Option.map_some, plain_cons hy]
      · simp only [he, if_false]

theorem readFloat_ok {s : Bytes} (hx : ∀ c ∈ s, c ≠ 120 ∧ c ≠ 88) {n : Num} (h : readFloat s = some n) : Between s := by
  by_cases h95 : (95 : UInt8) ∈ s
  swap
  · exact between_self h95
  have hxu : ∀ c ∈ unsign s, c ≠ 120 ∧ c ≠ 88 := fun c hc => hx c (unsign_mem hc)
  have hf : ∀ a e, finish s false a e = some n → underscoreOK s = true := by
    intro a e hfin
    unfold finish at hfin
    by_cases ho : underscoreOK s = true
    · exact ho
    · rw [if_pos ⟨h95, by simpa using ho⟩] at hfin; cases hfin
  have hok : underscoreOK s = true := by
    unfold readFloat at h
    simp only [hexPrefix_none hxu, Bool.false_eq_true, if_false] at h
    split at h
    · cases h
    · split at h
      · exact hf _ _ h
      · split at h
        · split at h
          · exact hf _ _ h
          · cases h
        · cases h
  refine between_of_ok hx hok fun x t he hb => ?_
  -- a binary or octal prefix is no float
  have hxx : digitVal false x = none ∧ x ≠ 95 ∧ x ≠ 46 ∧ ¬ (x ||| 32 = 101) := by
    have key : ∀ n : Fin 256, (UInt8.ofNat n.1 ||| 32 = 98 ∨ UInt8.ofNat n.1 ||| 32 = 111) →
        digitVal false (UInt8.ofNat n.1) = none ∧ UInt8.ofNat n.1 ≠ 95 ∧ UInt8.ofNat n.1 ≠ 46 ∧ ¬ (UInt8.ofNat n.1 ||| 32 = 101) := by decide +kernel
    have := key ⟨x.toNat, x.toNat_lt⟩
    simp only [UInt8.ofNat_toNat] at this
    exact this hb
  have h48 : digitVal false 48 = some 0 := by decide
  have hsc : scanMant false {} (48 :: x :: t) = ({ m := 0, frac := 0, dot := false, digs := true }, x :: t) := by
    simp only [scanMant, show ¬ ((48 : UInt8) = 95) by decide, show ¬ ((48 : UInt8) = 46) by decide, if_false, h48, hxx.1, hxx.2.1, hxx.2.2.1]
    rfl
  unfold readFloat at h
  simp only [hexPrefix_none hxu, Bool.false_eq_true, if_false] at h
  rw [he, hsc] at h
  simp [hxx.2.2.2] at h

theorem special_other {s : Bytes} {d : UInt8} (h : d ∈ s) (hd : d = 95 ∨ isDigit d = true) : special s = none := by
  have key : ∀ n : Fin 256, (UInt8.ofNat n.1 = 95 ∨ isDigit (UInt8.ofNat n.1) = true) →
      (if 65 ≤ UInt8.ofNat n.1 ∧ UInt8.ofNat n.1 ≤ 90 then UInt8.ofNat n.1 + 32 else UInt8.ofNat n.1) = UInt8.ofNat n.1 ∧
      UInt8.ofNat n.1 ∉ b!"inf" ∧ UInt8.ofNat n.1 ∉ b!"infinity" ∧ UInt8.ofNat n.1 ∉ b!"nan" ∧ UInt8.ofNat n.1 ≠ 45 ∧ UInt8.ofNat n.1 ≠ 43 := by decide +kernel
  have := key ⟨d.toNat, d.toNat_lt⟩
  simp only [UInt8.ofNat_toNat] at this
  obtain ⟨h0, h1, h2, h3, h4, h5⟩ := this hd
  have hl : ∀ t : Bytes, d ∈ t → d ∈ lowerAscii t := fun t ht => List.mem_map.2 ⟨d, ht, h0⟩
  have hu : d ∈ unsign s := by
    unfold unsign
    cases s with
    | nil => cases h
    | cons c s =>
      split
      · rename_i hs
        rcases List.mem_cons.1 h with rfl | h
        · simp [h4, h5] at hs
        · exact h
      · exact h
  unfold special
  simp only
  rw [if_neg, if_neg]
  · intro e; exact h3 (e ▸ hl s h)
  · rintro (e | e)
    · exact h1 (e ▸ hl _ hu)
    · exact h2 (e ▸ hl _ hu)

/-- **C81**: a text with underscores, not hexadecimal, is read if each of them stands between two digits, and then as the text without them. -/
theorem C81_underscores (s : Bytes) (hx : ∀ c ∈ s, c ≠ 120 ∧ c ≠ 88) (h95 : (95 : UInt8) ∈ s) :
    (Between s → parse64 s = parse64 (plain s) ∧ parse32 s = parse32 (plain s)) ∧ (¬ Between s → parse64 s = none ∧ parse32 s = false) := by
  have hs := special_other h95 (.inl rfl)
  refine ⟨fun h => ?_, fun h => ?_⟩
  · have hs' : special (plain s) = none := by
      obtain ⟨a, b, e⟩ := List.append_of_mem h95
      obtain ⟨⟨d, hg, hd⟩, _⟩ := h a b e
      have hm : d ∈ s := by rw [e]; exact List.mem_append_left _ (List.mem_of_getLast? hg)
      have hd95 : d ≠ 95 := by rintro rfl; revert hd; decide
      exact special_other (List.mem_filter.2 ⟨hm, by simpa using hd95⟩) (.inr hd)
    unfold parse64 parse32
    rw [hs, hs', readFloat_between hx h]
    exact ⟨rfl, rfl⟩
  · have hr : readFloat s = none := by
      cases hr : readFloat s with
      | none => rfl
      | some n => exact absurd (readFloat_ok hx hr) h
    unfold parse64 parse32
    rw [hs, hr]
    exact ⟨rfl, rfl⟩

/-! ### Hexadecimal texts -/

/-- hexadecimal digits -/
def HexDigits (s : Bytes) : Prop := ∀ c ∈ s, (hexVal c).isSome

/-- the number written with hexadecimal digits -/
def hexOf (ds : Bytes) : ℕ := ds.foldl (fun n c => n * 16 + (hexVal c).getD 0) 0

/-- fraction or none: its text and its digits -/
inductive HexFrac : Bytes → Bytes → Prop
  | none : HexFrac [] []
  | some (b : Bytes) : HexDigits b → HexFrac (46 :: b) b

/-- hexadecimal text for `± m * 2^e`: sign, 0x, digits, point and digits, p and the exponent, which is not optional; `xs` are the digits of the exponent -/
inductive Hexadecimal : Bytes → Bytes → Bool → ℕ → ℤ → Prop
  | mk (sign : Bytes) (x : UInt8) (a f b : Bytes) (p : UInt8) (y xs : Bytes) (E : ℤ) : sign = [] ∨ sign = [43] ∨ sign = [45] → x = 120 ∨ x = 88 → HexDigits a → HexFrac f b → a ++ b ≠ [] →
      p = 112 ∨ p = 80 → ExpText (101 :: y) xs E →
      Hexadecimal (sign ++ (48 :: x :: (a ++ (f ++ p :: y)))) xs (sign = [45]) (hexOf (a ++ b)) (E - 4 * b.length)

/-- `± m * 2^e` -/
def bin (neg : Bool) (m : ℕ) (e : ℤ) : ℚ := (if neg then -1 else 1) * m * 2 ^ e

theorem hexOf_acc (n : ℕ) (ds : Bytes) : ds.foldl (fun n c => n * 16 + (hexVal c).getD 0) n = n * 16 ^ ds.length + hexOf ds := by
  induction ds generalizing n with
  | nil => simp [hexOf]
  | cons c s ih =>
    unfold hexOf
    rw [List.foldl_cons, List.foldl_cons, ih, ih (0 * 16 + _), List.length_cons]
    ring

theorem hexOf_append (a b : Bytes) : hexOf (a ++ b) = hexOf a * 16 ^ b.length + hexOf b := by
  conv => lhs; unfold hexOf
  rw [List.foldl_append, hexOf_acc]; rfl

theorem hexOf_cons (c : UInt8) (s : Bytes) : hexOf (c :: s) = (hexVal c).getD 0 * 16 ^ s.length + hexOf s := by
  rw [← List.singleton_append, hexOf_append]; simp [hexOf]

theorem hexVal_ne {c : UInt8} (h : (hexVal c).isSome) : c ≠ 95 ∧ c ≠ 46 := by
  constructor <;> (rintro rfl; revert h; decide)

theorem scanMant_hex (a : Mant) (ds r : Bytes) (h : HexDigits ds) :
    scanMant true a (ds ++ r) = scanMant true { m := a.m * 16 ^ ds.length + hexOf ds, frac := if a.dot then a.frac + ds.length else a.frac, dot := a.dot, digs := a.digs || !ds.isEmpty } r := by
  induction ds generalizing a with
  | nil => simp [hexOf]
  | cons c s ih =>
    have hc := h c (by simp)
    obtain ⟨h1, h2⟩ := hexVal_ne hc
    obtain ⟨v, hv⟩ := Option.isSome_iff_exists.1 hc
    rw [List.cons_append]
    conv => lhs; unfold scanMant
    simp only [h1, h2, if_false, digitVal, if_true, hv]
    rw [ih _ (fun x hx => h x (by simp [hx]))]
    congr 1
    simp only [Mant.mk.injEq, Bool.true_or, List.length_cons, List.isEmpty_cons, Bool.not_false, Bool.or_true, and_true]
    constructor
    · rw [hexOf_cons, hv]; simp only [Option.getD_some]; ring
    · split <;> omega

theorem scanMant_p (a : Mant) (p : UInt8) (hp : p = 112 ∨ p = 80) (y : Bytes) : scanMant true a (p :: y) = (a, p :: y) := by
  rcases hp with rfl | rfl <;> simp [scanMant, digitVal, hexVal]

theorem readFloat_hex {s xs : Bytes} {neg : Bool} {m : ℕ} {e : ℤ} (h : Hexadecimal s xs neg m e) (hl : natOf xs < 100000) :
    readFloat s = some { neg := neg, hex := true, m := m, e := e } := by
  cases h with
  | mk sign x a f b p y _ E hs hx ha hf hne hp hE =>
    obtain ⟨hu, hn⟩ := unsign_sign (t := 48 :: x :: (a ++ (f ++ p :: y))) hs (by intro c r e; simp only [List.cons.injEq] at e; rw [← e.1]; decide)
    have hhex : hexPrefix (48 :: x :: (a ++ (f ++ p :: y))) = true := by
      have hne' : a ++ (f ++ p :: y) ≠ [] := by simp
      cases hh : a ++ (f ++ p :: y) with
      | nil => exact absurd hh hne'
      | cons c t => rcases hx with rfl | rfl <;> rfl
    have h95 : (95 : UInt8) ∉ sign ++ (48 :: x :: (a ++ (f ++ p :: y))) := by
      intro hc
      simp only [List.mem_append, List.mem_cons] at hc
      rcases hc with hc | hc | hc | hc | hc | hc | hc
      · rcases hs with rfl | rfl | rfl <;> simp at hc
      · exact absurd hc (by decide)
      · rcases hx with rfl | rfl <;> exact absurd hc (by decide)
      · exact (hexVal_ne (ha _ hc)).1 rfl
      · cases hf with
        | none => cases hc
        | some _ hb =>
          rcases List.mem_cons.1 hc with hc | hc
          · exact absurd hc (by decide)
          · exact (hexVal_ne (hb _ hc)).1 rfl
      · rcases hp with rfl | rfl <;> exact absurd hc (by decide)
      · exact (numCh_bits (expText_ch hE 95 (List.mem_cons_of_mem _ hc))).1 rfl
    have hscan : scanMant true {} (a ++ (f ++ p :: y)) = ({ m := hexOf (a ++ b), frac := b.length, dot := !f.isEmpty, digs := true }, p :: y) := by
      rw [scanMant_hex _ _ _ ha]
      cases hf with
      | none =>
        have ha' : a ≠ [] := by simpa using hne
        have hie : a.isEmpty = false := by cases a with | nil => exact absurd rfl ha' | cons => rfl
        rw [List.nil_append, scanMant_p _ _ hp]
        simp [hie]
      | some _ hb =>
        rw [List.cons_append]
        conv => lhs; unfold scanMant
        simp only [show (46 : UInt8) ≠ 95 by decide, if_false, if_true, Bool.false_eq_true]
        rw [scanMant_hex _ _ _ hb, scanMant_p _ _ hp]
        simp only [Nat.zero_mul, Nat.zero_add, Bool.false_or, if_true, ← hexOf_append, Prod.mk.injEq, Mant.mk.injEq, true_and, and_true, List.isEmpty_cons, Bool.not_false]
        cases a with
        | cons c t => rfl
        | nil => cases b with
          | nil => exact absurd rfl hne
          | cons c t => rfl
    obtain ⟨_, C, h1, hC1, _⟩ := expo_text hE
    have hC := hC1 hl
    subst hC
    have hp32 : p ||| 32 = 112 := by rcases hp with rfl | rfl <;> decide
    unfold readFloat
    simp only [hu, hhex, if_true, List.drop_succ_cons, List.drop_zero, hscan, Bool.true_eq_false, if_false, hp32, h1, finish, h95, false_and, hn]

theorem special_x {s : Bytes} {x : UInt8} (h : x ∈ s) (hx : x = 120 ∨ x = 88) : special s = none := by
  have hu : x ∈ unsign s := by
    unfold unsign
    cases s with
    | nil => cases h
    | cons c s =>
      split
      · rename_i hs
        rcases List.mem_cons.1 h with rfl | h
        · rcases hx with rfl | rfl <;> simp at hs
        · exact h
      · exact h
  have hl : ∀ t : Bytes, x ∈ t → (120 : UInt8) ∈ lowerAscii t := by
    intro t ht
    refine List.mem_map.2 ⟨x, ht, ?_⟩
    rcases hx with rfl | rfl <;> decide
  unfold special
  simp only
  rw [if_neg, if_neg]
  · intro e
    have := hl s h
    rw [e] at this
    revert this; decide
  · rintro (e | e)
    · have := hl _ hu
      rw [e] at this
      revert this; decide
    · have := hl _ hu
      rw [e] at this
      revert this; decide

theorem bin_scaled (neg : Bool) (m : ℕ) (e : ℤ) : bin neg m e = (if neg then -((scaled 2 m e).1 : ℚ) else (scaled 2 m e).1) / (scaled 2 m e).2 := by
  have hc : (m : ℚ) * 2 ^ e = ((scaled 2 m e).1 : ℚ) / (scaled 2 m e).2 := by
    unfold scaled
    by_cases h : 0 ≤ e
    · simp only [h, if_true]
      obtain ⟨n, rfl⟩ := Int.eq_ofNat_of_zero_le h
      simp
    · simp only [h, if_false]
      obtain ⟨n, hn⟩ := Int.eq_ofNat_of_zero_le (show 0 ≤ -e by omega)
      have : e = -(n : ℤ) := by omega
      subst this
      simp [div_eq_mul_inv]
  unfold bin
  rw [mul_assoc, hc]
  cases neg <;> simp [neg_div]

theorem hexadecimal_x {s xs : Bytes} {neg : Bool} {m : ℕ} {e : ℤ} (h : Hexadecimal s xs neg m e) : ∃ x, x ∈ s ∧ (x = 120 ∨ x = 88) := by
  cases h with
  | mk sign x a f b p y _ E hs hx => exact ⟨x, by simp, hx⟩

/-- **C81**: a hexadecimal text with an exponent below 100000 is read as the float nearest to the number it means, ties going to the even one. -/
theorem C81_hexadecimal {s xs : Bytes} {neg : Bool} {m : ℕ} {e : ℤ} (h : Hexadecimal s xs neg m e) (hl : natOf xs < 100000) (x : UInt64) (hx : parse64 s = some x) :
    Ieee.Finite x ∧ isNeg x = neg ∧ ∀ w, Ieee.Finite w → |value x - bin neg m e| ≤ |value w - bin neg m e| ∧
      (|value x - bin neg m e| = |value w - bin neg m e| → value w = value x ∨ f64Mag x % 2 = 0) := by
  obtain ⟨z, hz, hz'⟩ := hexadecimal_x h
  have hp : parse64 s = if key 2 m e = infKey then none else some (mk neg (key 2 m e)) := by
    unfold parse64
    rw [special_x hz hz', readFloat_hex h hl]
    simp
  rw [hp] at hx
  split at hx
  · cases hx
  rename_i hne
  cases hx
  have hlt : key 2 m e < infKey := by
    have : key 2 m e ≤ infKey := by unfold key; exact rnd_le _ _
    omega
  have h63 : key 2 m e < 2 ^ 63 := by have := infKey_lt; omega
  refine ⟨finite_mk neg hlt, isNeg_mk neg h63, fun w hw => ?_⟩
  have hd := scaled_pos (b := 2) (by decide) m e
  have hr := (rounds_mk neg ((scaled 2 m e).1 * unit) (scaled 2 m e).2 hd).2 w hw
  have hk : rnd ((scaled 2 m e).1 * unit) (scaled 2 m e).2 = key 2 m e := by unfold key; rfl
  rw [hk] at hr
  rw [bin_scaled, dist_eq _ _ _ _ hd, dist_eq _ _ _ _ hd]
  have hpos : (0 : ℚ) < 2 ^ 1074 * ((scaled 2 m e).2 : ℚ) := mul_pos (by positivity) (by exact_mod_cast hd)
  constructor
  · rw [div_le_div_iff_of_pos_right hpos]
    exact_mod_cast hr.1
  · intro he
    rw [div_left_inj' hpos.ne'] at he
    have he' := hr.2 (by exact_mod_cast he)
    rcases he' with h1 | h1
    · left; unfold value; rw [h1]
    · exact .inr h1

/-! ### All texts -/

/-- the same letters in either case -/
def Folds (s t : Bytes) : Prop := List.Forall₂ (fun c d => c = d ∨ c + 32 = d) s t

/-- the names of infinities, with a sign or not, and of NaN -/
inductive Name : Bytes → Prop
  | inf (sign t : Bytes) : sign = [] ∨ sign = [43] ∨ sign = [45] → Folds t b!"inf" ∨ Folds t b!"infinity" → Name (sign ++ t)
  | nan (t : Bytes) : Folds t b!"nan" → Name t

theorem folds_iff (s t : Bytes) (ht : ∀ d ∈ t, 97 ≤ d ∧ d ≤ 122) : lowerAscii s = t ↔ Folds s t := by
  have hk' : ∀ c d : UInt8, (97 ≤ d ∧ d ≤ 122) → ((if 65 ≤ c ∧ c ≤ 90 then c + 32 else c) = d ↔ c = d ∨ c + 32 = d) := by
    intro c d h
    rw [UInt8.le_iff_toNat_le, UInt8.le_iff_toNat_le, show (97 : UInt8).toNat = 97 from rfl, show (122 : UInt8).toNat = 122 from rfl] at h
    have e1 : c = d ↔ c.toNat = d.toNat := UInt8.toNat_inj.symm
    have e2 : c + 32 = d ↔ (c.toNat + 32) % 256 = d.toNat := by rw [← UInt8.toNat_inj, UInt8.toNat_add]; rfl
    have hc := c.toNat_lt
    by_cases hr : 65 ≤ c ∧ c ≤ 90
    · rw [if_pos hr, e1, e2]
      rw [UInt8.le_iff_toNat_le, UInt8.le_iff_toNat_le, show (65 : UInt8).toNat = 65 from rfl, show (90 : UInt8).toNat = 90 from rfl] at hr
      omega
    · rw [if_neg hr, e1, e2]
      rw [UInt8.le_iff_toNat_le, UInt8.le_iff_toNat_le, show (65 : UInt8).toNat = 65 from rfl, show (90 : UInt8).toNat = 90 from rfl] at hr
      omega
  unfold Folds
  induction s generalizing t with
  | nil => cases t <;> simp [lowerAscii]
  | cons c s ih =>
    cases t with
    | nil => simp [lowerAscii]
    | cons d t =>
      have h1 := hk' c d (ht d (by simp))
      have h2 := ih (t := t) (fun x hx => ht x (by simp [hx]))
      unfold lowerAscii at h2 ⊢
      rw [List.map_cons, List.cons.injEq, List.forall₂_cons]
      exact and_congr h1 h2

theorem sign_split (s : Bytes) : ∃ sign, (sign = [] ∨ sign = [43] ∨ sign = [45]) ∧ s = sign ++ unsign s := by
  unfold unsign
  cases s with
  | nil => exact ⟨[], .inl rfl, rfl⟩
  | cons c s =>
    by_cases h1 : c = 45
    · subst h1; exact ⟨[45], by simp, by simp⟩
    · by_cases h2 : c = 43
      · subst h2; exact ⟨[43], by simp, by simp⟩
      · exact ⟨[], .inl rfl, by simp [h1, h2]⟩

theorem folds_head {t u : Bytes} (h : Folds t u) (hu : ∀ d ∈ u, 97 ≤ d ∧ d ≤ 122) (c : UInt8) (r : Bytes) (e : t = c :: r) : c ≠ 43 ∧ c ≠ 45 := by
  subst e
  cases h with
  | cons hc _ =>
    rename_i d _ _
    have := hu d (by simp)
    constructor <;> (rintro rfl; rcases hc with rfl | rfl <;> revert this <;> decide)

theorem special_iff (s : Bytes) : (special s).isSome ↔ Name s := by
  have hi : ∀ d ∈ b!"inf", 97 ≤ d ∧ d ≤ 122 := by decide
  have hy : ∀ d ∈ b!"infinity", 97 ≤ d ∧ d ≤ 122 := by decide
  have hn : ∀ d ∈ b!"nan", 97 ≤ d ∧ d ≤ 122 := by decide
  have h1 : (special s).isSome ↔ (lowerAscii (unsign s) = b!"inf" ∨ lowerAscii (unsign s) = b!"infinity") ∨ lowerAscii s = b!"nan" := by
    unfold special
    simp only
    by_cases ha : lowerAscii (unsign s) = b!"inf" ∨ lowerAscii (unsign s) = b!"infinity"
    · simp only [ha, if_true, Option.isSome_some, true_or]
    · simp only [ha, if_false, false_or]
      by_cases hb : lowerAscii s = b!"nan"
      · simp only [hb, if_true, Option.isSome_some]
      · simp only [hb, if_false, Option.isSome_none, Bool.false_eq_true]
  rw [h1, folds_iff _ _ hi, folds_iff _ _ hy, folds_iff _ _ hn]
  constructor
  · rintro (h | h)
    · obtain ⟨sign, hs, e⟩ := sign_split s
      rw [e]
      exact .inf sign _ hs h
    · exact .nan s h
  · intro h
    cases h with
    | inf sign t hs ht =>
      left
      have : unsign (sign ++ t) = t := (unsign_sign hs (by
        intro c r e
        rcases ht with ht | ht
        · exact folds_head ht hi c r e
        · exact folds_head ht hy c r e)).1
      rw [this]; exact ht
    | nan _ ht => exact .inr ht

theorem scanMant_hex_inv (a : Mant) (s : Bytes) (h95 : (95 : UInt8) ∉ s) :
    ∃ d f b r, s = d ++ (f ++ r) ∧ HexDigits d ∧ HexFrac f b ∧ (a.dot = true → f = []) ∧ (scanMant true a s).2 = r ∧ ((scanMant true a s).1.digs = true ↔ a.digs = true ∨ d ++ b ≠ []) := by
  have hnil : HexDigits [] := fun c hc => by cases hc
  induction s generalizing a with
  | nil => exact ⟨[], [], [], [], rfl, hnil, .none, fun _ => rfl, rfl, by simp [scanMant]⟩
  | cons c s ih =>
    have h1 : c ≠ 95 := fun e => h95 (by simp [e])
    have h95' : (95 : UInt8) ∉ s := fun hc => h95 (by simp [hc])
    simp only [scanMant, h1, if_false]
    by_cases hc : c = 46
    · subst hc
      simp only [if_true]
      cases hdot : a.dot with
      | true =>
        simp only [if_true]
        exact ⟨[], [], [], 46 :: s, rfl, hnil, .none, fun _ => rfl, rfl, by simp⟩
      | false =>
        simp only [Bool.false_eq_true, if_false]
        obtain ⟨d, f, b, r, e, hd, hf, hfd, hr, hg⟩ := ih { a with dot := true } h95'
        have hf0 := hfd rfl
        subst hf0
        cases hf
        refine ⟨[], 46 :: d, d, r, by rw [e]; simp, hnil, .some d hd, (fun h => by cases h), hr, ?_⟩
        rw [hg]; simp
    · simp only [hc, if_false]
      cases hv : digitVal true c with
      | none => exact ⟨[], [], [], c :: s, rfl, hnil, .none, fun _ => rfl, rfl, by simp⟩
      | some v =>
        have hdig : (hexVal c).isSome := by
          simp only [digitVal, if_true] at hv
          simp [hv]
        simp only
        obtain ⟨d, f, b, r, e, hd, hf, hfd, hr, hg⟩ := ih { a with m := a.m * (if True then 16 else 10) + v, frac := if a.dot then a.frac + 1 else a.frac, digs := true } h95'
        refine ⟨c :: d, f, b, r, by rw [e]; rfl, ?_, hf, hfd, hr, ?_⟩
        · intro x hx
          rcases List.mem_cons.1 hx with rfl | hx
          · exact hdig
          · exact hd x hx
        · rw [hg]; simp

theorem readFloat_hex_inv {s : Bytes} {n : Num} (h : readFloat s = some n) (h95 : (95 : UInt8) ∉ s) (hx : hexPrefix (unsign s) = true) :
    ∃ xs neg m e, Hexadecimal s xs neg m e := by
  obtain ⟨sign, hsign, hs⟩ := sign_split s
  have h95' : (95 : UInt8) ∉ unsign s := fun hc => h95 (by rw [hs]; exact List.mem_append.2 (.inr hc))
  obtain ⟨x, t, hu, hxx⟩ : ∃ x t, unsign s = 48 :: x :: t ∧ (x = 120 ∨ x = 88) := by
    generalize unsign s = u at *
    match u, hx with
    | c :: x :: y :: t, hx =>
      simp only [hexPrefix, Bool.and_eq_true, decide_eq_true_eq] at hx
      have key : ∀ n : Fin 256, UInt8.ofNat n.1 ||| 32 = 120 → UInt8.ofNat n.1 = 120 ∨ UInt8.ofNat n.1 = 88 := by decide +kernel
      have := key ⟨x.toNat, x.toNat_lt⟩
      simp only [UInt8.ofNat_toNat] at this
      exact ⟨x, y :: t, by rw [hx.1], this hx.2⟩
  have ht95 : (95 : UInt8) ∉ t := fun hc => h95' (by rw [hu]; simp [hc])
  obtain ⟨d, f, b, r, e, hd, hf, _, hr, hg⟩ := scanMant_hex_inv {} t ht95
  unfold readFloat at h
  simp only [hx, if_true] at h
  rw [hu] at h
  simp only [List.drop_succ_cons, List.drop_zero] at h
  cases hdg : (scanMant true {} t).1.digs with
  | false => simp [hdg] at h
  | true =>
    have hne : d ++ b ≠ [] := by
      rcases hg.1 hdg with h | h
      · cases h
      · exact h
    simp only [hdg, Bool.true_eq_false, if_false, hr] at h
    cases r with
    | nil => cases h
    | cons c v =>
      simp only at h
      by_cases hc : c ||| 32 = 112
      · simp only [hc, if_true] at h
        cases hex : expo v with
        | none => rw [hex] at h; cases h
        | some p =>
          obtain ⟨E, q⟩ := p
          cases q with
          | cons y q => rw [hex] at h; cases h
          | nil =>
            have hv : (95 : UInt8) ∉ v := fun hh => ht95 (by rw [e]; simp [hh])
            obtain ⟨xs, E', hE⟩ := expo_inv (c := 101) hex hv (by decide)
            have hcp : c = 112 ∨ c = 80 := by
              have key : ∀ n : Fin 256, UInt8.ofNat n.1 ||| 32 = 112 → UInt8.ofNat n.1 = 112 ∨ UInt8.ofNat n.1 = 80 := by decide +kernel
              have := key ⟨c.toNat, c.toNat_lt⟩
              simp only [UInt8.ofNat_toNat] at this
              exact this hc
            have := Hexadecimal.mk sign x d f b c v xs E' hsign hxx hd hf hne hcp hE
            rw [← e, ← hu, ← hs] at this
            exact ⟨_, _, _, _, this⟩
      · simp [hc] at h

/-- **C81**: what is read without underscores is a decimal text, a hexadecimal one or a name; and all names are read. -/
theorem C81_texts (s : Bytes) (h95 : (95 : UInt8) ∉ s) : ((parse64 s).isSome → Name s ∨ (∃ xs neg m e, Decimal s xs neg m e) ∨ (∃ xs neg m e, Hexadecimal s xs neg m e)) ∧
    (Name s → (parse64 s).isSome ∧ parse32 s = true) := by
  refine ⟨fun h => ?_, fun h => ?_⟩
  · rw [← special_iff]
    cases hs : special s with
    | some x => exact .inl rfl
    | none =>
      right
      unfold parse64 at h
      rw [hs] at h
      cases hr : readFloat s with
      | none => rw [hr] at h; cases h
      | some n =>
        cases hx : hexPrefix (unsign s) with
        | false => exact .inl (readFloat_inv hr h95 hx)
        | true => exact .inr (readFloat_hex_inv hr h95 hx)
  · rw [← special_iff] at h
    obtain ⟨x, hx⟩ := Option.isSome_iff_exists.1 h
    unfold parse64 parse32
    simp [hx]

example : Between b!"1_000.5e1_0" ∧ plain b!"1_000.5e1_0" = b!"1000.5e10" := by
  refine ⟨(loop_start _).1 (by decide +kernel), by decide +kernel⟩

example : Hexadecimal b!"-0x1.8P-2" b!"2" true 24 (-6) :=
  Hexadecimal.mk [45] 120 b!"1" b!".8" b!"8" 80 b!"-2" b!"2" (-2) (.inr (.inr rfl)) (.inl rfl) (by unfold HexDigits; decide) (.some _ (by unfold HexDigits; decide)) (by decide) (.inr rfl)
    (.neg 101 b!"2" (.inl rfl) (by decide) (by unfold Digits; decide))
example : parse64 b!"-0x1.8P-2" = some 0xBFD8000000000000 ∧ parse64 b!"0x_1p0" = some 0x3FF0000000000000 ∧ parse64 b!"0x.p0" = none := by decide +kernel
example : Name b!"+Infinity" := .inf [43] b!"Infinity" (.inr (.inl rfl)) (.inr (by unfold Folds; decide))

end Verif.FloatText
