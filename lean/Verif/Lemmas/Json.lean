import Verif.Model.Json
import Verif.Spec.JsonGrammar
/- Helper lemmas for the JSON body reader and writer. -/
namespace Verif.Json
open JsonG

theorem isWS_iff (c : UInt8) : isWhitespace c = true ↔ c = 32 ∨ c = 10 ∨ c = 13 ∨ c = 9 := by
  simp [isWhitespace, or_assoc]

theorem skipWS_ws {w : Bytes} (h : WS w) (s : Bytes) : skipWS (w ++ s) = skipWS s := by
  induction w with
  | nil => rfl
  | cons c w ih =>
    have hc := (isWS_iff c).mpr (h c (by simp))
    have := ih (fun d hd => h d (by simp [hd]))
    simp only [List.cons_append, skipWS, List.dropWhile, hc]
    exact this

theorem skipWS_cons {c : UInt8} (h : isWhitespace c = false) (s : Bytes) : skipWS (c :: s) = c :: s := by
  simp [skipWS, List.dropWhile, h]

theorem skipWS_nil : skipWS [] = [] := rfl

theorem skipWS_idem (s : Bytes) : skipWS (skipWS s) = skipWS s := by
  induction s with
  | nil => rfl
  | cons c s ih =>
    cases h : isWhitespace c with
    | true => simp only [skipWS, List.dropWhile, h]; exact ih
    | false => rw [skipWS_cons h, skipWS_cons h]

theorem skipWS_length (s : Bytes) : (skipWS s).length ≤ s.length := (List.dropWhile_suffix _).length_le

theorem token_ws {w : Bytes} (h : WS w) (ch : UInt8) (s : Bytes) : token ch (w ++ s) = token ch s := by
  simp only [token, skipWS_ws h]

theorem token_self {c : UInt8} (h : isWhitespace c = false) (s : Bytes) : token c (c :: s) = some s := by
  simp [token, skipWS_cons h]

theorem token_ne {c d : UInt8} (h : isWhitespace c = false) (hne : c ≠ d) (s : Bytes) : token d (c :: s) = none := by
  simp [token, skipWS_cons h, hne]

theorem readString_ws {w : Bytes} (h : WS w) (s : Bytes) : readString (w ++ s) = readString s := by
  simp only [readString, skipWS_ws h]

theorem readValue_ws {w : Bytes} (h : WS w) (F : FloatCodec) (f : Nat) (s : Bytes) (hf : 0 < f) :
    readValue F f (w ++ s) = readValue F f s := by
  cases f with
  | zero => omega
  | succ f => simp only [readValue, skipWS_ws h]

/-! ### Strings -/

theorem unq_plain (c : UInt8) (h : c ≠ 92) (t : Bytes) : unq (c :: t) = c :: unq t := by
  rw [unq.eq_def]; simp [h]

theorem simpleEscape_esc : ∀ p ∈ escapes, p.1 ≠ 120 ∧ p.1 ≠ 117 ∧ simpleEscape p.1 = p.2 := by decide

theorem scanStr_plain (c : UInt8) (h : c ≠ 92) (h' : c ≠ 34) (t : Bytes) :
    scanStr (c :: t) = (scanStr t).map fun p => (c :: p.1, p.2) := by
  rw [scanStr.eq_def]; simp [h, h']

theorem scanStr_esc (d : UInt8) (t : Bytes) :
    scanStr (92 :: d :: t) = (scanStr t).map fun p => (92 :: d :: p.1, p.2) := by
  rw [scanStr.eq_def]; simp

theorem hexVal_range {a : UInt8} {n : Nat} (h : hexVal a = some n) : a ≠ 92 ∧ a ≠ 34 ∧ n < 16 := by
  unfold hexVal at h
  split at h
  · rename_i hr; injection h with h; subst h
    simp only [UInt8.le_iff_toNat_le] at hr
    refine ⟨?_, ?_, ?_⟩
    · rintro rfl; simp at hr
    · rintro rfl; simp at hr
    · have : (57 : UInt8).toNat = 57 := rfl
      omega
  split at h
  · rename_i hr; injection h with h; subst h
    simp only [UInt8.le_iff_toNat_le] at hr
    refine ⟨?_, ?_, ?_⟩
    · rintro rfl; simp at hr
    · rintro rfl; simp at hr
    · have : (102 : UInt8).toNat = 102 := rfl
      omega
  split at h
  · rename_i hr; injection h with h; subst h
    simp only [UInt8.le_iff_toNat_le] at hr
    refine ⟨?_, ?_, ?_⟩
    · rintro rfl; simp at hr
    · rintro rfl; simp at hr
    · have : (70 : UInt8).toNat = 70 := rfl
      omega
  · simp at h

theorem scan_body {s t : Bytes} (h : StrBody s t) (r : Bytes) : scanStr (t ++ 34 :: r) = some (t, r) := by
  induction h with
  | nil => rw [List.nil_append, scanStr.eq_def]; simp
  | plain c h1 h2 h3 _ ih => rw [List.cons_append, scanStr_plain _ h3 h2, ih]; rfl
  | esc e c h _ ih => simp only [List.cons_append]; rw [scanStr_esc, ih]; rfl
  | uni a b c d n1 n2 n3 n4 h1 h2 h3 h4 _ _ ih =>
    simp only [List.cons_append]
    rw [scanStr_esc, scanStr_plain _ (hexVal_range h1).1 (hexVal_range h1).2.1,
      scanStr_plain _ (hexVal_range h2).1 (hexVal_range h2).2.1,
      scanStr_plain _ (hexVal_range h3).1 (hexVal_range h3).2.1,
      scanStr_plain _ (hexVal_range h4).1 (hexVal_range h4).2.1, ih]
    rfl

theorem unq_body {s t : Bytes} (h : StrBody s t) : unq t = s := by
  induction h with
  | nil => simp [unq]
  | plain c h1 h2 h3 _ ih => rw [unq_plain c h3, ih]
  | esc e c h _ ih =>
    have := simpleEscape_esc _ h
    simp only at this
    rw [unq.eq_def]; simp [this, ih]
  | uni a b c d n1 n2 n3 n4 h1 h2 h3 h4 hv _ ih =>
    rw [unq.eq_def]; simp [uEscape, hex4, h1, h2, h3, h4, hv, ih]

theorem readStringBody_text {s t : Bytes} (h : StrBody s t) (r : Bytes) :
    readStringBody (t ++ 34 :: r) = .ok s r := by
  simp [readStringBody, scan_body h, unq_body h]

/-! ### Numbers -/

/-- the input does not continue a number -/
def NumEnd (r : Bytes) : Prop := ∀ c t, r = c :: t → isNumCh c = false

theorem takeWhile_append_stop {p : UInt8 → Bool} {t r : Bytes} (h : ∀ c ∈ t, p c = true)
    (hr : ∀ c r', r = c :: r' → p c = false) : (t ++ r).takeWhile p = t ∧ (t ++ r).dropWhile p = r := by
  induction t with
  | nil =>
    cases r with
    | nil => simp
    | cons c r => simp [hr c r rfl]
  | cons c t ih =>
    have hc := h c (by simp)
    have := ih (fun d hd => h d (by simp [hd]))
    simp [hc, this]

theorem readNumber_text (F : FloatCodec) {t r : Bytes} (h : ∀ c ∈ t, isNumCh c = true) (hr : NumEnd r) :
    readNumber F (t ++ r) = convNumber F t r := by
  have := takeWhile_append_stop h hr
  simp only [readNumber, this.1, this.2]

theorem isNumCh_digit {c : UInt8} (h : isDigit c = true) : isNumCh c = true := by simp [isNumCh, h]

theorem isFloatCh_digit {c : UInt8} (h : isDigit c = true) : isFloatCh c = false := by
  have := (isDigit_iff c).mp h
  simp only [isFloatCh, Bool.or_eq_false_iff, decide_eq_false_iff_not]
  refine ⟨⟨⟨?_, ?_⟩, ?_⟩, ?_⟩ <;> rintro rfl <;> simp at this

theorem intPart_digits {t : Bytes} (h : IntPart t) : ∀ c ∈ t, isDigit c = true := by
  cases h with
  | zero => intro c hc; simp at hc; subst hc; decide
  | nonzero c t h1 h2 h3 => intro d hd; simp at hd; rcases hd with rfl | hd; exact h1; exact h3 d hd

theorem intPart_ne {t : Bytes} (h : IntPart t) : ∃ c t', t = c :: t' ∧ isDigit c = true := by
  cases h with
  | zero => exact ⟨48, [], rfl, by decide⟩
  | nonzero c t h1 h2 h3 => exact ⟨c, t, rfl, h1⟩

theorem any_float_digits {t : Bytes} (h : ∀ c ∈ t, isDigit c = true) : t.any isFloatCh = false := by
  rw [List.any_eq_false]
  intro c hc; rw [isFloatCh_digit (h c hc)]; simp

theorem sign_num {s : Bytes} (h : s = [] ∨ s = [43] ∨ s = [45]) : ∀ c ∈ s, isNumCh c = true := by
  rcases h with rfl | rfl | rfl <;> simp <;> decide

theorem fracExp_num {u : Bytes} (h : FracExp u) : (∀ c ∈ u, isNumCh c = true) ∧ u.any isFloatCh = true := by
  cases h with
  | frac t h1 h2 =>
    refine ⟨?_, by simp [isFloatCh]⟩
    intro c hc; simp at hc; rcases hc with rfl | hc; decide; exact isNumCh_digit (h2 c hc)
  | exp e sign t he hs h1 h2 =>
    refine ⟨?_, by rcases he with rfl | rfl <;> simp [isFloatCh]⟩
    intro c hc; simp at hc
    rcases hc with rfl | hc | hc
    · rcases he with rfl | rfl <;> decide
    · exact sign_num hs c hc
    · exact isNumCh_digit (h2 c hc)
  | both u e sign t h1 h2 he hs h3 h4 =>
    refine ⟨?_, by simp [isFloatCh]⟩
    intro c hc; simp at hc
    rcases hc with rfl | hc | rfl | hc | hc
    · decide
    · exact isNumCh_digit (h2 c hc)
    · rcases he with rfl | rfl <;> decide
    · exact sign_num hs c hc
    · exact isNumCh_digit (h4 c hc)

theorem atoi_nat {t : Bytes} (h : IntPart t) {n : Nat} (hp : parseNat t = some n) (hi : IsInt64 n) :
    atoi t = some n := by
  obtain ⟨c, t', rfl, hc⟩ := intPart_ne h
  have hd := (isDigit_iff c).mp hc
  have h1 : c ≠ 45 := by rintro rfl; simp at hd
  have h2 : c ≠ 43 := by rintro rfl; simp at hd
  simp [atoi, h1, h2, hp, hi]

theorem atoi_neg {t : Bytes} {n : Nat} (hp : parseNat t = some n) (hi : IsInt64 (-n)) :
    atoi (45 :: t) = some (-(n : Int)) := by
  simp [atoi, hp, hi]

/-! ### Values -/

theorem notWS_digit {c : UInt8} (h : isDigit c = true) : isWhitespace c = false := by
  have := (isDigit_iff c).mp h
  cases hw : isWhitespace c with
  | false => rfl
  | true =>
    rw [isWS_iff] at hw
    rcases hw with rfl | rfl | rfl | rfl <;> simp at this

/-- the number branch of `readValue` -/
theorem readValue_number (F : FloatCodec) (f : Nat) {c : UInt8} (s : Bytes) (h : c = 45 ∨ isDigit c = true) :
    readValue F (f + 1) (c :: s) = readNumber F (c :: s) := by
  have hw : isWhitespace c = false := by
    rcases h with rfl | h
    · decide
    · exact notWS_digit h
  have hr : c = 45 ∨ (48 ≤ c.toNat ∧ c.toNat ≤ 57) := by rwa [isDigit_iff] at h
  have hn : ∀ d : UInt8, (d.toNat < 48 ∨ 57 < d.toNat) → d ≠ 45 → c ≠ d := by
    rintro d hd hd2 rfl
    rcases hr with hr | hr
    · exact hd2 hr
    · omega
  simp only [readValue, skipWS_cons hw]
  rw [if_neg (hn _ (by decide) (by decide)), if_neg (hn _ (by decide) (by decide)),
    if_neg (hn _ (by decide) (by decide)), if_neg (hn _ (by decide) (by decide)), if_pos h]

theorem readLit_text (tok : Bytes) (v : Val) (e : Err) (r : Bytes) : readLit tok v e (tok ++ r) = .ok v r := by
  simp [readLit]

/-- first character of a value's text -/
theorem text_head {F : FloatCodec} {v : Val} {t : Bytes} (h : Text F v t) :
    ∃ c t', t = c :: t' ∧ isWhitespace c = false ∧ c ≠ 93 ∧ c ≠ 125 := by
  have dig : ∀ {c : UInt8}, isDigit c = true → isWhitespace c = false ∧ c ≠ 93 ∧ c ≠ 125 := by
    intro c hc
    have := (isDigit_iff c).mp hc
    refine ⟨notWS_digit hc, ?_, ?_⟩ <;> rintro rfl <;> simp at this
  cases h with
  | null => exact ⟨_, _, rfl, by decide, by decide, by decide⟩
  | true => exact ⟨_, _, rfl, by decide, by decide, by decide⟩
  | false => exact ⟨_, _, rfl, by decide, by decide, by decide⟩
  | nat t n h1 h2 h3 => obtain ⟨c, t', rfl, hc⟩ := intPart_ne h1; exact ⟨c, t', rfl, dig hc⟩
  | neg t n h1 h2 h3 => exact ⟨_, _, rfl, by decide, by decide, by decide⟩
  | float t u x h1 h2 h3 => obtain ⟨c, t', rfl, hc⟩ := intPart_ne h1; exact ⟨c, t' ++ u, rfl, dig hc⟩
  | negFloat t u x h1 h2 h3 => exact ⟨_, _, rfl, by decide, by decide, by decide⟩
  | str s t h => exact ⟨_, _, rfl, by decide, by decide, by decide⟩
  | arr0 w h => exact ⟨_, _, rfl, by decide, by decide, by decide⟩
  | arr l t h => exact ⟨_, _, rfl, by decide, by decide, by decide⟩
  | obj0 w h => exact ⟨_, _, rfl, by decide, by decide, by decide⟩
  | obj m t h => exact ⟨_, _, rfl, by decide, by decide, by decide⟩

theorem elems_head {F : FloatCodec} {l : List Val} {t : Bytes} (h : Elems F l t) :
    ∃ w c t', WS w ∧ t = w ++ c :: t' ∧ isWhitespace c = false ∧ c ≠ 93 := by
  cases h with
  | one v w t w' hw ht hw' =>
    obtain ⟨c, t', rfl, h1, h2, _⟩ := text_head ht
    exact ⟨w, c, t' ++ w', hw, by simp, h1, h2⟩
  | cons v w t w' l t'' hw ht hw' hl =>
    obtain ⟨c, t', rfl, h1, h2, _⟩ := text_head ht
    exact ⟨w, c, t' ++ (w' ++ 44 :: t''), hw, by simp, h1, h2⟩

theorem members_head {F : FloatCodec} {l : List (Bytes × Val)} {t : Bytes} (h : Members F l t) :
    ∃ w t', WS w ∧ t = w ++ 34 :: t' := by
  cases h with
  | one k v w kt w1 w2 t w' hw => exact ⟨w, _, hw, rfl⟩
  | cons k v w kt w1 w2 t w' m t' hw => exact ⟨w, _, hw, rfl⟩

theorem numEnd_cons {c : UInt8} (h : isNumCh c = false) (r : Bytes) : NumEnd (c :: r) := by
  rintro c' t ⟨rfl, rfl⟩; exact h

theorem numEnd_ws {w : Bytes} (h : WS w) {c : UInt8} (hc : isNumCh c = false) (r : Bytes) :
    NumEnd (w ++ c :: r) := by
  cases w with
  | nil => exact numEnd_cons hc r
  | cons d w =>
    refine numEnd_cons ?_ _
    have := h d (by simp)
    rcases this with rfl | rfl | rfl | rfl <;> decide

mutual
/-- The reader decodes every text of the grammar. -/
theorem readValue_text {F : FloatCodec} : ∀ {v : Val} {t : Bytes}, Text F v t → ∀ (f : Nat) (r : Bytes),
    2 * t.length + 1 ≤ f → NumEnd r → readValue F f (t ++ r) = .ok v r
  | _, _, .null, f + 1, r, _, _ => by
    simp only [List.cons_append, List.nil_append, readValue, skipWS_cons (show isWhitespace 110 = false by decide)]
    rw [if_pos trivial]; exact readLit_text b!"null" _ _ r
  | _, _, .true, f + 1, r, _, _ => by
    simp only [List.cons_append, List.nil_append, readValue, skipWS_cons (show isWhitespace 116 = false by decide)]
    rw [if_neg (by decide), if_pos trivial]; exact readLit_text b!"true" _ _ r
  | _, _, .false, f + 1, r, _, _ => by
    simp only [List.cons_append, List.nil_append, readValue, skipWS_cons (show isWhitespace 102 = false by decide)]
    rw [if_neg (by decide), if_neg (by decide), if_pos trivial]; exact readLit_text b!"false" _ _ r
  | _, _, .nat t n h1 h2 h3, f + 1, r, _, hr => by
    obtain ⟨c, t', rfl, hc⟩ := intPart_ne h1
    rw [List.cons_append, readValue_number F f _ (Or.inr hc), ← List.cons_append,
      readNumber_text F (fun d hd => isNumCh_digit (intPart_digits h1 d hd)) hr]
    simp [convNumber, any_float_digits (intPart_digits h1), atoi_nat h1 h2 h3, - List.any_cons]
  | _, _, .neg t n h1 h2 h3, f + 1, r, _, hr => by
    rw [List.cons_append, readValue_number F f _ (Or.inl rfl), ← List.cons_append,
      readNumber_text F _ hr]
    · have : (45 :: t).any isFloatCh = Bool.false := by
        rw [List.any_cons, any_float_digits (intPart_digits h1)]; decide
      simp [convNumber, this, atoi_neg h2 h3, - List.any_cons]
    · intro d hd
      simp only [List.mem_cons] at hd
      rcases hd with rfl | hd
      · decide
      · exact isNumCh_digit (intPart_digits h1 d hd)
  | _, _, .float t u x h1 h2 h3, f + 1, r, _, hr => by
    obtain ⟨c, t', ht, hc⟩ := intPart_ne h1
    have hnum : ∀ d ∈ t ++ u, isNumCh d = true := by
      intro d hd; rw [List.mem_append] at hd
      rcases hd with hd | hd
      · exact isNumCh_digit (intPart_digits h1 d hd)
      · exact (fracExp_num h2).1 d hd
    have hany : (t ++ u).any isFloatCh = Bool.true := by rw [List.any_append, (fracExp_num h2).2, Bool.or_true]
    have e : t ++ u ++ r = c :: (t' ++ u ++ r) := by rw [ht]; rfl
    rw [e, readValue_number F f _ (Or.inr hc), ← e, readNumber_text F hnum hr]
    simp only [convNumber, hany, h3, if_true]
  | _, _, .negFloat t u x h1 h2 h3, f + 1, r, _, hr => by
    have hnum : ∀ d ∈ 45 :: (t ++ u), isNumCh d = true := by
      intro d hd; simp only [List.mem_cons, List.mem_append] at hd
      rcases hd with rfl | hd | hd
      · decide
      · exact isNumCh_digit (intPart_digits h1 d hd)
      · exact (fracExp_num h2).1 d hd
    have hany : (45 :: (t ++ u)).any isFloatCh = Bool.true := by
      rw [List.any_cons, List.any_append, (fracExp_num h2).2, Bool.or_true, Bool.or_true]
    rw [List.cons_append, readValue_number F f _ (Or.inl rfl), ← List.cons_append, readNumber_text F hnum hr]
    simp only [convNumber, hany, h3, if_true]
  | _, _, .str s t h, f + 1, r, _, _ => by
    have e : 34 :: (t ++ [34]) ++ r = 34 :: (t ++ 34 :: r) := by simp
    rw [e]
    simp only [readValue, skipWS_cons (show isWhitespace 34 = false by decide)]
    rw [if_neg (by decide), if_neg (by decide), if_neg (by decide), if_pos trivial, readStringBody_text h]
  | _, _, .arr0 w h, f + 2, r, _, _ => by
    have e : 91 :: (w ++ [93]) ++ r = 91 :: (w ++ 93 :: r) := by simp
    rw [e]
    simp only [readValue, skipWS_cons (show isWhitespace 91 = false by decide)]
    rw [if_neg (by decide), if_neg (by decide), if_neg (by decide), if_neg (by decide), if_neg (by decide),
      if_neg (by decide), if_pos trivial]
    simp only [readArray, token_ws h, token_self (show isWhitespace 93 = false by decide)]
  | _, _, .arr l t h, f + 2, r, hf, _ => by
    have e : 91 :: (t ++ [93]) ++ r = 91 :: (t ++ 93 :: r) := by simp
    rw [e]
    simp only [readValue, skipWS_cons (show isWhitespace 91 = false by decide)]
    rw [if_neg (by decide), if_neg (by decide), if_neg (by decide), if_neg (by decide), if_neg (by decide),
      if_neg (by decide), if_pos trivial]
    have ht : token 93 (t ++ 93 :: r) = none := by
      obtain ⟨w, c, t', hw, rfl, h1, h2⟩ := elems_head h
      rw [List.append_assoc, token_ws hw]; exact token_ne h1 h2 _
    obtain ⟨v, r', h1, h2⟩ := readElems_text h f [] r (by simp at hf; omega)
    simp only [readArray, ht, h1]
    simpa using h2
  | _, _, .obj0 w h, f + 2, r, _, _ => by
    have e : 123 :: (w ++ [125]) ++ r = 123 :: (w ++ 125 :: r) := by simp
    rw [e]
    simp only [readValue, skipWS_cons (show isWhitespace 123 = false by decide)]
    rw [if_neg (by decide), if_neg (by decide), if_neg (by decide), if_neg (by decide), if_neg (by decide),
      if_pos trivial]
    simp only [readObject, token_ws h, token_self (show isWhitespace 125 = false by decide)]
  | _, _, .obj m t h, f + 2, r, hf, _ => by
    have e : 123 :: (t ++ [125]) ++ r = 123 :: (t ++ 125 :: r) := by simp
    rw [e]
    simp only [readValue, skipWS_cons (show isWhitespace 123 = false by decide)]
    rw [if_neg (by decide), if_neg (by decide), if_neg (by decide), if_neg (by decide), if_neg (by decide),
      if_pos trivial]
    have ht : token 125 (t ++ 125 :: r) = none := by
      obtain ⟨w, t', hw, rfl⟩ := members_head h
      rw [List.append_assoc, token_ws hw]; exact token_ne (by decide) (by decide) _
    obtain ⟨k, v, r', h1, h2⟩ := readMembers_text h f [] r (by simp at hf; omega)
    simp only [readObject, ht, h1]
    exact h2
  | _, _, .arr0 w h, 1, r, hf, _ => by simp at hf
  | _, _, .arr l t h, 1, r, hf, _ => by simp at hf
  | _, _, .obj0 w h, 1, r, hf, _ => by simp at hf
  | _, _, .obj m t h, 1, r, hf, _ => by simp at hf
theorem readElems_text {F : FloatCodec} : ∀ {l : List Val} {t : Bytes}, Elems F l t →
    ∀ (f : Nat) (acc : List Val) (r : Bytes), 2 * t.length + 2 ≤ f →
    ∃ v r', readValue F f (t ++ 93 :: r) = .ok v r' ∧ readArrayRest F f (acc ++ [v]) r' = .ok (.arr (acc ++ l)) r
  | _, _, .one v w t w' hw ht hw', f + 1, acc, r, hf => by
    refine ⟨v, w' ++ 93 :: r, ?_, ?_⟩
    · rw [List.append_assoc, List.append_assoc, readValue_ws hw _ _ _ (by omega)]
      exact readValue_text ht _ _ (by simp at hf; omega) (numEnd_ws hw' (by decide) _)
    · simp only [readArrayRest, token_ws hw', token_self (show isWhitespace 93 = false by decide)]
  | _, _, .cons v w t w' l t' hw ht hw' hl, f + 1, acc, r, hf => by
    refine ⟨v, w' ++ 44 :: (t' ++ 93 :: r), ?_, ?_⟩
    · have e : w ++ (t ++ (w' ++ 44 :: t')) ++ 93 :: r = w ++ (t ++ (w' ++ 44 :: (t' ++ 93 :: r))) := by simp
      rw [e, readValue_ws hw _ _ _ (by omega)]
      exact readValue_text ht _ _ (by simp at hf; omega) (numEnd_ws hw' (by decide) _)
    · obtain ⟨v', r', h1, h2⟩ := readElems_text hl f (acc ++ [v]) r (by simp at hf; omega)
      simp only [readArrayRest, token_ws hw', token_self (show isWhitespace 44 = false by decide),
        token_ne (show isWhitespace 44 = false by decide) (show (44 : UInt8) ≠ 93 by decide), h1]
      simpa using h2
theorem readMembers_text {F : FloatCodec} : ∀ {m : List (Bytes × Val)} {t : Bytes}, Members F m t →
    ∀ (f : Nat) (acc : List (Bytes × Val)) (r : Bytes), 2 * t.length + 2 ≤ f →
    ∃ k v r', readPair F f (t ++ 125 :: r) = .ok (k, v) r' ∧
      readObjectRest F f (mapSet acc k v) r' = .ok (.obj (m.foldl (fun m kv => mapSet m kv.1 kv.2) acc)) r
  | _, _, .one k v w kt w1 w2 t w' hw hk hw1 hw2 ht hw', f + 1, acc, r, hf => by
    have hlen : (w ++ 34 :: (kt ++ 34 :: (w1 ++ 58 :: (w2 ++ (t ++ w'))))).length ≥ t.length + 3 := by simp; omega
    refine ⟨k, v, w' ++ 125 :: r, ?_, ?_⟩
    · have e : w ++ 34 :: (kt ++ 34 :: (w1 ++ 58 :: (w2 ++ (t ++ w')))) ++ 125 :: r
        = w ++ 34 :: (kt ++ 34 :: (w1 ++ 58 :: (w2 ++ (t ++ (w' ++ 125 :: r))))) := by simp
      have hs : readString (34 :: (kt ++ 34 :: (w1 ++ 58 :: (w2 ++ (t ++ (w' ++ 125 :: r)))))) =
          .ok k (w1 ++ 58 :: (w2 ++ (t ++ (w' ++ 125 :: r)))) := by
        simp only [readString, skipWS_cons (show isWhitespace 34 = false by decide), if_true, readStringBody_text hk]
      rw [e]
      simp only [readPair, readString_ws hw, hs, token_ws hw1, token_self (show isWhitespace 58 = false by decide)]
      rw [readValue_ws hw2 _ _ _ (by omega),
        readValue_text ht f _ (by omega) (numEnd_ws hw' (by decide) _)]
    · simp only [readObjectRest, token_ws hw', token_self (show isWhitespace 125 = false by decide), List.foldl]
  | _, _, .cons k v w kt w1 w2 t w' m t' hw hk hw1 hw2 ht hw' hm, f + 1, acc, r, hf => by
    have hlen : (w ++ 34 :: (kt ++ 34 :: (w1 ++ 58 :: (w2 ++ (t ++ (w' ++ 44 :: t')))))).length ≥
      t.length + t'.length + 4 := by simp; omega
    refine ⟨k, v, w' ++ 44 :: (t' ++ 125 :: r), ?_, ?_⟩
    · have e : w ++ 34 :: (kt ++ 34 :: (w1 ++ 58 :: (w2 ++ (t ++ (w' ++ 44 :: t'))))) ++ 125 :: r
        = w ++ 34 :: (kt ++ 34 :: (w1 ++ 58 :: (w2 ++ (t ++ (w' ++ 44 :: (t' ++ 125 :: r)))))) := by simp
      have hs : readString (34 :: (kt ++ 34 :: (w1 ++ 58 :: (w2 ++ (t ++ (w' ++ 44 :: (t' ++ 125 :: r))))))) =
          .ok k (w1 ++ 58 :: (w2 ++ (t ++ (w' ++ 44 :: (t' ++ 125 :: r))))) := by
        simp only [readString, skipWS_cons (show isWhitespace 34 = false by decide), if_true, readStringBody_text hk]
      rw [e]
      simp only [readPair, readString_ws hw, hs, token_ws hw1, token_self (show isWhitespace 58 = false by decide)]
      rw [readValue_ws hw2 _ _ _ (by omega),
        readValue_text ht f _ (by omega) (numEnd_ws hw' (by decide) _)]
    · obtain ⟨k', v', r', h1, h2⟩ := readMembers_text hm f (mapSet acc k v) r (by omega)
      simp only [readObjectRest, token_ws hw', token_self (show isWhitespace 44 = false by decide),
        token_ne (show isWhitespace 44 = false by decide) (show (44 : UInt8) ≠ 125 by decide), h1, List.foldl]
      exact h2
end

end Verif.Json
