import Verif.Go.JsonParse
import Verif.Spec.JsonValues
import Verif.Lemmas.JsonEnc
/-
`json.Unmarshal` reads back what `json.Marshal` wrote.
-/
set_option autoImplicit false
namespace Verif.JsonStd
open JsonG Json

theorem strRaw_body {s t : Bytes} (h : StrBody s t) (r : Bytes) : strRaw (t ++ 34 :: r) = some (t, r) := by
  induction h with
  | nil => rw [List.nil_append, strRaw.eq_def]; simp
  | plain c h1 h2 h3 _ ih =>
    rw [List.cons_append, strRaw.eq_def]
    have : ¬ c < 0x20 := by
      rw [UInt8.lt_iff_toNat_lt]; rw [UInt8.le_iff_toNat_le] at h1; omega
    simp [h2, h3, this, ih]
  | esc e c h _ ih =>
    rw [List.cons_append, List.cons_append, strRaw.eq_def]
    simp only [escapes, List.mem_cons, Prod.mk.injEq, List.not_mem_nil, or_false] at h
    rcases h with ⟨rfl, rfl⟩ | ⟨rfl, rfl⟩ | ⟨rfl, rfl⟩ | ⟨rfl, rfl⟩ | ⟨rfl, rfl⟩ | ⟨rfl, rfl⟩ | ⟨rfl, rfl⟩ | ⟨rfl, rfl⟩ <;> simp [ih]
  | uni a b c d n1 n2 n3 n4 h1 h2 h3 h4 hv _ ih =>
    rw [List.cons_append, List.cons_append, List.cons_append, List.cons_append, List.cons_append, List.cons_append, strRaw.eq_def]
    simp [h1, h2, h3, h4, ih]

theorem unescape_body {s t : Bytes} (h : StrBody s t) : unescape t = s := by
  induction h with
  | nil => simp [unescape]
  | plain c h1 h2 h3 _ ih => rw [unescape.eq_def]; simp [h3, ih]
  | esc e c h _ ih =>
    rw [unescape.eq_def]
    simp only [escapes, List.mem_cons, Prod.mk.injEq, List.not_mem_nil, or_false] at h
    rcases h with ⟨rfl, rfl⟩ | ⟨rfl, rfl⟩ | ⟨rfl, rfl⟩ | ⟨rfl, rfl⟩ | ⟨rfl, rfl⟩ | ⟨rfl, rfl⟩ | ⟨rfl, rfl⟩ | ⟨rfl, rfl⟩ <;> simp [ih, escChar]
  | uni a b c d n1 n2 n3 n4 h1 h2 h3 h4 hv _ ih =>
    rw [unescape.eq_def]
    have e : hex4 a b c d = n1 * 4096 + n2 * 256 + n3 * 16 + n4 := by simp [hex4, h1, h2, h3, h4]
    have hn : ¬ (0xD800 ≤ hex4 a b c d ∧ hex4 a b c d < 0xE000) := by
      rw [e]; unfold ValidRune at hv; omega
    simp only [if_true, if_neg hn]
    rw [ih, e]

theorem validUtf8_ascii {l s : Bytes} (h : ∀ b ∈ l, b.toNat < 0x80) (hs : ValidUtf8 s) : ValidUtf8 (l ++ s) := by
  induction l with
  | nil => exact hs
  | cons b l ih =>
    have hb := h b (by simp)
    have := ValidUtf8.cons b.toNat (l ++ s) (Or.inl (by omega)) (ih fun x hx => h x (by simp [hx]))
    rwa [utf8Enc_ascii hb, UInt8.ofNat_toNat] at this

theorem hexDigit_ascii : ∀ n < 16, (hexDigit n).toNat < 0x80 := by decide

theorem escAscii_ascii {b : UInt8} (hb : b.toNat < 0x80) : ∀ c ∈ escAscii b, c.toNat < 0x80 := by
  unfold escAscii
  split
  · simp [hb]
  split
  · simp [hb]
  split
  · decide
  split
  · decide
  split
  · decide
  · intro c hc
    simp only [List.mem_cons, List.not_mem_nil, or_false] at hc
    rcases hc with rfl | rfl | rfl | rfl | rfl | rfl
    · decide
    · decide
    · decide
    · decide
    · exact hexDigit_ascii _ (by omega)
    · exact hexDigit_ascii _ (by omega)

theorem escBody_valid (s : Bytes) : ValidUtf8 (escBody 0 s) := by
  suffices H : ∀ n (s : Bytes), s.length ≤ n → ValidUtf8 (escBody 0 s) from H _ s (Nat.le_refl _)
  intro n
  induction n with
  | zero =>
    intro s hs
    cases s with
    | nil => exact .nil
    | cons => simp at hs
  | succ n ih =>
    intro s hs
    cases s with
    | nil => exact .nil
    | cons b t =>
      simp only [List.length_cons] at hs
      by_cases hb : b < 0x80
      · rw [escBody.eq_def]
        simp only [if_pos hb]
        rw [UInt8.lt_iff_toNat_lt] at hb
        exact validUtf8_ascii (escAscii_ascii hb) (ih t (by omega))
      · rw [escBody.eq_def]
        simp only [if_neg hb]
        rcases utf8Enc_dec b t with ⟨h1, h2⟩ | ⟨hv, h1, h2, h3⟩
        · rw [if_pos ⟨h1, h2⟩]
          exact validUtf8_ascii (by decide) (ih t (by omega))
        · generalize utf8Dec (b :: t) = p at *
          obtain ⟨c, k⟩ := p
          simp only at *
          have hne : ¬ (c = runeError ∧ k = 1) := by
            rintro ⟨rfl, rfl⟩
            rw [show utf8Enc runeError = [0xEF, 0xBF, 0xBD] by decide] at h1
            simp at h1
          simp only [List.length_cons] at h3
          rw [if_neg hne, escBody_drop _ _ (by omega)]
          have IH := ih (t.drop (k - 1)) (by simp; omega)
          split
          · exact validUtf8_ascii (by decide) IH
          · split
            · exact validUtf8_ascii (by decide) IH
            · rw [← h1]
              exact .cons c _ hv IH

theorem b64Digit_ascii : ∀ n < 64, (b64Digit n).toNat < 0x80 ∧ 32 ≤ (b64Digit n).toNat := by decide

theorem base64_ascii (s : Bytes) : ∀ c ∈ base64 s, c.toNat < 0x80 ∧ 32 ≤ c.toNat := by
  match s with
  | [] => simp [base64]
  | [a] =>
    have := a.toNat_lt
    intro c hc
    simp only [base64, List.mem_cons, List.not_mem_nil, or_false] at hc
    rcases hc with rfl | rfl | rfl | rfl
    · exact b64Digit_ascii _ (by omega)
    · exact b64Digit_ascii _ (by omega)
    · decide
    · decide
  | [a, b] =>
    have := a.toNat_lt
    have := b.toNat_lt
    intro c hc
    simp only [base64, List.mem_cons, List.not_mem_nil, or_false] at hc
    rcases hc with rfl | rfl | rfl | rfl
    · exact b64Digit_ascii _ (by omega)
    · exact b64Digit_ascii _ (by omega)
    · exact b64Digit_ascii _ (by omega)
    · decide
  | a :: b :: c :: t =>
    have := a.toNat_lt
    have := b.toNat_lt
    have := c.toNat_lt
    intro x hx
    simp only [base64, List.mem_cons] at hx
    rcases hx with rfl | rfl | rfl | rfl | hx
    · exact b64Digit_ascii _ (by omega)
    · exact b64Digit_ascii _ (by omega)
    · exact b64Digit_ascii _ (by omega)
    · exact b64Digit_ascii _ (by omega)
    · exact base64_ascii t x hx

theorem strLit_esc (s r : Bytes) : strLit (escBody 0 s ++ 34 :: r) = some (toValidUtf8 0 s, r) := by
  simp [strLit, strRaw_body (escBody_body s), toValidUtf8_valid (escBody_valid s), unescape_body (escBody_body s)]

theorem strLit_base64 (s r : Bytes) : strLit (base64 s ++ 34 :: r) = some (base64 s, r) := by
  have hv : ValidUtf8 (base64 s) := by
    have := validUtf8_ascii (fun c hc => (base64_ascii s c hc).1) ValidUtf8.nil
    simpa using this
  simp [strLit, strRaw_body (base64_body s), toValidUtf8_valid hv, unescape_body (base64_body s)]

/-! ### numbers -/

/-- what may follow a number -/
def NumStop (r : Bytes) : Prop := ∀ c ∈ r.head?, isDigit c = false ∧ c ≠ 46 ∧ c ≠ 101 ∧ c ≠ 69

theorem takeWhile_stop {p : UInt8 → Bool} {t r : Bytes} (ht : ∀ c ∈ t, p c = true) (hr : ∀ c ∈ r.head?, p c = false) :
    (t ++ r).takeWhile p = t ∧ (t ++ r).dropWhile p = r := by
  induction t with
  | nil =>
    cases r with
    | nil => simp
    | cons c r => simp at hr; simp [hr]
  | cons c t ih =>
    have := ih (fun x hx => ht x (by simp [hx]))
    simp [ht c (by simp), this]

theorem digits1_stop {t r : Bytes} (h0 : t ≠ []) (ht : Digits t) (hr : ∀ c ∈ r.head?, isDigit c = false) :
    digits1 (t ++ r) = some (t, r) := by
  have := takeWhile_stop ht hr
  simp [digits1, this, h0]

theorem intLit_stop {t r : Bytes} (ht : IntPart t) (hr : ∀ c ∈ r.head?, isDigit c = false) : intLit (t ++ r) = some (t, r) := by
  cases ht with
  | zero => simp [intLit]
  | nonzero c t h1 h2 h3 =>
    rw [List.cons_append, intLit, if_neg h2, ← List.cons_append]
    refine digits1_stop (t := c :: t) (by simp) ?_ hr
    intro x hx
    simp only [List.mem_cons] at hx
    rcases hx with rfl | hx
    · exact h1
    · exact h3 x hx

theorem signLit_digits {t r sign : Bytes} (h0 : t ≠ []) (ht : Digits t) (hs : sign = [] ∨ sign = [43] ∨ sign = [45]) :
    signLit (sign ++ t ++ r) = (sign, t ++ r) := by
  rcases hs with rfl | rfl | rfl
  · cases t with
    | nil => exact absurd rfl h0
    | cons c t =>
      have hc := ht c (by simp)
      have : ¬ (c = 43 ∨ c = 45) := by rintro (rfl | rfl) <;> revert hc <;> decide
      simp [signLit, this]
  · simp [signLit]
  · simp [signLit]

theorem expLit_exp {e : UInt8} {t r sign : Bytes} (he : e = 101 ∨ e = 69) (h0 : t ≠ []) (ht : Digits t)
    (hs : sign = [] ∨ sign = [43] ∨ sign = [45]) (hr : ∀ c ∈ r.head?, isDigit c = false) :
    expLit (e :: (sign ++ t) ++ r) = some (e :: (sign ++ t), r) := by
  simp only [List.cons_append, expLit, if_pos he]
  rw [signLit_digits h0 ht hs]
  simp [digits1_stop h0 ht hr]

theorem expLit_stop {r : Bytes} (hr : NumStop r) : expLit r = some ([], r) := by
  cases r with
  | nil => rfl
  | cons c r =>
    have := hr c (by simp)
    simp [expLit, this]

theorem fracLit_stop {r : Bytes} (hr : NumStop r) : fracLit r = some ([], r) := by
  cases r with
  | nil => rfl
  | cons c r =>
    have := hr c (by simp)
    simp [fracLit, this]

theorem unsigned_stop {t u r : Bytes} (ht : IntPart t) (hu : u = [] ∨ FracExp u) (hr : NumStop r) : unsigned (t ++ u ++ r) = some (t ++ u, r) := by
  have hd : ∀ c ∈ r.head?, isDigit c = false := fun c hc => (hr c hc).1
  have hexp : ∀ e : UInt8, e = 101 ∨ e = 69 → isDigit e = false ∧ e ≠ 46 := by rintro e (rfl | rfl) <;> decide
  unfold unsigned
  rw [List.append_assoc]
  rcases hu with rfl | hu
  · rw [intLit_stop ht (by simpa using hd)]
    simp [fracLit_stop hr, expLit_stop hr]
  · cases hu with
    | frac v h0 hv =>
      rw [intLit_stop ht (by simp; decide)]
      simp [fracLit, digits1_stop h0 hv hd, expLit_stop hr]
    | exp e sign v he hs h0 hv =>
      rw [intLit_stop ht (by simp [hexp e he])]
      have := expLit_exp (r := r) he h0 hv hs hd
      simp only [List.cons_append, List.append_assoc] at this
      simp [fracLit, (hexp e he).2, this]
    | both w e sign v h0' hw he hs h0 hv =>
      rw [intLit_stop ht (by simp; decide)]
      have h1 := digits1_stop (r := e :: (sign ++ v) ++ r) h0' hw (by simp [hexp e he])
      have h2 := expLit_exp (r := r) he h0 hv hs hd
      simp only [List.cons_append, List.append_assoc] at h1 h2
      simp [fracLit, h1, h2]

theorem intPart_head {t : Bytes} (h : IntPart t) : ∃ c u, t = c :: u ∧ isDigit c = true := by
  cases h with
  | zero => exact ⟨48, [], rfl, by decide⟩
  | nonzero c t h1 _ _ => exact ⟨c, t, rfl, h1⟩

/-- the text of a JSON number -/
def Numeral (n : Bytes) : Prop := ∃ sign t u, (sign = [] ∨ sign = [45]) ∧ IntPart t ∧ (u = [] ∨ FracExp u) ∧ n = sign ++ (t ++ u)

theorem numLit_stop {n r : Bytes} (h : Numeral n) (hr : NumStop r) : numLit (n ++ r) = some (n, r) := by
  obtain ⟨sign, t, u, hs, ht, hu, rfl⟩ := h
  have key := unsigned_stop ht hu hr
  rcases hs with rfl | rfl
  · obtain ⟨c, v, rfl, hc⟩ := intPart_head ht
    have : c ≠ 45 := by rintro rfl; revert hc; decide
    simp only [List.cons_append, List.append_assoc, List.nil_append] at key ⊢
    rw [numLit, if_neg this, key]
  · simp only [List.cons_append, List.append_assoc, List.nil_append] at key ⊢
    rw [numLit, if_pos rfl, key]
    rfl

theorem numeral_head {n : Bytes} (h : Numeral n) : ∃ c t, n = c :: t ∧ (c = 45 ∨ isDigit c = true) := by
  obtain ⟨sign, t, u, hs, ht, hu, rfl⟩ := h
  rcases hs with rfl | rfl
  · obtain ⟨c, v, rfl, hc⟩ := intPart_head ht
    exact ⟨c, v ++ u, by simp, .inr hc⟩
  · exact ⟨45, t ++ u, by simp, .inl rfl⟩

theorem fmtInt_numeral (i : Int) : Numeral (fmtInt i) := by
  unfold fmtInt
  split
  · exact ⟨[45], fmtNat (-i).toNat, [], .inr rfl, fmtNat_intPart _, .inl rfl, by simp⟩
  · exact ⟨[], fmtNat i.toNat, [], .inl rfl, fmtNat_intPart _, .inl rfl, by simp⟩

theorem value_num (F : FloatCodec) {n r : Bytes} (h : Numeral n) (hr : NumStop r) (f d : Nat) :
    value F (f + 1) d (n ++ r) = (F.parse n).map fun x => (.f64 x, r) := by
  have key := numLit_stop h hr
  obtain ⟨c, t, rfl, hc⟩ := numeral_head h
  have hne : ∀ x ∈ [(32 : UInt8), 10, 13, 9, 110, 116, 102, 34, 91, 123], c ≠ x := by
    rintro x hx rfl
    rcases hc with rfl | hc
    · revert hx; decide
    · clear key h; revert hx hc; revert c; decide
  simp only [List.mem_cons, List.not_mem_nil, or_false, forall_eq_or_imp, forall_eq] at hne
  simp only [List.cons_append] at key ⊢
  rw [value]
  simp [skipWS, isWS, hne, key]

/-! ### values -/

mutual
/-- what `json.Unmarshal` makes of the text `json.Marshal` wrote for a value: numbers become float64,
byte strings base64, invalid UTF-8 is replaced; none if a number does not parse -/
def jnorm (F : FloatCodec) : Val → Option Val
  | .null => some .null
  | .bool b => some (.bool b)
  | .int i => (F.parse (fmtInt i)).map .f64
  | .gint i => (F.parse (fmtInt i)).map .f64
  | .f64 x => (F.parse (F.fmt x)).map .f64
  | .str s => some (.str (toValidUtf8 0 s))
  | .bytes s => some (.str (base64 s))
  | .arr l => (jnormL F l).map .arr
  | .obj m => (jnormF F m).map fun m => .obj (mapOf m)
def jnormL (F : FloatCodec) : List Val → Option (List Val)
  | [] => some []
  | v :: l => (jnorm F v).bind fun v => (jnormL F l).map fun l => v :: l
def jnormF (F : FloatCodec) : List (Bytes × Val) → Option (List (Bytes × Val))
  | [] => some []
  | (k, v) :: m => (jnorm F v).bind fun v => (jnormF F m).map fun m => (toValidUtf8 0 k, v) :: m
end

mutual
/-- floats are printed as JSON numbers -/
def NumsOK (F : FloatCodec) : Val → Prop
  | .f64 x => Numeral (F.fmt x)
  | .arr l => NumsOKL F l
  | .obj m => NumsOKF F m
  | _ => True
def NumsOKL (F : FloatCodec) : List Val → Prop
  | [] => True
  | v :: l => NumsOK F v ∧ NumsOKL F l
def NumsOKF (F : FloatCodec) : List (Bytes × Val) → Prop
  | [] => True
  | (_, v) :: m => NumsOK F v ∧ NumsOKF F m
end

mutual
/-- nesting depth -/
def depth : Val → Nat
  | .arr l => depthL l + 1
  | .obj m => depthF m + 1
  | _ => 0
def depthL : List Val → Nat
  | [] => 0
  | v :: l => max (depth v) (depthL l)
def depthF : List (Bytes × Val) → Nat
  | [] => 0
  | (_, v) :: m => max (depth v) (depthF m)
end

theorem skipWS_cons {c : UInt8} (h : isWS c = false) (t : Bytes) : skipWS (c :: t) = c :: t := by
  simp [skipWS, h]

/-- the first character of marshalled text -/
theorem enc_head (F : FloatCodec) : ∀ v, NumsOK F v → ∃ c t, enc F v = c :: t ∧ isWS c = false ∧ c ≠ 93 ∧ c ≠ 125 := by
  have hnum : ∀ n, Numeral n → ∃ c t, n = c :: t ∧ isWS c = false ∧ c ≠ 93 ∧ c ≠ 125 := by
    intro n h
    obtain ⟨c, t, rfl, hc⟩ := numeral_head h
    refine ⟨c, t, rfl, ?_⟩
    rcases hc with rfl | hc
    · decide
    · have hne : ∀ x ∈ [(32 : UInt8), 10, 13, 9, 93, 125], c ≠ x := by
        rintro x hx rfl
        have : ∀ x ∈ [(32 : UInt8), 10, 13, 9, 93, 125], isDigit x = false := by decide
        rw [this _ hx] at hc
        simp at hc
      simp only [List.mem_cons, List.not_mem_nil, or_false, forall_eq_or_imp, forall_eq] at hne
      simp [isWS, hne]
  intro v h
  cases v with
  | null => exact ⟨110, _, rfl, by decide⟩
  | bool b => cases b
              · exact ⟨102, _, rfl, by decide⟩
              · exact ⟨116, _, rfl, by decide⟩
  | int i => exact hnum _ (fmtInt_numeral i)
  | gint i => exact hnum _ (fmtInt_numeral i)
  | f64 x => simp only [NumsOK] at h; exact hnum _ h
  | str s => exact ⟨34, _, rfl, by decide⟩
  | bytes s => exact ⟨34, _, rfl, by decide⟩
  | arr l => exact ⟨91, _, rfl, by decide⟩
  | obj m => exact ⟨123, _, rfl, by decide⟩

theorem numStop_cons {c : UInt8} (h : isDigit c = false ∧ c ≠ 46 ∧ c ≠ 101 ∧ c ≠ 69) (r : Bytes) : NumStop (c :: r) := by
  intro x hx; simp at hx; subst hx; exact h

theorem value_str (F : FloatCodec) (f d : Nat) (t : Bytes) : value F (f + 1) d (34 :: t) = (strLit t).map fun p => (.str p.1, p.2) := by
  rw [value, skipWS_cons (by decide)]; rfl

theorem value_arr (F : FloatCodec) (f d : Nat) (c : UInt8) (t : Bytes) (hd : d < maxDepth) (hc : isWS c = false) (h : c ≠ 93) :
    value F (f + 1) d (91 :: c :: t) = elems F f (d + 1) [] (c :: t) := by
  have : ¬ maxDepth ≤ d := by omega
  rw [value, skipWS_cons (by decide)]
  simp [this, skipWS_cons hc, h]

theorem value_obj (F : FloatCodec) (f d : Nat) (c : UInt8) (t : Bytes) (hd : d < maxDepth) (hc : isWS c = false) (h : c ≠ 125) :
    value F (f + 1) d (123 :: c :: t) = members F f (d + 1) [] (c :: t) := by
  have : ¬ maxDepth ≤ d := by omega
  rw [value, skipWS_cons (by decide)]
  simp [this, skipWS_cons hc, h]

/-- a member's text -/
theorem members_step (F : FloatCodec) (f d : Nat) (acc : List (Bytes × Val)) (k : Bytes) (t : Bytes) :
    members F (f + 1) d acc (jsonStr k ++ 58 :: t) =
      (value F f d t).bind fun p =>
        match skipWS p.2 with
        | [] => none
        | c :: t =>
          if c = 44 then members F f d (mapSet acc (toValidUtf8 0 k) p.1) t
          else if c = 125 then some (.obj (mapSet acc (toValidUtf8 0 k) p.1), t)
          else none := by
  have e : jsonStr k ++ 58 :: t = 34 :: (escBody 0 k ++ 34 :: 58 :: t) := by simp [jsonStr]
  rw [e, members, skipWS_cons (by decide)]
  simp only [if_true, strLit_esc, Option.bind_some]
  rw [skipWS_cons (by decide)]
  simp only [if_true]
  rfl

mutual
theorem value_enc (F : FloatCodec) : ∀ (v : Val) (f d : Nat) (r : Bytes), NumsOK F v → d + depth v ≤ maxDepth → NumStop r →
    2 * (enc F v).length ≤ f → value F f d (enc F v ++ r) = (jnorm F v).map fun w => (w, r)
  | v, 0, d, r, h, _, _, hf => by
    obtain ⟨c, t, e, _⟩ := enc_head F v h
    simp [e] at hf
  | .null, f + 1, d, r, h, hd, hr, hf => by simp [enc, value, skipWS, isWS, lit, jnorm]
  | .bool true, f + 1, d, r, h, hd, hr, hf => by simp [enc, value, skipWS, isWS, lit, jnorm]
  | .bool false, f + 1, d, r, h, hd, hr, hf => by simp [enc, value, skipWS, isWS, lit, jnorm]
  | .int i, f + 1, d, r, h, hd, hr, hf => by
    rw [enc, value_num F (fmtInt_numeral i) hr]; simp [jnorm, Function.comp_def]
  | .gint i, f + 1, d, r, h, hd, hr, hf => by
    rw [enc, value_num F (fmtInt_numeral i) hr]; simp [jnorm, Function.comp_def]
  | .f64 x, f + 1, d, r, h, hd, hr, hf => by
    simp only [NumsOK] at h
    rw [enc, value_num F h hr]; simp [jnorm, Function.comp_def]
  | .str s, f + 1, d, r, h, hd, hr, hf => by
    have : enc F (.str s) ++ r = 34 :: (escBody 0 s ++ 34 :: r) := by simp [enc, jsonStr]
    rw [this, value_str, strLit_esc]; simp [jnorm]
  | .bytes s, f + 1, d, r, h, hd, hr, hf => by
    have : enc F (.bytes s) ++ r = 34 :: (base64 s ++ 34 :: r) := by simp [enc]
    rw [this, value_str, strLit_base64]; simp [jnorm]
  | .arr [], f + 1, d, r, h, hd, hr, hf => by
    simp only [depth] at hd
    have : ¬ maxDepth ≤ d := by omega
    simp [enc, encL, value, skipWS, isWS, jnorm, jnormL, this]
  | .arr (v :: l), f + 1, d, r, h, hd, hr, hf => by
    simp only [NumsOK] at h
    simp only [depth] at hd
    simp only [enc, List.length_cons, List.length_append, List.length_nil] at hf
    have key := elems_enc F (v :: l) f (d + 1) [] r (by simp) h (by omega) (by omega)
    have hh : ∃ c t, encL F (v :: l) ++ 93 :: r = c :: t ∧ isWS c = false ∧ c ≠ 93 ∧ c ≠ 125 := by
      simp only [NumsOKL] at h
      obtain ⟨c, t, e, hc⟩ := enc_head F v h.1
      cases l with
      | nil => exact ⟨c, _, by rw [encL, e]; simp; rfl, hc⟩
      | cons w l => exact ⟨c, _, by rw [encL, e]; simp; rfl, hc⟩
    obtain ⟨c, t, e, hc⟩ := hh
    have : enc F (.arr (v :: l)) ++ r = 91 :: (encL F (v :: l) ++ 93 :: r) := by simp [enc]
    rw [e] at key
    rw [this, e, value_arr F f d c t (by omega) hc.1 hc.2.1, key]
    simp [jnorm, Function.comp_def]
  | .obj [], f + 1, d, r, h, hd, hr, hf => by
    simp only [depth] at hd
    have : ¬ maxDepth ≤ d := by omega
    simp [enc, encF, value, skipWS, isWS, jnorm, jnormF, this, mapOf]
  | .obj ((k, v) :: m), f + 1, d, r, h, hd, hr, hf => by
    simp only [NumsOK] at h
    simp only [depth] at hd
    simp only [enc, List.length_cons, List.length_append, List.length_nil] at hf
    have key := members_enc F ((k, v) :: m) f (d + 1) [] r (by simp) h (by omega) (by omega)
    have hh : ∃ t, encF F ((k, v) :: m) ++ 125 :: r = 34 :: t := by
      cases m with
      | nil => exact ⟨_, by rw [encF, jsonStr]; simp; rfl⟩
      | cons w m => exact ⟨_, by rw [encF, jsonStr]; simp; rfl⟩
    obtain ⟨t, e⟩ := hh
    have : enc F (.obj ((k, v) :: m)) ++ r = 123 :: (encF F ((k, v) :: m) ++ 125 :: r) := by simp [enc]
    rw [e] at key
    rw [this, e, value_obj F f d 34 t (by omega) (by decide) (by decide), key]
    simp [jnorm, mapOf, Function.comp_def]
theorem elems_enc (F : FloatCodec) : ∀ (l : List Val) (f d : Nat) (acc : List Val) (r : Bytes), l ≠ [] → NumsOKL F l → d + depthL l ≤ maxDepth →
    2 * (encL F l).length + 1 ≤ f → elems F f d acc (encL F l ++ 93 :: r) = (jnormL F l).map fun w => (.arr (acc ++ w), r)
  | [], f, d, acc, r, h0, _, _, _ => absurd rfl h0
  | _ :: _, 0, d, acc, r, h0, _, _, hf => by omega
  | [v], f + 1, d, acc, r, h0, h, hd, hf => by
    simp only [NumsOKL] at h
    simp only [depthL] at hd
    simp only [encL] at hf ⊢
    rw [elems, value_enc F v f d (93 :: r) h.1 (by omega) (numStop_cons (by decide) r) (by omega)]
    cases e : jnorm F v <;> simp [e, jnormL, skipWS, isWS]
  | v :: w :: l, f + 1, d, acc, r, h0, h, hd, hf => by
    rw [NumsOKL] at h
    rw [depthL] at hd
    simp only [encL, List.length_append, List.length_cons] at hf
    have e1 : encL F (v :: w :: l) ++ 93 :: r = enc F v ++ 44 :: (encL F (w :: l) ++ 93 :: r) := by simp [encL]
    rw [e1, elems, value_enc F v f d (44 :: (encL F (w :: l) ++ 93 :: r)) h.1 (by omega) (numStop_cons (by decide) _) (by omega)]
    cases e : jnorm F v with
    | none => simp [e, jnormL]
    | some x =>
      simp only [Option.map_some, Option.bind_some]
      rw [skipWS_cons (by decide)]
      simp only [if_true]
      rw [elems_enc F (w :: l) f d (acc ++ [x]) r (by simp) h.2 (by omega) (by omega)]
      rw [jnormL.eq_def F (v :: w :: l)]
      simp [e, Function.comp_def]
theorem members_enc (F : FloatCodec) : ∀ (m : List (Bytes × Val)) (f d : Nat) (acc : List (Bytes × Val)) (r : Bytes), m ≠ [] → NumsOKF F m → d + depthF m ≤ maxDepth →
    2 * (encF F m).length + 1 ≤ f →
    members F f d acc (encF F m ++ 125 :: r) = (jnormF F m).map fun w => (.obj (w.foldl (fun a p => mapSet a p.1 p.2) acc), r)
  | [], f, d, acc, r, h0, _, _, _ => absurd rfl h0
  | _ :: _, 0, d, acc, r, h0, _, _, hf => by omega
  | [(k, v)], f + 1, d, acc, r, h0, h, hd, hf => by
    simp only [NumsOKF] at h
    simp only [depthF] at hd
    simp only [encF, List.length_append, List.length_cons] at hf
    have e1 : encF F [(k, v)] ++ 125 :: r = jsonStr k ++ 58 :: (enc F v ++ 125 :: r) := by simp [encF]
    rw [e1, members_step, value_enc F v f d (125 :: r) h.1 (by omega) (numStop_cons (by decide) r) (by omega)]
    cases e : jnorm F v <;> simp [e, jnormF, skipWS, isWS]
  | (k, v) :: w :: m, f + 1, d, acc, r, h0, h, hd, hf => by
    rw [NumsOKF] at h
    rw [depthF] at hd
    simp only [encF, List.length_append, List.length_cons] at hf
    have e1 : encF F ((k, v) :: w :: m) ++ 125 :: r = jsonStr k ++ 58 :: (enc F v ++ 44 :: (encF F (w :: m) ++ 125 :: r)) := by simp [encF]
    rw [e1, members_step, value_enc F v f d (44 :: (encF F (w :: m) ++ 125 :: r)) h.1 (by omega) (numStop_cons (by decide) _) (by omega)]
    cases e : jnorm F v with
    | none => simp [e, jnormF]
    | some x =>
      simp only [Option.map_some, Option.bind_some]
      rw [skipWS_cons (by decide)]
      simp only [if_true]
      rw [members_enc F (w :: m) f d (mapSet acc (toValidUtf8 0 k) x) r (by simp) h.2 (by omega) (by omega)]
      rw [jnormF.eq_def F ((k, v) :: w :: m)]
      simp [e, Function.comp_def]
end

/-- reading back what was marshalled, with whitespace behind it -/
theorem unmarshal_enc (F : FloatCodec) (v : Val) (ws : Bytes) (h : NumsOK F v) (hd : depth v ≤ maxDepth) (hw : WS ws) :
    unmarshal F (enc F v ++ ws) = jnorm F v := by
  have hs : NumStop ws := by
    intro c hc
    have := hw c (List.mem_of_mem_head? hc)
    rcases this with rfl | rfl | rfl | rfl <;> decide
  have hws : skipWS ws = [] := by
    have := (takeWhile_stop (p := isWS) (t := ws) (r := []) (fun c hc => by rcases hw c hc with rfl | rfl | rfl | rfl <;> decide) (by simp)).2
    rwa [List.append_nil] at this
  unfold unmarshal
  rw [value_enc F v _ 0 ws h (by omega) hs (by simp; omega)]
  cases jnorm F v <;> simp [hws]

end Verif.JsonStd
