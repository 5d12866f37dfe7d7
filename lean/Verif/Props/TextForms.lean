import Verif.Go.Base64
import Verif.Go.Csv
import Verif.Lemmas.Csv
import Verif.Lemmas.JsonParse
import Verif.Props.FloatUse
/-
C83: the texts of strings and bytes in JSON, and of cells in CSV.
-/
set_option autoImplicit false
namespace Verif.TextForms

/-! ## Bytes in JSON: base64 -/

/-- the digits of base64 (RFC 4648) -/
def alphabet : Bytes := b!"ABCDEFGHIJKLMNOPQRSTUVWXYZabcdefghijklmnopqrstuvwxyz0123456789+/"

/-- the number with the given digits, most significant first -/
def number (base : Nat) : List Nat → Nat
  | [] => 0
  | d :: ds => d * base ^ ds.length + number base ds

/-- a text of sextets, in groups of four filled up with `p` equal signs -/
def Sextets (t : Bytes) (ds : List Nat) (p : Nat) : Prop :=
  p ≤ 2 ∧ (ds.length + p) % 4 = 0 ∧ (∀ d ∈ ds, d < 64) ∧ t = ds.map (fun d => alphabet.getD d 0) ++ List.replicate p 61

theorem b64Digit_alphabet : ∀ d < 64, b64Digit d = alphabet.getD d 0 := by decide +kernel
theorem b64val_alphabet : ∀ d < 64, b64val (alphabet.getD d 0) = some d := by decide +kernel

theorem b64val_lt {c : UInt8} {d : Nat} (h : b64val c = some d) : d < 64 ∧ c = alphabet.getD d 0 := by
  have := c.toNat_lt
  have H : ∀ n < 256, ∀ d, b64val (UInt8.ofNat n) = some d → d < 64 ∧ UInt8.ofNat n = alphabet.getD d 0 := by
    intro n hn
    have : ((b64val (UInt8.ofNat n)).all fun d => decide (d < 64 ∧ UInt8.ofNat n = alphabet.getD d 0)) = true := by
      revert n; decide +kernel
    intro d hd
    rw [hd] at this
    simpa using this
  have := H c.toNat this d (by rwa [UInt8.ofNat_toNat])
  rwa [UInt8.ofNat_toNat] at this

theorem number_lt (b : Nat) (ds : List Nat) (h : ∀ d ∈ ds, d < b) : number b ds < b ^ ds.length := by
  induction ds with
  | nil => simp [number]
  | cons d ds ih =>
    have h1 := ih fun x hx => h x (by simp [hx])
    have h2 := h d (by simp)
    have h3 : (d + 1) * b ^ ds.length ≤ b * b ^ ds.length := Nat.mul_le_mul_right _ (by omega)
    rw [number, List.length_cons, pow_succ, Nat.mul_comm _ b]
    rw [Nat.add_mul] at h3
    omega

theorem number_inj (b : Nat) (hb : 0 < b) : ∀ (ds es : List Nat), (∀ d ∈ ds, d < b) → (∀ d ∈ es, d < b) → ds.length = es.length →
    number b ds = number b es → ds = es
  | [], [], _, _, _, _ => rfl
  | [], _ :: _, _, _, h, _ => by simp at h
  | _ :: _, [], _, _, h, _ => by simp at h
  | d :: ds, e :: es, hd, he, hl, h => by
    have hl' : ds.length = es.length := by simpa using hl
    have h1 := number_lt b ds fun x hx => hd x (by simp [hx])
    have h2 := number_lt b es fun x hx => he x (by simp [hx])
    rw [number, number, hl'] at h
    rw [hl'] at h1
    have hp : 0 < b ^ es.length := Nat.pow_pos hb
    have e1 : d = e := by
      have a1 : (number b ds + d * b ^ es.length) / b ^ es.length = d := by
        rw [Nat.add_mul_div_right _ _ hp, Nat.div_eq_of_lt h1, Nat.zero_add]
      have a2 : (number b es + e * b ^ es.length) / b ^ es.length = e := by
        rw [Nat.add_mul_div_right _ _ hp, Nat.div_eq_of_lt h2, Nat.zero_add]
      rw [← a1, ← a2, Nat.add_comm _ (d * _), h, Nat.add_comm]
    subst e1
    rw [number_inj b hb ds es (fun x hx => hd x (by simp [hx])) (fun x hx => he x (by simp [hx])) hl' (by omega)]

/-- the bytes as digits -/
def octets (s : Bytes) : List Nat := s.map UInt8.toNat

theorem octets_length (s : Bytes) : (octets s).length = s.length := by simp [octets]

theorem pow_cast {n m p : Nat} (h : n * 6 = m * 8 + 2 * p) : 64 ^ n = 256 ^ m * 4 ^ p := by
  rw [show 64 = 2 ^ 6 by rfl, show 256 = 2 ^ 8 by rfl, show 4 = 2 ^ 2 by rfl, ← pow_mul, ← pow_mul, ← pow_mul, ← pow_add]
  congr 1
  omega

/-- **C83**: bytes in JSON text: digits of the base64 alphabet, whose number is that of the bytes with zero bits after them; filled up to groups of four. -/
theorem C83_base64 (s : Bytes) : ∃ ds p, Sextets (base64 s) ds p ∧ ds.length * 6 = s.length * 8 + 2 * p ∧
    number 64 ds = number 256 (octets s) * 4 ^ p := by
  fun_induction base64 s with
  | case1 => exact ⟨[], 0, by simp [Sextets], by simp, by simp [number, octets]⟩
  | case2 a =>
    have ha := a.toNat_lt
    refine ⟨[a.toNat / 4, a.toNat % 4 * 16], 2, ⟨by omega, by simp, ?_, ?_⟩, by simp, ?_⟩
    · intro d hd; simp only [List.mem_cons, List.not_mem_nil, or_false] at hd; omega
    · rw [b64Digit_alphabet _ (by omega), b64Digit_alphabet _ (by omega)]; rfl
    · simp only [number, octets, List.map, List.length]; omega
  | case3 a b =>
    have ha := a.toNat_lt; have hb := b.toNat_lt
    refine ⟨[a.toNat / 4, a.toNat % 4 * 16 + b.toNat / 16, b.toNat % 16 * 4], 1, ⟨by omega, by simp, ?_, ?_⟩, by simp, ?_⟩
    · intro d hd; simp only [List.mem_cons, List.not_mem_nil, or_false] at hd; omega
    · rw [b64Digit_alphabet _ (by omega), b64Digit_alphabet _ (by omega), b64Digit_alphabet _ (by omega)]; rfl
    · simp only [number, octets, List.map, List.length]; omega
  | case4 a b c t ih =>
    have ha := a.toNat_lt; have hb := b.toNat_lt; have hc := c.toNat_lt
    obtain ⟨ds, p, ⟨h1, h2, h3, h4⟩, h5, h6⟩ := ih
    refine ⟨a.toNat / 4 :: (a.toNat % 4 * 16 + b.toNat / 16) :: (b.toNat % 16 * 4 + c.toNat / 64) :: c.toNat % 64 :: ds, p,
      ⟨h1, by simp only [List.length_cons]; omega, ?_, ?_⟩, by simp only [List.length_cons]; omega, ?_⟩
    · intro d hd
      simp only [List.mem_cons] at hd
      rcases hd with rfl | rfl | rfl | rfl | hd
      · omega
      · omega
      · omega
      · omega
      · exact h3 d hd
    · rw [b64Digit_alphabet _ (by omega), b64Digit_alphabet _ (by omega), b64Digit_alphabet _ (by omega), b64Digit_alphabet _ (by omega), h4]
      rfl
    · have hp := pow_cast h5
      have hl : (octets t).length = t.length := octets_length t
      simp only [octets, List.map_cons, number, List.length_cons] at hl ⊢
      simp only [octets] at h6
      rw [hl, h6, pow_succ, pow_succ, pow_succ, pow_succ, pow_succ, hp]
      generalize 256 ^ t.length = X
      generalize 4 ^ p = Y
      have e : a.toNat / 4 * 262144 + (a.toNat % 4 * 16 + b.toNat / 16) * 4096 + (b.toNat % 16 * 4 + c.toNat / 64) * 64 + c.toNat % 64 =
          a.toNat * 65536 + b.toNat * 256 + c.toNat := by omega
      calc _ = (a.toNat / 4 * 262144 + (a.toNat % 4 * 16 + b.toNat / 16) * 4096 + (b.toNat % 16 * 4 + c.toNat / 64) * 64 + c.toNat % 64) * (X * Y) +
            number 256 (List.map UInt8.toNat t) * Y := by ring
        _ = _ := by rw [e]; ring

example : base64 b!"hello" = b!"aGVsbG8=" := by decide +kernel

/-- the two models of the encoder -/
theorem base64_b64enc (s : Bytes) : base64 s = b64enc s := by
  have e : b64Digit = b64char := rfl
  fun_induction base64 s with
  | case4 a b c t ih => rw [b64enc, ih, e]
  | _ => simp [b64enc, e]

theorem dec_shape : ∀ (n : Nat) (ds : List Nat) (p : Nat) (t : Bytes), ds.length ≤ n → Sextets t ds p →
    ∃ l, b64dec t = some l ∧ ds.length * 6 = l.length * 8 + 2 * p ∧ number 64 ds / 4 ^ p = number 256 (octets l)
  | n, ds, p, t, hn, ⟨h1, h2, h3, h4⟩ => by
    match ds, h2, h3, h4, hn with
    | [], h2, _, h4, _ =>
      have : p = 0 := by simp at h2; omega
      subst this
      exact ⟨[], by rw [h4]; rfl, by simp, by simp [number, octets]⟩
    | [d], h2, _, _, _ => simp at h2; omega
    | [d, e], h2, h3, h4, _ =>
      have hp : p = 2 := by simp at h2; omega
      subst hp
      have hd := h3 d (by simp); have he := h3 e (by simp)
      refine ⟨[UInt8.ofNat (d * 4 + e / 16)], ?_, by simp, ?_⟩
      · rw [h4]
        simp only [List.map, List.replicate, List.cons_append, List.nil_append, b64dec]
        rw [b64val_alphabet d hd, b64val_alphabet e he]
        have : b64val 61 = none := by decide
        simp [this]
      · simp only [number, octets, List.map, List.length]
        rw [ofNat_toNat (by omega)]
        omega
    | [d, e, f], h2, h3, h4, _ =>
      have hp : p = 1 := by simp at h2; omega
      subst hp
      have hd := h3 d (by simp); have he := h3 e (by simp); have hf := h3 f (by simp)
      refine ⟨[UInt8.ofNat (d * 4 + e / 16), UInt8.ofNat (e % 16 * 16 + f / 4)], ?_, by simp, ?_⟩
      · rw [h4]
        simp only [List.map, List.replicate, List.cons_append, List.nil_append, b64dec]
        rw [b64val_alphabet d hd, b64val_alphabet e he, b64val_alphabet f hf]
        have : b64val 61 = none := by decide
        simp [this]
      · simp only [number, octets, List.map, List.length]
        rw [ofNat_toNat (by omega), ofNat_toNat (by omega)]
        omega
    | d :: e :: f :: g :: ds, h2, h3, h4, hn =>
      have hd := h3 d (by simp); have he := h3 e (by simp); have hf := h3 f (by simp); have hg := h3 g (by simp)
      match n with
      | 0 => simp at hn
      | n + 1 =>
        simp only [List.length_cons] at h2 hn
        obtain ⟨l, i1, i2, i3⟩ := dec_shape n ds p (ds.map (fun d => alphabet.getD d 0) ++ List.replicate p 61) (by omega)
          ⟨h1, by omega, fun x hx => h3 x (by simp [hx]), rfl⟩
        refine ⟨UInt8.ofNat (d * 4 + e / 16) :: UInt8.ofNat (e % 16 * 16 + f / 4) :: UInt8.ofNat (f % 4 * 64 + g) :: l, ?_,
          by simp only [List.length_cons]; omega, ?_⟩
        · rw [h4]
          simp only [List.map_cons, List.cons_append, b64dec]
          rw [b64val_alphabet d hd, b64val_alphabet e he, b64val_alphabet f hf, b64val_alphabet g hg, i1]
          rfl
        · have hp := pow_cast i2
          have hl : (octets l).length = l.length := octets_length l
          simp only [octets, List.map_cons, number, List.length_cons] at hl i3 ⊢
          rw [ofNat_toNat (by omega), ofNat_toNat (by omega), ofNat_toNat (by omega), hl, ← i3, pow_succ, pow_succ, pow_succ, pow_succ, pow_succ, hp]
          generalize 256 ^ l.length = X
          have hY : 0 < 4 ^ p := Nat.pow_pos (by omega)
          generalize 4 ^ p = Y at *
          have e1 : d * (X * Y * 64 * 64 * 64) + (e * (X * Y * 64 * 64) + (f * (X * Y * 64) + (g * (X * Y) + number 64 ds))) =
              number 64 ds + (d * 262144 + e * 4096 + f * 64 + g) * X * Y := by ring
          rw [e1, Nat.add_mul_div_right _ _ hY]
          have e2 : d * 262144 + e * 4096 + f * 64 + g = (d * 4 + e / 16) * 65536 + (e % 16 * 16 + f / 4) * 256 + (f % 4 * 64 + g) := by omega
          rw [e2]; ring

theorem dec_inv : ∀ (t l : Bytes), b64dec t = some l → ∃ ds p, Sextets t ds p
  | [], _, _ => ⟨[], 0, by simp [Sextets]⟩
  | [_], _, h => by simp [b64dec] at h
  | [_, _], _, h => by simp [b64dec] at h
  | [_, _, _], _, h => by simp [b64dec] at h
  | p :: q :: r :: s :: t, l, h => by
    rw [b64dec] at h
    cases hp : b64val p with
    | none => simp [hp] at h
    | some x =>
      cases hq : b64val q with
      | none => simp [hp, hq] at h
      | some y =>
        obtain ⟨hx, rfl⟩ := b64val_lt hp
        obtain ⟨hy, rfl⟩ := b64val_lt hq
        cases hr : b64val r with
        | none =>
          simp only [hp, hq, hr] at h
          by_cases hc : r = 61 ∧ s = 61 ∧ t = []
          · obtain ⟨rfl, rfl, rfl⟩ := hc
            exact ⟨[x, y], 2, by omega, by simp, by simp [hx, hy], rfl⟩
          · rw [if_neg hc] at h; cases h
        | some z =>
          obtain ⟨hz, rfl⟩ := b64val_lt hr
          cases hs : b64val s with
          | none =>
            simp only [hp, hq, hr, hs] at h
            by_cases hc : s = 61 ∧ t = []
            · obtain ⟨rfl, rfl⟩ := hc
              exact ⟨[x, y, z], 1, by omega, by simp, by simp [hx, hy, hz], rfl⟩
            · rw [if_neg hc] at h; cases h
          | some w =>
            obtain ⟨hw, rfl⟩ := b64val_lt hs
            simp only [hp, hq, hr, hs] at h
            obtain ⟨l', h1, -⟩ := Option.map_eq_some_iff.mp h
            obtain ⟨ds, k, h2, h3, h4, h5⟩ := dec_inv t l' h1
            refine ⟨x :: y :: z :: w :: ds, k, h2, by simp only [List.length_cons]; omega, ?_, by rw [h5]; rfl⟩
            intro d hd
            simp only [List.mem_cons] at hd
            rcases hd with rfl | rfl | rfl | rfl | hd
            · exact hx
            · exact hy
            · exact hz
            · exact hw
            · exact h4 d hd

/-- **C83**: the texts read as bytes, and what they are read as: line ends do not count; digits of the base64 alphabet, filled up to groups of four with at most
two equal signs, nothing after these.  The bits left over after the last byte are ignored. -/
theorem C83_base64_read (t l : Bytes) : b64decNL t = some l ↔ ∃ ds p, Sextets (t.filter fun c => c ≠ 13 ∧ c ≠ 10) ds p ∧
    ds.length * 6 = l.length * 8 + 2 * p ∧ number 64 ds / 4 ^ p = number 256 (octets l) := by
  have hf : (t.filter fun c => c != 13 && c != 10) = t.filter fun c => c ≠ 13 ∧ c ≠ 10 := by
    apply List.filter_congr
    intro c _
    simp [bne]
    by_cases h1 : c = 13 <;> by_cases h2 : c = 10 <;> simp [h1, h2]
  unfold b64decNL
  rw [hf]
  generalize (t.filter fun c => c ≠ 13 ∧ c ≠ 10) = u
  constructor
  · intro h
    obtain ⟨ds, p, hs⟩ := dec_inv u l h
    obtain ⟨l', h1, h2⟩ := dec_shape _ ds p u (Nat.le_refl _) hs
    rw [h] at h1
    cases h1
    exact ⟨ds, p, hs, h2⟩
  · rintro ⟨ds, p, hs, h2, h3⟩
    obtain ⟨l', h4, h5, h6⟩ := dec_shape _ ds p u (Nat.le_refl _) hs
    rw [h4]
    have hb : ∀ s : Bytes, ∀ d ∈ octets s, d < 256 := by
      intro s d hd
      obtain ⟨c, -, rfl⟩ := List.mem_map.mp hd
      exact c.toNat_lt
    have := number_inj 256 (by omega) (octets l') (octets l) (hb _) (hb _) (by rw [octets_length, octets_length]; omega) (by rw [← h6, h3])
    rw [List.map_injective_iff.mpr (fun a b h => UInt8.toNat_inj.mp h) this]

/-- what is written is read; a text with other bits left over is read, too; nothing may follow the fill -/
example : b64decNL b!"aGVs\nbG8=" = some b!"hello" ∧ b64decNL b!"aGVsbG9=" = some b!"hello" ∧ b64decNL b!"aGVsbG8" = none ∧ b64decNL b!"aA==aA==" = none := by
  decide +kernel

/-! ## Strings in JSON -/

/-- the characters that are not written as they are, with what is written -/
def escaped : List (Nat × Bytes) := [
  (0, b!"\\u0000"), (1, b!"\\u0001"), (2, b!"\\u0002"), (3, b!"\\u0003"), (4, b!"\\u0004"), (5, b!"\\u0005"), (6, b!"\\u0006"), (7, b!"\\u0007"),
  (8, b!"\\u0008"), (9, b!"\\t"), (10, b!"\\n"), (11, b!"\\u000b"), (12, b!"\\u000c"), (13, b!"\\r"), (14, b!"\\u000e"), (15, b!"\\u000f"),
  (16, b!"\\u0010"), (17, b!"\\u0011"), (18, b!"\\u0012"), (19, b!"\\u0013"), (20, b!"\\u0014"), (21, b!"\\u0015"), (22, b!"\\u0016"), (23, b!"\\u0017"),
  (24, b!"\\u0018"), (25, b!"\\u0019"), (26, b!"\\u001a"), (27, b!"\\u001b"), (28, b!"\\u001c"), (29, b!"\\u001d"), (30, b!"\\u001e"), (31, b!"\\u001f"),
  (34, b!"\\\""), (38, b!"\\u0026"), (60, b!"\\u003c"), (62, b!"\\u003e"), (92, b!"\\\\"), (0x2028, b!"\\u2028"), (0x2029, b!"\\u2029")]

/-- what is written for a character -/
def form (r : Nat) : Bytes := (escaped.lookup r).getD (utf8Enc r)

theorem escAscii_form : ∀ n < 128, escAscii (UInt8.ofNat n) = form n := by decide +kernel

theorem form_high {r : Nat} (h : 128 ≤ r) (h1 : r ≠ 0x2028) (h2 : r ≠ 0x2029) : form r = utf8Enc r := by
  have : escaped.lookup r = none := by
    rw [List.lookup_eq_none_iff]
    have H : ∀ p ∈ escaped, p.1 < 128 ∨ p.1 = 0x2028 ∨ p.1 = 0x2029 := by decide +kernel
    intro p hp
    rw [bne_iff_ne]
    rcases H p hp with h | h | h <;> omega
  simp [form, this]

theorem escBody_rune (r : Nat) (hr : ValidRune r) (s : Bytes) : escBody 0 (utf8Enc r ++ s) = form r ++ escBody 0 s := by
  by_cases h : r < 128
  · rw [utf8Enc_ascii h, List.cons_append, List.nil_append, escBody.eq_def]
    have : UInt8.ofNat r < 0x80 := by rw [UInt8.lt_iff_toNat_lt, ofNat_toNat (by omega)]; exact h
    simp only [if_pos this]
    rw [escAscii_form r h]
  · have hd := utf8Dec_enc r hr s
    have hh := utf8Enc_high (by omega) hr
    have hl : r = runeError → (utf8Enc r).length ≠ 1 := by rintro rfl; decide
    cases hu : utf8Enc r with
    | nil => have := utf8Enc_length_pos r; rw [hu] at this; simp at this
    | cons b t =>
      rw [hu] at hd hl
      rw [List.cons_append] at hd ⊢
      rw [escBody.eq_def]
      have hb : ¬ b < 0x80 := by
        have := hh b (by rw [hu]; simp)
        rw [UInt8.lt_iff_toNat_lt]
        show ¬ b.toNat < 128
        omega
      simp only [if_neg hb, hd]
      rw [if_neg (fun hc => hl hc.1 hc.2)]
      have hk : escBody ((b :: t).length - 1) (t ++ s) = escBody 0 s := by
        rw [show (b :: t).length - 1 = t.length by simp]; exact Json.escBody_skip t s
      rw [hk]
      by_cases h1 : r = 0x2028
      · subst h1; rw [if_pos rfl]; rfl
      · rw [if_neg h1]
        by_cases h2 : r = 0x2029
        · subst h2; rw [if_pos rfl]; rfl
        · rw [if_neg h2, form_high (by omega) h1 h2, hu]
          congr 1
          rw [← List.cons_append, List.take_left]

/-- **C83**: a string of characters in JSON: each written as it is, but for quotes, backslashes, control characters, `&`, `<`, `>` and the two separators. -/
theorem C83_string (F : FloatCodec) (rs : List Nat) (h : ∀ r ∈ rs, ValidRune r) :
    enc F (.str (rs.flatMap utf8Enc)) = 34 :: (rs.flatMap form ++ [34]) := by
  rw [enc, jsonStr]
  congr 2
  induction rs with
  | nil => rfl
  | cons r rs ih =>
    rw [List.flatMap_cons, List.flatMap_cons, escBody_rune r (h r (by simp)), ih fun x hx => h x (by simp [hx])]

example : enc FloatText.goF (.str b!"a<b\t\"é\"") = b!"\"a\\u003cb\\t\\\"é\\\"\"" := by decide +kernel

/-- **C83**: and a byte that is no part of a character is written as that for the replacement character. -/
theorem C83_stray (rs : List Nat) (h : ∀ r ∈ rs, ValidRune r) (b : UInt8) (t : Bytes) (hb : utf8Dec (b :: t) = (runeError, 1)) :
    jsonStr (rs.flatMap utf8Enc ++ b :: t) = 34 :: (rs.flatMap form ++ b!"\\ufffd") ++ (jsonStr t).drop 1 := by
  have : ∀ rs : List Nat, (∀ r ∈ rs, ValidRune r) → escBody 0 (rs.flatMap utf8Enc ++ b :: t) = rs.flatMap form ++ (b!"\\ufffd" ++ escBody 0 t) := by
    intro rs
    induction rs with
    | nil =>
      intro _
      have hn : ¬ b < 0x80 := by
        intro hc
        rw [UInt8.lt_iff_toNat_lt] at hc
        have hc : b.toNat < 128 := hc
        simp only [utf8Dec, if_pos hc, runeError, Prod.mk.injEq] at hb
        omega
      rw [List.flatMap_nil, List.nil_append, List.flatMap_nil, List.nil_append, escBody.eq_def]
      simp only [if_neg hn, hb, and_self, if_true]
    | cons r rs ih =>
      intro h
      rw [List.flatMap_cons, List.flatMap_cons, List.append_assoc, escBody_rune r (h r (by simp)), ih fun x hx => h x (by simp [hx]), List.append_assoc]
  simp [jsonStr, this rs h]

example : jsonStr [97, 255, 98] = b!"\"a\\ufffdb\"" := by decide +kernel

/-- no control character and none that means something in HTML -/
def Harmless (c : UInt8) : Prop := 0x20 ≤ c.toNat ∧ c ≠ 38 ∧ c ≠ 60 ∧ c ≠ 62

instance (c : UInt8) : Decidable (Harmless c) := inferInstanceAs (Decidable (_ ∧ _))

theorem form_harmless (r : Nat) (hr : ValidRune r) : ∀ c ∈ form r, Harmless c := by
  by_cases h : r < 128
  · have : ∀ r < 128, ∀ c ∈ form r, Harmless c := by decide +kernel
    exact this r h
  by_cases h1 : r = 0x2028
  · subst h1; decide +kernel
  by_cases h2 : r = 0x2029
  · subst h2; decide +kernel
  rw [form_high (by omega) h1 h2]
  intro c hc
  have := utf8Enc_high (by omega) hr c hc
  refine ⟨by omega, ?_, ?_, ?_⟩ <;> rintro rfl <;> revert this <;> decide

theorem escBody_harmless : ∀ (n : Nat) (s : Bytes), s.length ≤ n → ∀ c ∈ escBody 0 s, Harmless c
  | _, [], _ => by simp [escBody]
  | 0, _ :: _, h => by simp at h
  | n + 1, b :: t, h => by
    simp only [List.length_cons] at h
    rcases utf8Enc_dec b t with ⟨h1, h2⟩ | ⟨hv, h1, h2, h3⟩
    · by_cases hb : b < 0x80
      · rw [escBody.eq_def]
        simp only [if_pos hb]
        have hb' : b.toNat < 128 := hb
        have := form_harmless b.toNat (Or.inl (by omega))
        rw [← escAscii_form _ hb', UInt8.ofNat_toNat] at this
        intro c hc
        rcases List.mem_append.mp hc with hc | hc
        · exact this c hc
        · exact escBody_harmless n t (by omega) c hc
      · rw [escBody.eq_def]
        simp only [if_neg hb, h1, h2, and_self, if_true]
        intro c hc
        rcases List.mem_append.mp hc with hc | hc
        · have H : ∀ c ∈ b!"\\ufffd", Harmless c := by decide
          exact H c hc
        · exact escBody_harmless n t (by omega) c hc
    · have e : b :: t = utf8Enc (utf8Dec (b :: t)).1 ++ (b :: t).drop (utf8Dec (b :: t)).2 := by rw [h1, List.take_append_drop]
      rw [e, escBody_rune _ hv]
      intro c hc
      rcases List.mem_append.mp hc with hc | hc
      · exact form_harmless _ hv c hc
      · exact escBody_harmless n _ (by simp; omega) c hc

theorem jsonStr_harmless (s : Bytes) : ∀ c ∈ jsonStr s, Harmless c := by
  intro c hc
  simp only [jsonStr, List.mem_cons, List.mem_append, List.not_mem_nil, or_false] at hc
  rcases hc with rfl | hc | rfl
  · decide
  · exact escBody_harmless _ s (Nat.le_refl _) c hc
  · decide

theorem base64_harmless (s : Bytes) : ∀ c ∈ base64 s, Harmless c := by
  obtain ⟨ds, p, ⟨-, -, h3, h4⟩, -⟩ := C83_base64 s
  rw [h4]
  intro c hc
  rcases List.mem_append.mp hc with hc | hc
  · obtain ⟨d, hd, rfl⟩ := List.mem_map.mp hc
    have : ∀ d < 64, Harmless (alphabet.getD d 0) := by decide +kernel
    exact this d (h3 d hd)
  · rw [List.eq_of_mem_replicate hc]; decide

theorem digit_harmless {c : UInt8} (h : isDigit c = true) : Harmless c := by
  simp only [isDigit, Bool.and_eq_true, decide_eq_true_eq, UInt8.le_iff_toNat_le] at h
  have h1 : 48 ≤ c.toNat := h.1
  have h2 : c.toNat ≤ 57 := h.2
  refine ⟨by omega, ?_, ?_, ?_⟩ <;> rintro rfl <;> revert h1 h2 <;> decide

theorem fmtInt_harmless (i : Int) : ∀ c ∈ fmtInt i, Harmless c := by
  have hn : ∀ n, ∀ c ∈ fmtNat n, Harmless c := fun n c hc => digit_harmless (fmtNatF_digits _ _ c hc)
  intro c hc
  unfold fmtInt at hc
  split at hc
  · rcases List.mem_cons.mp hc with rfl | hc
    · decide
    · exact hn _ c hc
  · exact hn _ c hc

theorem decimal_harmless {s xs : Bytes} {n : Bool} {m : Nat} {e : Int} (h : FloatText.Decimal s xs n m e) : ∀ c ∈ s, Harmless c := by
  cases h with
  | mk sign a f b x xs E hs ha hf _ hx =>
    have hd : ∀ l, JsonG.Digits l → ∀ c ∈ l, Harmless c := fun l hl c hc => digit_harmless (hl c hc)
    intro c hc
    simp only [List.mem_append] at hc
    rcases hc with hc | hc | hc | hc
    · rcases hs with rfl | rfl | rfl
      · simp at hc
      · rw [List.mem_singleton] at hc; subst hc; decide
      · rw [List.mem_singleton] at hc; subst hc; decide
    · exact hd a ha c hc
    · cases hf with
      | none => simp at hc
      | some _ hb =>
        rcases List.mem_cons.mp hc with rfl | hc
        · decide
        · exact hd _ hb c hc
    · cases hx with
      | none => simp at hc
      | pos k sg ds hk hsg _ hds =>
        simp only [List.mem_cons, List.mem_append] at hc
        rcases hc with rfl | hc | hc
        · rcases hk with rfl | rfl <;> decide
        · rcases hsg with rfl | rfl
          · simp at hc
          · rw [List.mem_singleton] at hc; subst hc; decide
        · exact hd _ hds c hc
      | neg k ds hk _ hds =>
        simp only [List.mem_cons] at hc
        rcases hc with rfl | rfl | hc
        · rcases hk with rfl | rfl <;> decide
        · decide
        · exact hd _ hds c hc

theorem goF_harmless (x : UInt64) (h : floatFinite x = true) : ∀ c ∈ FloatText.goF.fmt x, Harmless c := by
  obtain ⟨xs, m, e, h1, -⟩ := FloatText.fmtJSON_means ((FloatText.finite_iff x).1 h)
  exact decimal_harmless h1

open FloatText (goF)

mutual
/-- **C83**: the JSON text of any value is in one line and contains no `&`, `<` or `>`. -/
theorem C83_value : ∀ (v : Val), jsonOK v = true → ∀ c ∈ enc goF v, Harmless c
  | .null, _ => by rw [enc]; decide
  | .bool true, _ => by rw [enc]; decide
  | .bool false, _ => by rw [enc]; decide
  | .int i, _ => by rw [enc]; exact fmtInt_harmless i
  | .gint i, _ => by rw [enc]; exact fmtInt_harmless i
  | .f64 x, h => by rw [enc]; exact goF_harmless x h
  | .str s, _ => by rw [enc]; exact jsonStr_harmless s
  | .bytes s, _ => by
    rw [enc]
    intro c hc
    simp only [List.mem_cons, List.mem_append, List.not_mem_nil, or_false] at hc
    rcases hc with rfl | hc | rfl
    · decide
    · exact base64_harmless s c hc
    · decide
  | .arr l, h => by
    rw [enc]
    intro c hc
    simp only [List.mem_cons, List.mem_append, List.not_mem_nil, or_false] at hc
    rcases hc with rfl | hc | rfl
    · decide
    · exact encL_harmless l h c hc
    · decide
  | .obj m, h => by
    rw [enc]
    intro c hc
    simp only [List.mem_cons, List.mem_append, List.not_mem_nil, or_false] at hc
    rcases hc with rfl | hc | rfl
    · decide
    · exact encF_harmless m h c hc
    · decide
theorem encL_harmless : ∀ (l : List Val), jsonOKL l = true → ∀ c ∈ encL goF l, Harmless c
  | [], _ => by simp [encL]
  | [v], h => by
    rw [jsonOKL, Bool.and_eq_true] at h
    rw [encL]; exact C83_value v h.1
  | v :: w :: l, h => by
    rw [jsonOKL, Bool.and_eq_true] at h
    rw [encL]
    intro c hc
    simp only [List.mem_cons, List.mem_append] at hc
    rcases hc with hc | rfl | hc
    · exact C83_value v h.1 c hc
    · decide
    · exact encL_harmless (w :: l) h.2 c hc
theorem encF_harmless : ∀ (m : List (Bytes × Val)), jsonOKF m = true → ∀ c ∈ encF goF m, Harmless c
  | [], _ => by simp [encF]
  | [(k, v)], h => by
    rw [jsonOKF, Bool.and_eq_true] at h
    rw [encF]
    intro c hc
    simp only [List.mem_cons, List.mem_append] at hc
    rcases hc with hc | rfl | hc
    · exact jsonStr_harmless k c hc
    · decide
    · exact C83_value v h.1 c hc
  | (k, v) :: w :: m, h => by
    rw [jsonOKF, Bool.and_eq_true] at h
    rw [encF]
    intro c hc
    simp only [List.mem_cons, List.mem_append] at hc
    rcases hc with hc | rfl | hc | rfl | hc
    · exact jsonStr_harmless k c hc
    · decide
    · exact C83_value v h.1 c hc
    · decide
    · exact encF_harmless (w :: m) h.2 c hc
end

example : enc goF (.arr [.str b!"<a&b>\n", .f64 0x3FF8000000000000]) = b!"[\"\\u003ca\\u0026b\\u003e\\n\",1.5]" := by decide +kernel

/-- harmless, or one of the given characters -/
def Mild (ind : Bytes) (c : UInt8) : Prop := Harmless c ∨ c = 10 ∨ c ∈ ind

theorem nl_mild (ind : Bytes) (d : Nat) : ∀ c ∈ jsonNL ind ind d, Mild ind c := by
  intro c hc
  simp only [jsonNL, List.mem_cons, List.mem_append, List.mem_flatten] at hc
  rcases hc with rfl | hc | ⟨l, hl, hc⟩
  · exact .inr (.inl rfl)
  · exact .inr (.inr hc)
  · rw [List.eq_of_mem_replicate hl] at hc; exact .inr (.inr hc)

theorem mild_of {ind : Bytes} {c : UInt8} (h : Harmless c) : Mild ind c := .inl h

mutual
theorem encP_mild (ind : Bytes) : ∀ (d : Nat) (v : Val), jsonOK v = true → ∀ c ∈ encP goF ind ind d v, Mild ind c
  | d, .arr l, h => by
    rw [encP]
    intro c hc
    split at hc
    · exact .inl (by revert c; decide)
    · simp only [List.mem_cons, List.mem_append, List.not_mem_nil, or_false] at hc
      rcases hc with rfl | ((hc | hc) | hc) | rfl
      · exact .inl (by decide)
      · exact nl_mild ind _ c hc
      · exact encPL_mild ind _ l h c hc
      · exact nl_mild ind _ c hc
      · exact .inl (by decide)
  | d, .obj m, h => by
    rw [encP]
    intro c hc
    split at hc
    · exact .inl (by revert c; decide)
    · simp only [List.mem_cons, List.mem_append, List.not_mem_nil, or_false] at hc
      rcases hc with rfl | ((hc | hc) | hc) | rfl
      · exact .inl (by decide)
      · exact nl_mild ind _ c hc
      · exact encPF_mild ind _ m h c hc
      · exact nl_mild ind _ c hc
      · exact .inl (by decide)
  | d, .null, h => by rw [encP]; exacts [fun c hc => .inl (C83_value _ h c hc), by simp, by simp]
  | d, .bool b, h => by rw [encP]; exacts [fun c hc => .inl (C83_value _ h c hc), by simp, by simp]
  | d, .int i, h => by rw [encP]; exacts [fun c hc => .inl (C83_value _ h c hc), by simp, by simp]
  | d, .gint i, h => by rw [encP]; exacts [fun c hc => .inl (C83_value _ h c hc), by simp, by simp]
  | d, .f64 x, h => by rw [encP]; exacts [fun c hc => .inl (C83_value _ h c hc), by simp, by simp]
  | d, .str s, h => by rw [encP]; exacts [fun c hc => .inl (C83_value _ h c hc), by simp, by simp]
  | d, .bytes s, h => by rw [encP]; exacts [fun c hc => .inl (C83_value _ h c hc), by simp, by simp]
theorem encPL_mild (ind : Bytes) : ∀ (d : Nat) (l : List Val), jsonOKL l = true → ∀ c ∈ encPL goF ind ind d l, Mild ind c
  | d, [], _ => by simp [encPL]
  | d, [v], h => by
    rw [jsonOKL, Bool.and_eq_true] at h
    rw [encPL]; exact encP_mild ind d v h.1
  | d, v :: w :: l, h => by
    rw [jsonOKL, Bool.and_eq_true] at h
    rw [encPL]
    intro c hc
    simp only [List.mem_cons, List.mem_append] at hc
    rcases hc with hc | rfl | hc | hc
    · exact encP_mild ind d v h.1 c hc
    · exact .inl (by decide)
    · exact nl_mild ind _ c hc
    · exact encPL_mild ind d (w :: l) h.2 c hc
theorem encPF_mild (ind : Bytes) : ∀ (d : Nat) (m : List (Bytes × Val)), jsonOKF m = true → ∀ c ∈ encPF goF ind ind d m, Mild ind c
  | d, [], _ => by simp [encPF]
  | d, [(k, v)], h => by
    rw [jsonOKF, Bool.and_eq_true] at h
    rw [encPF]
    intro c hc
    simp only [List.mem_cons, List.mem_append] at hc
    rcases hc with hc | rfl | rfl | hc
    · exact .inl (jsonStr_harmless k c hc)
    · exact .inl (by decide)
    · exact .inl (by decide)
    · exact encP_mild ind d v h.1 c hc
  | d, (k, v) :: w :: m, h => by
    rw [jsonOKF, Bool.and_eq_true] at h
    rw [encPF]
    intro c hc
    simp only [List.mem_cons, List.mem_append] at hc
    rcases hc with hc | rfl | rfl | hc | rfl | hc | hc
    · exact .inl (jsonStr_harmless k c hc)
    · exact .inl (by decide)
    · exact .inl (by decide)
    · exact encP_mild ind d v h.1 c hc
    · exact .inl (by decide)
    · exact nl_mild ind _ c hc
    · exact encPF_mild ind d (w :: m) h.2 c hc
end

open Json in
theorem marshal_mild (ind : Bytes) (v : Val) (h : jsonOK v = true) : ∀ c ∈ marshal goF ind v, Harmless c ∨ (ind ≠ [] ∧ (c = 10 ∨ c ∈ ind)) := by
  intro c hc
  unfold marshal at hc
  split at hc
  · exact .inl (C83_value v h c hc)
  · rename_i hi
    rcases List.mem_append.mp hc with hc | hc
    · exact .inr ⟨hi, .inr hc⟩
    · rcases encP_mild ind 0 v h c hc with h | h
      · exact .inl h
      · exact .inr ⟨hi, h⟩

open Json in
theorem valBytes_mild (tl : TopLevel) (ind : Bytes) (keys : List Bytes) (e : Entry) (d : Bytes) (h : (valBytes goF tl ind keys e).1 = .ok d) :
    ∀ c ∈ d, Harmless c ∨ (ind ≠ [] ∧ (c = 10 ∨ c ∈ ind)) := by
  cases tl with
  | array =>
    simp only [valBytes] at h
    split at h
    · rename_i hv
      cases h
      exact marshal_mild ind _ hv
    · cases h
  | object =>
    simp only [valBytes] at h
    split at h
    · cases h
    split at h
    · cases h
    simp only at h
    split at h
    · rename_i hv
      cases h
      intro c hc
      simp only [List.mem_append, List.mem_cons] at hc
      rcases hc with hc | rfl | hc
      · exact marshal_mild ind _ rfl c hc
      · exact .inl (by decide)
      · exact marshal_mild ind _ hv c hc
    · cases h

open Json in
/-- **C83**: and so is any body the JSON writer writes, but for the indentation given and, if there is one, line feeds; whatever is written to it,
accepted or not.  Without indentation it is one line. -/
theorem C83_body (tl : TopLevel) (ind : Bytes) (es : List Entry) :
    ∀ c ∈ (writeAll goF tl ind es).2, Harmless c ∨ (ind ≠ [] ∧ (c = 10 ∨ c ∈ ind)) := by
  have hch : ∀ c, c = openCh tl ∨ c = closeCh tl → Harmless c := by
    rintro c (rfl | rfl) <;> cases tl <;> decide
  have step : ∀ (e : Entry) (w : WState), (∀ c ∈ w.out, Harmless c ∨ (ind ≠ [] ∧ (c = 10 ∨ c ∈ ind))) →
      ∀ c ∈ (writeEntry goF tl ind e w).2.out, Harmless c ∨ (ind ≠ [] ∧ (c = 10 ∨ c ∈ ind)) := by
    intro e w hw c hc
    unfold writeEntry at hc
    have ho : ∀ c ∈ opening tl w.rowsWritten, Harmless c := by
      intro c hc
      unfold opening at hc
      split at hc
      · exact hch c (.inl (by simpa using hc))
      · simp at hc
    split at hc
    · rename_i d keys hv
      simp only [List.mem_append] at hc
      rcases hc with ((hc | hc) | hc) | hc
      · exact hw c hc
      · exact .inl (ho c hc)
      · unfold separator at hc
        rcases List.mem_append.mp hc with hc | hc
        · split at hc
          · simp at hc
          · rw [List.mem_singleton] at hc; subst hc; exact .inl (by decide)
        · split at hc
          · simp at hc
          · rename_i hi
            rw [List.mem_singleton] at hc; exact .inr ⟨hi, .inl hc⟩
      · exact valBytes_mild tl ind _ e d (by rw [hv]) c hc
    · simp only [List.mem_append] at hc
      rcases hc with hc | hc
      · exact hw c hc
      · exact .inl (ho c hc)
  have loop : ∀ (es : List Entry) (w : WState), (∀ c ∈ w.out, Harmless c ∨ (ind ≠ [] ∧ (c = 10 ∨ c ∈ ind))) →
      ∀ c ∈ (writeLoop goF tl ind es w).2.out, Harmless c ∨ (ind ≠ [] ∧ (c = 10 ∨ c ∈ ind)) := by
    intro es
    induction es with
    | nil => intro w hw; exact hw
    | cons e es ih => intro w hw; exact ih _ (step e w hw)
  have H := loop es {} (by simp)
  intro c hc
  simp only [writeAll, close] at hc
  split at hc
  · simp only [List.mem_append, List.mem_cons, List.not_mem_nil, or_false] at hc
    rcases hc with hc | hc | hc
    · exact H c hc
    · exact .inl (hch c (.inl hc))
    · exact .inl (hch c (.inr hc))
  · simp only [List.mem_append, List.mem_cons, List.not_mem_nil, or_false] at hc
    rcases hc with (hc | hc) | hc
    · exact H c hc
    · split at hc
      · simp at hc
      · rename_i hi
        rw [List.mem_singleton] at hc; exact .inr ⟨hi, .inl hc⟩
    · exact .inl (hch c (.inr hc))

example : (Json.writeAll goF .array [] [{ value := .str b!"<b>\n" }, { value := .f64 0x7FF0000000000000 }]).2 = b!"[\"\\u003cb\\u003e\\n\"]" := by decide +kernel

/-! ## Cells in CSV -/

/-- the white space of Unicode, in UTF-8 -/
def spaces : List Bytes := [
  [9], [10], [11], [12], [13], [32], [194, 133], [194, 160], [225, 154, 128], [226, 128, 128], [226, 128, 129], [226, 128, 130], [226, 128, 131], [226, 128, 132], [226, 128, 133], [226, 128, 134], [226, 128, 135], [226, 128, 136], [226, 128, 137], [226, 128, 138], [226, 128, 168], [226, 128, 169], [226, 128, 175], [226, 129, 159], [227, 128, 128]]

theorem spaces_enc : spaces = [9, 10, 11, 12, 13, 32, 0x85, 0xA0, 0x1680, 0x2000, 0x2001, 0x2002, 0x2003, 0x2004, 0x2005, 0x2006, 0x2007, 0x2008, 0x2009, 0x200A,
    0x2028, 0x2029, 0x202F, 0x205F, 0x3000].map utf8Enc := by decide +kernel

theorem isSpace_mem (r : Nat) : Csv.isSpace r = true ↔ r ∈ [9, 10, 11, 12, 13, 32, 0x85, 0xA0, 0x1680, 0x2000, 0x2001, 0x2002, 0x2003, 0x2004, 0x2005, 0x2006,
    0x2007, 0x2008, 0x2009, 0x200A, 0x2028, 0x2029, 0x202F, 0x205F, 0x3000] := by
  simp only [Csv.isSpace, Bool.or_eq_true, Bool.and_eq_true, decide_eq_true_eq, List.mem_cons, List.not_mem_nil, or_false]
  omega

theorem starts_space (f : Bytes) (hf : f ≠ []) : Csv.isSpace (utf8Dec f).1 = true ↔ ∃ w ∈ spaces, w <+: f := by
  cases f with
  | nil => exact absurd rfl hf
  | cons b t =>
    rw [isSpace_mem, spaces_enc]
    constructor
    · intro h
      refine ⟨_, List.mem_map_of_mem h, ?_⟩
      rcases utf8Enc_dec b t with ⟨h1, h2⟩ | ⟨hv, h1, h2, h3⟩
      · rw [h1] at h; exact absurd h (by decide)
      · rw [h1]; exact List.take_prefix _ _
    · rintro ⟨w, hw, t', e⟩
      obtain ⟨r, hr, rfl⟩ := List.mem_map.mp hw
      have hv : ∀ r ∈ [9, 10, 11, 12, 13, 32, 0x85, 0xA0, 0x1680, 0x2000, 0x2001, 0x2002, 0x2003, 0x2004, 0x2005, 0x2006,
          0x2007, 0x2008, 0x2009, 0x200A, 0x2028, 0x2029, 0x202F, 0x205F, 0x3000], ValidRune r := by decide
      rw [← e, utf8Dec_enc r (hv r hr)]
      exact hr

theorem occurs_iff (sep : Bytes) : ∀ s : Bytes, Csv.occurs sep s = true ↔ sep <:+: s
  | [] => by
    rw [Csv.occurs, List.isEmpty_iff]
    simp
  | c :: s => by
    rw [Csv.occurs, Bool.or_eq_true, List.isPrefixOf_iff_prefix, occurs_iff sep s, List.infix_cons_iff]

/-- the cells that are written in quotes -/
def Quoted (sep f : Bytes) : Prop := f = b!"\\." ∨ sep <:+: f ∨ 34 ∈ f ∨ 13 ∈ f ∨ 10 ∈ f ∨ ∃ w ∈ spaces, w <+: f

open Classical in
/-- **C83**: a record in CSV: the cells with separators between them; in quotes, those within doubled, are cells with a separator, quote or line end in them, that
begin with white space, or are `\.`. -/
theorem C83_csv (c : Nat) (fs : List Bytes) : Csv.recordText (utf8Enc c) fs =
    (List.intercalate (utf8Enc c) (fs.map fun f => if Quoted (utf8Enc c) f then 34 :: (f.flatMap fun b => if b = 34 then [34, 34] else [b]) ++ [34] else f)) ++ [10] := by
  have hd : ∀ f : Bytes, Csv.dbl f = f.flatMap fun b => if b = 34 then [34, 34] else [b] := by
    intro f
    induction f with
    | nil => rfl
    | cons b f ih => rw [Csv.dbl, List.flatMap_cons, ih]; split <;> rfl
  have hp := utf8Enc_length_pos c
  generalize utf8Enc c = sep at *
  have hq : ∀ f, Csv.needsQuotes sep f = true ↔ Quoted sep f := by
    intro f
    unfold Csv.needsQuotes Quoted
    by_cases h0 : f = []
    · subst h0
      have hs : ∀ w ∈ spaces, w ≠ [] := by decide +kernel
      have he : sep ≠ [] := by rintro rfl; simp at hp
      simp only [if_true, Bool.false_eq_true, List.infix_nil, List.prefix_nil, List.not_mem_nil, false_or, false_iff, not_or, not_exists, not_and, he]
      exact ⟨by decide, hs⟩
    · rw [if_neg h0]
      by_cases h1 : f = b!"\\."
      · simp [h1]
      · rw [if_neg h1]
        have ha : (f.any fun c => c = 34 || c = 13 || c = 10) = true ↔ 34 ∈ f ∨ 13 ∈ f ∨ 10 ∈ f := by
          rw [List.any_eq_true]
          simp only [Bool.or_eq_true, decide_eq_true_eq]
          constructor
          · rintro ⟨x, hx, (rfl | rfl) | rfl⟩ <;> simp [hx]
          · rintro (h | h | h)
            · exact ⟨_, h, by simp⟩
            · exact ⟨_, h, by simp⟩
            · exact ⟨_, h, by simp⟩
        have ho := occurs_iff sep f
        have hs := starts_space f h0
        by_cases h2 : Csv.occurs sep f = true
        · simp [h2, ho.mp h2]
        · by_cases h3 : (f.any fun c => c = 34 || c = 13 || c = 10) = true
          · have := ha.mp h3
            rw [if_pos (by rw [h3]; simp)]
            simp only [true_iff]
            rcases this with h | h | h <;> simp [h]
          · rw [if_neg (by simp only [Bool.or_eq_true, not_or]; exact ⟨h2, h3⟩), hs]
            rw [ho] at h2
            rw [ha] at h3
            simp only [h1, h2, false_or]
            tauto
  have ht : ∀ f, Csv.fieldText sep f = if Quoted sep f then 34 :: (f.flatMap fun b => if b = 34 then [34, 34] else [b]) ++ [34] else f := by
    intro f
    unfold Csv.fieldText
    rw [hd]
    by_cases h : Quoted sep f
    · rw [if_pos ((hq f).mpr h), if_pos h]; rfl
    · rw [if_neg (fun hc => h ((hq f).mp hc)), if_neg h]
  have hj : ∀ fs, Csv.joined sep fs = List.intercalate sep (fs.map fun f => if Quoted sep f then 34 :: (f.flatMap fun b => if b = 34 then [34, 34] else [b]) ++ [34] else f) := by
    intro fs
    induction fs with
    | nil => rfl
    | cons f fs ih =>
      cases fs with
      | nil => simp [Csv.joined, ht, List.intercalate]
      | cons g fs =>
        rw [Csv.joined, ih, ht]
        · simp [List.intercalate]
        · simp
  rw [Csv.recordText, hj]

example : Csv.recordText [44] [b!"a,b", b!"say \"x\"", b!" c", b!"d e", b!"\\."] = b!"\"a,b\",\"say \"\"x\"\"\",\" c\",d e,\"\\.\"\n" := by decide +kernel

end Verif.TextForms
