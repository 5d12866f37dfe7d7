import Verif.Lemmas.JsonBufTop
import Verif.Lemmas.MapPerm
import Verif.Spec.JsonMeaning
/- Reading JSON texts that others wrote. -/
set_option autoImplicit false
namespace Verif.JsonBuf
open Json JsonG

/-! ### Strings -/

theorem scan_strText {t : Bytes} (h : StrText t) (r : Bytes) : scanStr (t ++ 34 :: r) = some (t, r) := by
  induction h with
  | nil => rw [List.nil_append, scanStr.eq_def]; simp
  | plain c h1 h2 h3 _ ih => rw [List.cons_append, scanStr_plain _ h3 h2, ih]; rfl
  | esc e h _ ih => simp only [List.cons_append]; rw [scanStr_esc, ih]; rfl
  | uni a b c d h1 h2 h3 h4 _ ih =>
    obtain ⟨n1, h1⟩ := Option.isSome_iff_exists.1 h1
    obtain ⟨n2, h2⟩ := Option.isSome_iff_exists.1 h2
    obtain ⟨n3, h3⟩ := Option.isSome_iff_exists.1 h3
    obtain ⟨n4, h4⟩ := Option.isSome_iff_exists.1 h4
    simp only [List.cons_append]
    rw [scanStr_esc, scanStr_plain _ (hexVal_range h1).1 (hexVal_range h1).2.1,
      scanStr_plain _ (hexVal_range h2).1 (hexVal_range h2).2.1,
      scanStr_plain _ (hexVal_range h3).1 (hexVal_range h3).2.1,
      scanStr_plain _ (hexVal_range h4).1 (hexVal_range h4).2.1, ih]
    rfl

theorem escapesWhole_strText {t : Bytes} (h : StrText t) : JsonClean.escapesWhole t = true := by
  induction h with
  | nil => rfl
  | plain c _ _ h3 _ ih => rw [JsonClean.escapesWhole.eq_def]; simp [h3, ih]
  | esc e h _ ih =>
    have h1 : e ≠ 120 ∧ e ≠ 117 := by
      simp only [List.mem_cons, List.not_mem_nil, or_false] at h
      rcases h with rfl | rfl | rfl | rfl | rfl | rfl | rfl | rfl <;> decide
    rw [JsonClean.escapesWhole.eq_def]; simp [h1.1, h1.2, ih]
  | uni a b c d _ _ _ _ _ ih => rw [JsonClean.escapesWhole.eq_def]; simp [ih]

theorem stringBody_strText {t : Bytes} (h : StrText t) (r : Bytes) : JsonClean.stringBody (t ++ 34 :: r) = some (Json.unq t, r) := by
  unfold JsonClean.stringBody
  rw [scan_strText h, Option.bind_some]
  simp only
  rw [if_pos (escapesWhole_strText h)]

theorem unq_esc {e : UInt8} (h1 : e ≠ 120) (h2 : e ≠ 117) (t : Bytes) : Json.unq (92 :: e :: t) = simpleEscape e :: Json.unq t := by
  rw [Json.unq.eq_def]; simp [h1, h2]

theorem unq_uni (a b c d : UInt8) (t : Bytes) : Json.unq (92 :: 117 :: a :: b :: c :: d :: t) = uEscape a b c d ++ Json.unq t := by
  rw [Json.unq.eq_def]; simp

theorem uEscape_hex {a b c d : UInt8} {n : Nat} (h : Hex4 a b c d n) : uEscape a b c d = if ValidRune n then utf8Enc n else [63] := by
  obtain ⟨n1, n2, n3, n4, h1, h2, h3, h4, rfl⟩ := h
  simp [uEscape, hex4, h1, h2, h3, h4]

theorem uEscape_sur {a b c d : UInt8} {n : Nat} (h : Hex4 a b c d n) (h1 : 0xD800 ≤ n) (h2 : n < 0xE000) : uEscape a b c d = [63] := by
  rw [uEscape_hex h, if_neg]
  unfold ValidRune; omega

theorem utf8Enc_pair {n : Nat} (h : 0x10000 ≤ n) : (utf8Enc n).length = 4 := by
  unfold utf8Enc
  rw [if_neg (by omega), if_neg (by omega), if_neg (by omega)]
  rfl

/-- what is read is never longer than what the text stands for, and as long only without surrogates -/
theorem unq_says {s t : Bytes} (h : StrSays s t) : (Json.unq t).length ≤ s.length ∧ (s.length ≤ (Json.unq t).length → StrBody s t) := by
  induction h with
  | nil => exact ⟨by simp [Json.unq], fun _ => .nil⟩
  | plain c h1 h2 h3 _ ih =>
    rw [unq_plain c h3]
    exact ⟨by simpa using ih.1, fun h => .plain c h1 h2 h3 (ih.2 (by simpa using h))⟩
  | esc e c h _ ih =>
    have h' := simpleEscape_esc _ h
    rw [unq_esc h'.1 h'.2.1]
    exact ⟨by simpa using ih.1, fun h1 => .esc e c h (ih.2 (by simpa using h1))⟩
  | uni a b c d n h hv _ ih =>
    rw [unq_uni, uEscape_hex h, if_pos hv]
    refine ⟨by simpa using ih.1, fun h1 => ?_⟩
    obtain ⟨n1, n2, n3, n4, e1, e2, e3, e4, rfl⟩ := h
    exact .uni a b c d n1 n2 n3 n4 e1 e2 e3 e4 hv (ih.2 (by simpa using h1))
  | pair a b c d a' b' c' d' n n' h h' h1 h2 h3 h4 _ ih =>
    rw [unq_uni, uEscape_sur h h1 (by omega), unq_uni, uEscape_sur h' (by omega) h4]
    simp only [List.length_append, utf8Enc_pair (show 0x10000 ≤ 0x10000 + (n - 0xD800) * 1024 + (n' - 0xDC00) by omega), List.length_cons, List.length_nil]
    exact ⟨by omega, by omega⟩

theorem strSays_body {s t : Bytes} (h : StrBody s t) : StrSays s t := by
  induction h with
  | nil => exact .nil
  | plain c h1 h2 h3 _ ih => exact .plain c h1 h2 h3 ih
  | esc e c h _ ih => exact .esc e c h ih
  | uni a b c d n1 n2 n3 n4 h1 h2 h3 h4 hv _ ih => exact .uni a b c d _ ⟨n1, n2, n3, n4, h1, h2, h3, h4, rfl⟩ hv ih

theorem says_unq {t : Bytes} (h : StrSays (Json.unq t) t) : NoSurrogates t := ⟨_, (unq_says h).2 (Nat.le_refl _)⟩

theorem noSurrogates_says {t : Bytes} (h : NoSurrogates t) : StrSays (Json.unq t) t := by
  obtain ⟨s, h⟩ := h
  rw [unq_body h]; exact strSays_body h

/-- replacing the surrogates does not change what is read -/
theorem ask_read {t : Bytes} (h : StrText t) : Json.unq (ask t) = Json.unq t ∧ NoSurrogates (ask t) := by
  induction h with
  | nil => exact ⟨rfl, [], .nil⟩
  | @plain c t h1 h2 h3 _ ih =>
    have e : ask (c :: t) = c :: ask t := by
      rw [ask.eq_def]
      split
      · rename_i h; cases h; exact absurd rfl h3
      · rename_i h; cases h; exact absurd rfl h3
      · rename_i h; cases h; rfl
      · rename_i h; cases h
    obtain ⟨s, hs⟩ := ih.2
    rw [e, unq_plain c h3, unq_plain c h3, ih.1]
    exact ⟨rfl, _, .plain c h1 h2 h3 hs⟩
  | @esc e t h _ ih =>
    have he : e ≠ 120 ∧ e ≠ 117 ∧ ∃ c, (e, c) ∈ escapes := by
      simp only [List.mem_cons, List.not_mem_nil, or_false] at h
      rcases h with rfl | rfl | rfl | rfl | rfl | rfl | rfl | rfl <;> refine ⟨by decide, by decide, ?_⟩ <;> simp [escapes]
    have e' : ask (92 :: e :: t) = 92 :: e :: ask t := by
      rw [ask.eq_def]
      split
      · rename_i h; cases h; exact absurd rfl he.2.1
      · rename_i h; cases h; rfl
      · rename_i h h' ; cases h'; exact absurd rfl (h e t rfl)
      · rename_i h; cases h
    obtain ⟨s, hs⟩ := ih.2
    obtain ⟨c, hc⟩ := he.2.2
    rw [e', unq_esc he.1 he.2.1, unq_esc he.1 he.2.1, ih.1]
    exact ⟨rfl, _, .esc e c hc hs⟩
  | @uni a b c d t h1 h2 h3 h4 _ ih =>
    obtain ⟨n1, h1⟩ := Option.isSome_iff_exists.1 h1
    obtain ⟨n2, h2⟩ := Option.isSome_iff_exists.1 h2
    obtain ⟨n3, h3⟩ := Option.isSome_iff_exists.1 h3
    obtain ⟨n4, h4⟩ := Option.isSome_iff_exists.1 h4
    obtain ⟨s, hs⟩ := ih.2
    have hx : Hex4 a b c d _ := ⟨n1, n2, n3, n4, h1, h2, h3, h4, rfl⟩
    rw [ask.eq_1]
    by_cases hsur : 0xD800 ≤ n1 * 4096 + n2 * 256 + n3 * 16 + n4 ∧ n1 * 4096 + n2 * 256 + n3 * 16 + n4 < 0xE000
    · rw [if_pos (by simp only [isSurrogate, h1, h2, h3, h4]; simpa using hsur), unq_plain _ (by decide), unq_uni, uEscape_sur hx hsur.1 hsur.2, ih.1]
      exact ⟨rfl, _, .plain 63 (by decide) (by decide) (by decide) hs⟩
    · rw [if_neg (by simp only [isSurrogate, h1, h2, h3, h4]; simpa using hsur), unq_uni, unq_uni, ih.1]
      have b1 := (hexVal_range h1).2.2
      have b2 := (hexVal_range h2).2.2
      have b3 := (hexVal_range h3).2.2
      have b4 := (hexVal_range h4).2.2
      exact ⟨rfl, _, .uni a b c d n1 n2 n3 n4 h1 h2 h3 h4 (by unfold ValidRune; omega) hs⟩

/-! ### Numbers -/

/-- what the reader makes of a number -/
def numVal (F : FloatCodec) (t : Bytes) : Option Val :=
  if t.any isFloatCh then (F.parse t).map .f64 else (atoi t).map .int

theorem convNumber_val {F : FloatCodec} {t : Bytes} {v : Val} (h : numVal F t = some v) (r : Bytes) : convNumber F t r = .ok v r := by
  unfold numVal at h
  unfold convNumber
  split at h
  · rename_i hf
    rw [if_pos hf]
    cases hp : F.parse t with
    | none => rw [hp] at h; cases h
    | some x => rw [hp] at h; cases h; rfl
  · rename_i hf
    rw [if_neg hf]
    cases hp : atoi t with
    | none => rw [hp] at h; cases h
    | some x => rw [hp] at h; cases h; rfl

theorem numText_facts {t : Bytes} (h : NumText t) : (∃ c t', t = c :: t' ∧ (c = 45 ∨ isDigit c = true)) ∧ ∀ d ∈ t, isNumCh d = true := by
  obtain ⟨sign, ds, u, hs, hd, hu, rfl⟩ := h
  obtain ⟨c, t', ht, hc⟩ := intPart_ne hd
  have hall : ∀ d ∈ ds ++ u, isNumCh d = true := by
    intro d hm
    rcases List.mem_append.1 hm with hm | hm
    · exact isNumCh_digit (intPart_digits hd d hm)
    · rcases hu with rfl | hu
      · simp at hm
      · exact (fracExp_num hu).1 d hm
  rcases hs with rfl | rfl
  · exact ⟨⟨c, t' ++ u, by rw [ht]; rfl, .inr hc⟩, by simpa using hall⟩
  · refine ⟨⟨45, ds ++ u, rfl, .inl rfl⟩, ?_⟩
    intro d hm
    rcases List.mem_append.1 hm with hm | hm
    · simp at hm; subst hm; decide
    · exact hall d hm

theorem any_neg {ds : Bytes} (h : IntPart ds) : (45 :: ds).any isFloatCh = false := by
  rw [List.any_cons, any_float_digits (intPart_digits h)]; decide

/-- the reader takes exactly the numbers that fit, for what they stand for -/
theorem numVal_says {F : FloatCodec} {t : Bytes} {v : Val} (h : NumSays F t v) (hi : ∀ i, v = .int i → IsInt64 i) : numVal F t = some v := by
  unfold numVal
  rcases h with ⟨n, hd, hp, rfl⟩ | ⟨ds, n, rfl, hd, hp, rfl⟩ | ⟨sign, ds, u, x, hs, hd, hu, e, hx, rfl⟩
  · rw [if_neg (by rw [any_float_digits (intPart_digits hd)]; simp), atoi_nat hd hp (hi _ rfl)]; rfl
  · rw [if_neg (by rw [any_neg hd]; simp), atoi_neg hp (hi _ rfl)]; rfl
  · have : t.any isFloatCh = true := by
      rw [e, List.any_append, List.any_append, (fracExp_num hu).2, Bool.or_true, Bool.or_true]
    rw [if_pos this, hx]; rfl

theorem numFits_val {F : FloatCodec} {t : Bytes} (h : NumFits F t) : ∃ v, numVal F t = some v ∧ NumSays F t v := by
  obtain ⟨v, h1, h2⟩ := h
  exact ⟨v, numVal_says h1 h2, h1⟩

/-! ### What is read of a text -/

mutual
/-- what is read -/
def val (F : FloatCodec) : Tree → Val
  | .null => .null
  | .bool b => .bool b
  | .num t => (numVal F t).getD .null
  | .str t => .str (Json.unq t)
  | .arr l => .arr (valL F l)
  | .obj m => .obj (mapOf (valF F m))
def valL (F : FloatCodec) : List Tree → List Val
  | [] => []
  | T :: l => val F T :: valL F l
def valF (F : FloatCodec) : List (Bytes × Tree) → List (Bytes × Val)
  | [] => []
  | (k, T) :: m => (Json.unq k, val F T) :: valF F m
end

/-- all numbers fit -/
abbrev Tree.Nums (F : FloatCodec) (T : Tree) : Prop := T.All (NumFits F) fun _ => True
abbrev NumsL (F : FloatCodec) (l : List Tree) : Prop := AllL (NumFits F) (fun _ => True) l
abbrev NumsF (F : FloatCodec) (m : List (Bytes × Tree)) : Prop := AllF (NumFits F) (fun _ => True) m

theorem spells_head {T : Tree} {t : Bytes} (h : Spells T t) : ∃ c t', t = c :: t' ∧ isWhitespace c = false ∧ c ≠ 93 ∧ c ≠ 125 := by
  cases h with
  | null => exact ⟨_, _, rfl, by decide, by decide, by decide⟩
  | true => exact ⟨_, _, rfl, by decide, by decide, by decide⟩
  | false => exact ⟨_, _, rfl, by decide, by decide, by decide⟩
  | num t h =>
    obtain ⟨⟨c, t', rfl, hc⟩, _⟩ := numText_facts h
    refine ⟨c, t', rfl, ?_⟩
    rcases hc with rfl | hc
    · exact ⟨by decide, by decide, by decide⟩
    · have := (isDigit_iff c).mp hc
      refine ⟨notWS_digit hc, ?_, ?_⟩ <;> rintro rfl <;> simp at this
  | str t h => exact ⟨_, _, rfl, by decide, by decide, by decide⟩
  | arr0 w h => exact ⟨_, _, rfl, by decide, by decide, by decide⟩
  | arr l t h => exact ⟨_, _, rfl, by decide, by decide, by decide⟩
  | obj0 w h => exact ⟨_, _, rfl, by decide, by decide, by decide⟩
  | obj m t h => exact ⟨_, _, rfl, by decide, by decide, by decide⟩

theorem spellsL_head {l : List Tree} {t : Bytes} (h : SpellsL l t) :
    ∃ w c t', WS w ∧ t = w ++ c :: t' ∧ isWhitespace c = false ∧ c ≠ 93 := by
  cases h with
  | one v w t w' hw ht hw' =>
    obtain ⟨c, t', rfl, h1, h2, _⟩ := spells_head ht
    exact ⟨w, c, t' ++ w', hw, by simp, h1, h2⟩
  | cons v w t w' l t'' hw ht hw' hl =>
    obtain ⟨c, t', rfl, h1, h2, _⟩ := spells_head ht
    exact ⟨w, c, t' ++ (w' ++ 44 :: t''), hw, by simp, h1, h2⟩

theorem spellsF_head {l : List (Bytes × Tree)} {t : Bytes} (h : SpellsF l t) : ∃ w t', WS w ∧ t = w ++ 34 :: t' := by
  cases h with
  | one k v w w1 w2 t w' hw => exact ⟨w, _, hw, rfl⟩
  | cons k v w w1 w2 t w' m t' hw => exact ⟨w, _, hw, rfl⟩

mutual
/-- every text whose numbers fit reads cleanly -/
theorem value_spells {F : FloatCodec} : ∀ {T : Tree} {t : Bytes}, Spells T t → Tree.Nums F T → ∀ (f : Nat) (r : Bytes),
    2 * t.length + 1 ≤ f → NumEnd r → JsonClean.value F f (t ++ r) = some (val F T, r)
  | _, _, .null, _, f + 1, r, _, _ => by
    simp only [List.cons_append, List.nil_append, JsonClean.value, skipWS_cons (show isWhitespace 110 = false by decide)]
    rw [if_pos trivial]; exact lit_text b!"null" _ r
  | _, _, .true, _, f + 1, r, _, _ => by
    simp only [List.cons_append, List.nil_append, JsonClean.value, skipWS_cons (show isWhitespace 116 = false by decide)]
    rw [if_neg (by decide), if_pos trivial]; exact lit_text b!"true" _ r
  | _, _, .false, _, f + 1, r, _, _ => by
    simp only [List.cons_append, List.nil_append, JsonClean.value, skipWS_cons (show isWhitespace 102 = false by decide)]
    rw [if_neg (by decide), if_neg (by decide), if_pos trivial]; exact lit_text b!"false" _ r
  | _, _, .num t h, hn, f + 1, r, _, hr => by
    obtain ⟨⟨c, t', ht, hc⟩, hnum⟩ := numText_facts h
    obtain ⟨v, hv, _⟩ := numFits_val (by simpa only [Tree.Nums, Tree.All] using hn)
    rw [ht, List.cons_append, value_num F f _ hc, ← List.cons_append, ← ht, number_text F hnum hr (convNumber_val hv r)]
    simp [val, hv]
  | _, _, .str t h, _, f + 1, r, _, _ => by
    have e : 34 :: (t ++ [34]) ++ r = 34 :: (t ++ 34 :: r) := by simp
    rw [e]
    simp only [JsonClean.value, skipWS_cons (show isWhitespace 34 = false by decide)]
    rw [if_neg (by decide), if_neg (by decide), if_neg (by decide), if_pos trivial, stringBody_strText h]
    simp [val]
  | _, _, .arr0 w h, _, f + 2, r, _, _ => by
    have e : 91 :: (w ++ [93]) ++ r = 91 :: (w ++ 93 :: r) := by simp
    rw [e]
    simp only [JsonClean.value, skipWS_cons (show isWhitespace 91 = false by decide)]
    rw [if_neg (by decide), if_neg (by decide), if_neg (by decide), if_neg (by decide), if_neg (by decide),
      if_neg (by decide), if_pos trivial]
    simp only [JsonClean.array, token_ws h, token_self (show isWhitespace 93 = false by decide), val, valL]
  | _, _, .arr l t h, hn, f + 2, r, hf, _ => by
    have e : 91 :: (t ++ [93]) ++ r = 91 :: (t ++ 93 :: r) := by simp
    rw [e]
    simp only [JsonClean.value, skipWS_cons (show isWhitespace 91 = false by decide)]
    rw [if_neg (by decide), if_neg (by decide), if_neg (by decide), if_neg (by decide), if_neg (by decide),
      if_neg (by decide), if_pos trivial]
    have ht : Json.token 93 (t ++ 93 :: r) = none := by
      obtain ⟨w, c, t', hw, rfl, h1, h2⟩ := spellsL_head h
      rw [List.append_assoc, token_ws hw]; exact token_ne h1 h2 _
    obtain ⟨v, r', h1, h2⟩ := elems_spells h (by simpa only [Tree.Nums, Tree.All] using hn) f [] r (by simp at hf; omega)
    simp only [JsonClean.array, ht, h1, Option.bind_some]
    simpa [val] using h2
  | _, _, .obj0 w h, _, f + 2, r, _, _ => by
    have e : 123 :: (w ++ [125]) ++ r = 123 :: (w ++ 125 :: r) := by simp
    rw [e]
    simp only [JsonClean.value, skipWS_cons (show isWhitespace 123 = false by decide)]
    rw [if_neg (by decide), if_neg (by decide), if_neg (by decide), if_neg (by decide), if_neg (by decide),
      if_pos trivial]
    simp only [JsonClean.object, token_ws h, token_self (show isWhitespace 125 = false by decide), val, valF, mapOf, List.foldl_nil]
  | _, _, .obj m t h, hn, f + 2, r, hf, _ => by
    have e : 123 :: (t ++ [125]) ++ r = 123 :: (t ++ 125 :: r) := by simp
    rw [e]
    simp only [JsonClean.value, skipWS_cons (show isWhitespace 123 = false by decide)]
    rw [if_neg (by decide), if_neg (by decide), if_neg (by decide), if_neg (by decide), if_neg (by decide),
      if_pos trivial]
    have ht : Json.token 125 (t ++ 125 :: r) = none := by
      obtain ⟨w, t', hw, rfl⟩ := spellsF_head h
      rw [List.append_assoc, token_ws hw]; exact token_ne (by decide) (by decide) _
    obtain ⟨k, v, r', h1, h2⟩ := members_spells h (by simpa only [Tree.Nums, Tree.All] using hn) f [] r (by simp at hf; omega)
    simp only [JsonClean.object, ht, h1, Option.bind_some]
    simpa [val, mapOf] using h2
  | _, _, .arr0 w h, _, 1, r, hf, _ => by simp at hf
  | _, _, .arr l t h, _, 1, r, hf, _ => by simp at hf
  | _, _, .obj0 w h, _, 1, r, hf, _ => by simp at hf
  | _, _, .obj m t h, _, 1, r, hf, _ => by simp at hf
theorem elems_spells {F : FloatCodec} : ∀ {l : List Tree} {t : Bytes}, SpellsL l t → NumsL F l →
    ∀ (f : Nat) (acc : List Val) (r : Bytes), 2 * t.length + 2 ≤ f →
    ∃ v r', JsonClean.value F f (t ++ 93 :: r) = some (v, r') ∧ JsonClean.elements F f (acc ++ [v]) r' = some (.arr (acc ++ valL F l), r)
  | _, _, .one T w t w' hw ht hw', hn, f + 1, acc, r, hf => by
    refine ⟨val F T, w' ++ 93 :: r, ?_, ?_⟩
    · rw [List.append_assoc, List.append_assoc, value_ws hw]
      exact value_spells ht hn.1 _ _ (by simp at hf; omega) (numEnd_ws hw' (by decide) _)
    · simp only [JsonClean.elements, token_ws hw', token_self (show isWhitespace 93 = false by decide), valL]
  | _, _, .cons T w t w' l t' hw ht hw' hl, hn, f + 1, acc, r, hf => by
    refine ⟨val F T, w' ++ 44 :: (t' ++ 93 :: r), ?_, ?_⟩
    · have e : w ++ (t ++ (w' ++ 44 :: t')) ++ 93 :: r = w ++ (t ++ (w' ++ 44 :: (t' ++ 93 :: r))) := by simp
      rw [e, value_ws hw]
      exact value_spells ht hn.1 _ _ (by simp at hf; omega) (numEnd_ws hw' (by decide) _)
    · obtain ⟨v', r', h1, h2⟩ := elems_spells hl hn.2 f (acc ++ [val F T]) r (by simp at hf; omega)
      simp only [JsonClean.elements, token_ws hw', token_self (show isWhitespace 44 = false by decide),
        token_ne (show isWhitespace 44 = false by decide) (show (44 : UInt8) ≠ 93 by decide), h1, Option.bind_some]
      simpa [valL] using h2
theorem members_spells {F : FloatCodec} : ∀ {m : List (Bytes × Tree)} {t : Bytes}, SpellsF m t → NumsF F m →
    ∀ (f : Nat) (acc : List (Bytes × Val)) (r : Bytes), 2 * t.length + 2 ≤ f →
    ∃ k v r', JsonClean.pair F f (t ++ 125 :: r) = some ((k, v), r') ∧
      JsonClean.members F f (mapSet acc k v) r' = some (.obj ((valF F m).foldl (fun m kv => mapSet m kv.1 kv.2) acc), r)
  | _, _, .one k T w w1 w2 t w' hw hk hw1 hw2 ht hw', hn, f + 1, acc, r, hf => by
    have hlen : (w ++ 34 :: (k ++ 34 :: (w1 ++ 58 :: (w2 ++ (t ++ w'))))).length ≥ t.length + 3 := by simp; omega
    refine ⟨Json.unq k, val F T, w' ++ 125 :: r, ?_, ?_⟩
    · have e : w ++ 34 :: (k ++ 34 :: (w1 ++ 58 :: (w2 ++ (t ++ w')))) ++ 125 :: r
        = w ++ 34 :: (k ++ 34 :: (w1 ++ 58 :: (w2 ++ (t ++ (w' ++ 125 :: r))))) := by simp
      rw [e]
      rw [JsonClean.pair, string_ws hw]
      simp only [JsonClean.string, token_self (show isWhitespace 34 = false by decide), Option.bind_some,
        stringBody_strText hk, token_ws hw1, token_self (show isWhitespace 58 = false by decide)]
      rw [value_ws hw2, value_spells ht hn.2.1 f _ (by omega) (numEnd_ws hw' (by decide) _)]
      rfl
    · simp only [JsonClean.members, token_ws hw', token_self (show isWhitespace 125 = false by decide), valF, List.foldl]
  | _, _, .cons k T w w1 w2 t w' m t' hw hk hw1 hw2 ht hw' hm, hn, f + 1, acc, r, hf => by
    have hlen : (w ++ 34 :: (k ++ 34 :: (w1 ++ 58 :: (w2 ++ (t ++ (w' ++ 44 :: t')))))).length ≥
      t.length + t'.length + 4 := by simp; omega
    refine ⟨Json.unq k, val F T, w' ++ 44 :: (t' ++ 125 :: r), ?_, ?_⟩
    · have e : w ++ 34 :: (k ++ 34 :: (w1 ++ 58 :: (w2 ++ (t ++ (w' ++ 44 :: t'))))) ++ 125 :: r
        = w ++ 34 :: (k ++ 34 :: (w1 ++ 58 :: (w2 ++ (t ++ (w' ++ 44 :: (t' ++ 125 :: r)))))) := by simp
      rw [e]
      rw [JsonClean.pair, string_ws hw]
      simp only [JsonClean.string, token_self (show isWhitespace 34 = false by decide), Option.bind_some,
        stringBody_strText hk, token_ws hw1, token_self (show isWhitespace 58 = false by decide)]
      rw [value_ws hw2, value_spells ht hn.2.1 f _ (by omega) (numEnd_ws hw' (by decide) _)]
      rfl
    · obtain ⟨k', v', r', h1, h2⟩ := members_spells hm hn.2.2 f (mapSet acc (Json.unq k) (val F T)) r (by omega)
      simp only [JsonClean.members, token_ws hw', token_self (show isWhitespace 44 = false by decide),
        token_ne (show isWhitespace 44 = false by decide) (show (44 : UInt8) ≠ 125 by decide), h1, List.foldl, Option.bind_some, valF]
      exact h2
end

/-! ### Bodies -/

theorem entry_spells {F : FloatCodec} {T : Tree} {w t x : Bytes} (hw : WS w) (ht : Spells T t) (hn : Tree.Nums F T) (hx : NumEnd x) (i : Int) :
    JsonClean.entry F .array i (w ++ (t ++ x)) = some ({ index := i, value := val F T }, x) := by
  simp only [JsonClean.entry]
  rw [value_ws hw, value_spells ht hn _ _ (by unfold fuelFor; simp; omega) hx]; rfl

theorem entry_spellsF {F : FloatCodec} {T : Tree} {w k w1 w2 t x : Bytes} (hw : WS w) (hk : StrText k)
    (hw1 : WS w1) (hw2 : WS w2) (ht : Spells T t) (hn : Tree.Nums F T) (hx : NumEnd x) (i : Int) :
    JsonClean.entry F .object i (w ++ 34 :: (k ++ 34 :: (w1 ++ 58 :: (w2 ++ (t ++ x))))) =
      some ({ key := Json.unq k, value := val F T }, x) := by
  have : ∃ f, fuelFor (w ++ 34 :: (k ++ 34 :: (w1 ++ 58 :: (w2 ++ (t ++ x))))) = f + 1 ∧ 2 * t.length + 1 ≤ f := by
    refine ⟨fuelFor (w ++ 34 :: (k ++ 34 :: (w1 ++ 58 :: (w2 ++ (t ++ x))))) - 1, ?_, ?_⟩ <;> unfold fuelFor <;> simp <;> omega
  obtain ⟨f, hf, hf2⟩ := this
  simp only [JsonClean.entry, hf]
  rw [JsonClean.pair, string_ws hw]
  simp only [JsonClean.string, token_self (show isWhitespace 34 = false by decide), Option.bind_some,
    stringBody_strText hk, token_ws hw1, token_self (show isWhitespace 58 = false by decide)]
  rw [value_ws hw2, value_spells ht hn f _ hf2 hx]
  rfl

theorem clean_spellsL {F : FloatCodec} {l : List Tree} {t : Bytes} (h : SpellsL l t) (hv : NumsL F l) (n : Nat) (i : Int) (r : Bytes)
    (hn : l.length ≤ n) : ∃ e r', JsonClean.entry F .array i (t ++ 93 :: r) = some (e, r') ∧
      e :: (JsonClean.rest F .array n (i + 1) r').1 = indexed i (valL F l) ∧ (JsonClean.rest F .array n (i + 1) r').2 = true := by
  induction l generalizing t n i with
  | nil => cases h
  | cons T l ih =>
    cases h with
    | one _ w t w' hw ht hw' =>
      refine ⟨{ index := i, value := val F T }, w' ++ 93 :: r, ?_, ?_⟩
      · rw [List.append_assoc, List.append_assoc]; exact entry_spells hw ht hv.1 (numEnd_ws hw' (by decide) _) i
      · cases n with
        | zero => simp at hn
        | succ n =>
          simp [JsonClean.rest, closeCh, token_ws hw', token_self (show isWhitespace 93 = false by decide), indexed, valL]
    | cons _ w t w' _ t' hw ht hw' hl =>
      refine ⟨{ index := i, value := val F T }, w' ++ 44 :: (t' ++ 93 :: r), ?_, ?_⟩
      · rw [show w ++ (t ++ (w' ++ 44 :: t')) ++ 93 :: r = w ++ (t ++ (w' ++ 44 :: (t' ++ 93 :: r))) by simp]
        exact entry_spells hw ht hv.1 (numEnd_ws hw' (by decide) _) i
      · cases n with
        | zero => simp at hn
        | succ n =>
          obtain ⟨e, r', h1, h2, h3⟩ := ih hl hv.2 n (i + 1) (by simpa using hn)
          simp only [JsonClean.rest, closeCh, token_ws hw', Option.bind_some,
            token_self (show isWhitespace 44 = false by decide),
            token_ne (show isWhitespace 44 = false by decide) (show (44 : UInt8) ≠ 93 by decide), h1, h2, h3, indexed, valL]
          simp

theorem clean_spellsF {F : FloatCodec} {m : List (Bytes × Tree)} {t : Bytes} (h : SpellsF m t) (hv : NumsF F m) (n : Nat) (i : Int)
    (r : Bytes) (hn : m.length ≤ n) : ∃ e r', JsonClean.entry F .object i (t ++ 125 :: r) = some (e, r') ∧
      e :: (JsonClean.rest F .object n (i + 1) r').1 = keyed (valF F m) ∧ (JsonClean.rest F .object n (i + 1) r').2 = true := by
  induction m generalizing t n i with
  | nil => cases h
  | cons kv m ih =>
    obtain ⟨k, T⟩ := kv
    cases h with
    | one _ _ w w1 w2 t w' hw hk hw1 hw2 ht hw' =>
      refine ⟨{ key := Json.unq k, value := val F T }, w' ++ 125 :: r, ?_, ?_⟩
      · rw [show w ++ 34 :: (k ++ 34 :: (w1 ++ 58 :: (w2 ++ (t ++ w')))) ++ 125 :: r =
          w ++ 34 :: (k ++ 34 :: (w1 ++ 58 :: (w2 ++ (t ++ (w' ++ 125 :: r))))) by simp]
        exact entry_spellsF hw hk hw1 hw2 ht hv.2.1 (numEnd_ws hw' (by decide) _) i
      · cases n with
        | zero => simp at hn
        | succ n =>
          simp [JsonClean.rest, closeCh, token_ws hw', token_self (show isWhitespace 125 = false by decide), keyed, valF]
    | cons _ _ w w1 w2 t w' _ t' hw hk hw1 hw2 ht hw' hm =>
      refine ⟨{ key := Json.unq k, value := val F T }, w' ++ 44 :: (t' ++ 125 :: r), ?_, ?_⟩
      · rw [show w ++ 34 :: (k ++ 34 :: (w1 ++ 58 :: (w2 ++ (t ++ (w' ++ 44 :: t'))))) ++ 125 :: r =
          w ++ 34 :: (k ++ 34 :: (w1 ++ 58 :: (w2 ++ (t ++ (w' ++ 44 :: (t' ++ 125 :: r)))))) by simp]
        exact entry_spellsF hw hk hw1 hw2 ht hv.2.1 (numEnd_ws hw' (by decide) _) i
      · cases n with
        | zero => simp at hn
        | succ n =>
          obtain ⟨e, r', h1, h2, h3⟩ := ih hm hv.2.2 n (i + 1) (by simpa using hn)
          simp only [JsonClean.rest, closeCh, token_ws hw', Option.bind_some,
            token_self (show isWhitespace 44 = false by decide),
            token_ne (show isWhitespace 44 = false by decide) (show (44 : UInt8) ≠ 125 by decide), h1, h2, h3]
          simp [keyed, valF]

theorem spellsL_length {l : List Tree} {t : Bytes} (h : SpellsL l t) : l.length ≤ t.length := by
  induction l generalizing t with
  | nil => simp
  | cons v l ih =>
    cases h with
    | one _ w t w' hw ht hw' =>
      obtain ⟨c, t', rfl, _⟩ := spells_head ht
      simp; omega
    | cons _ w t w' _ t' hw ht hw' hl => have := ih hl; simp; omega

theorem spellsF_length {l : List (Bytes × Tree)} {t : Bytes} (h : SpellsF l t) : l.length ≤ t.length := by
  induction l generalizing t with
  | nil => simp
  | cons v l ih =>
    cases h with
    | one => simp; omega
    | cons k v w w1 w2 t w' m t' hw hk hw1 hw2 ht hw' hm => have := ih hm; simp; omega

theorem body_spellsL {F : FloatCodec} {l : List Tree} {t w : Bytes} (hw : WS w) (h : SpellsL l t) (hv : NumsL F l) (r : Bytes) :
    JsonClean.body F .array (w ++ 91 :: (t ++ 93 :: r)) = (indexed 0 (valL F l), true) := by
  have hlen := spellsL_length h
  obtain ⟨w', c, t', hw', ht', h1, h2⟩ := spellsL_head h
  have hnone : Json.token 93 (t ++ 93 :: r) = none := by
    rw [ht', List.append_assoc, token_ws hw']; exact token_ne h1 h2 _
  obtain ⟨e, r', h3, h4, h5⟩ := clean_spellsL h hv (t ++ 93 :: r).length 0 r (by simp; omega)
  simp only [JsonClean.body, openCh, closeCh, token_ws hw, token_self (show isWhitespace 91 = false by decide), hnone, h3]
  simp only [Int.zero_add] at h4 h5
  rw [h4, h5]

theorem body_spellsF {F : FloatCodec} {m : List (Bytes × Tree)} {t w : Bytes} (hw : WS w) (h : SpellsF m t) (hv : NumsF F m) (r : Bytes) :
    JsonClean.body F .object (w ++ 123 :: (t ++ 125 :: r)) = (keyed (valF F m), true) := by
  have hlen := spellsF_length h
  obtain ⟨w', t', hw', ht'⟩ := spellsF_head h
  have hnone : Json.token 125 (t ++ 125 :: r) = none := by
    rw [ht', List.append_assoc, token_ws hw']; exact token_ne (by decide) (by decide) _
  obtain ⟨e, r', h3, h4, h5⟩ := clean_spellsF h hv (t ++ 125 :: r).length 0 r (by simp; omega)
  simp only [JsonClean.body, openCh, closeCh, token_ws hw, token_self (show isWhitespace 123 = false by decide), hnone, h3]
  simp only [Int.zero_add] at h4 h5
  rw [h4, h5]

/-- array bodies whose numbers fit -/
theorem readAll_spellsL (F : FloatCodec) (E : Env) (size : Nat) (reads : List Nat) {l : List Tree} {w t : Bytes} (hw : WS w) (h : Spells (.arr l) t)
    (hn : NumsL F l) (r : Bytes) : readAll F E .array size reads (w ++ (t ++ r)) = (indexed 0 (valL F l), .eof) := by
  cases h with
  | arr0 w1 h1 =>
    have hb := body_arr0 F hw h1 r
    have := (readAll_clean F E .array size reads (w ++ 91 :: (w1 ++ 93 :: r))).2 (by rw [hb])
    rw [hb] at this
    simpa [valL, indexed] using this
  | arr _ u hu =>
    have hb := body_spellsL hw hu hn r
    have := (readAll_clean F E .array size reads (w ++ 91 :: (u ++ 93 :: r))).2 (by rw [hb])
    rw [hb] at this
    simpa using this

/-- object bodies whose numbers fit -/
theorem readAll_spellsF (F : FloatCodec) (E : Env) (size : Nat) (reads : List Nat) {m : List (Bytes × Tree)} {w t : Bytes} (hw : WS w) (h : Spells (.obj m) t)
    (hn : NumsF F m) (r : Bytes) : readAll F E .object size reads (w ++ (t ++ r)) = (keyed (valF F m), .eof) := by
  cases h with
  | obj0 w1 h1 =>
    have hb := body_obj0 F hw h1 r
    have := (readAll_clean F E .object size reads (w ++ 123 :: (w1 ++ 125 :: r))).2 (by rw [hb])
    rw [hb] at this
    simpa [valF, keyed] using this
  | obj _ u hu =>
    have hb := body_spellsF hw hu hn r
    have := (readAll_clean F E .object size reads (w ++ 123 :: (u ++ 125 :: r))).2 (by rw [hb])
    rw [hb] at this
    simpa using this

/-! ### Integers that are read -/

mutual
/-- every integer fits 64 bits -/
def IntsFit : Val → Prop
  | .int i => IsInt64 i
  | .arr l => IntsFitL l
  | .obj m => IntsFitM m
  | _ => True
def IntsFitL : List Val → Prop
  | [] => True
  | v :: l => IntsFit v ∧ IntsFitL l
def IntsFitM : List (Bytes × Val) → Prop
  | [] => True
  | (_, v) :: m => IntsFit v ∧ IntsFitM m
end

theorem intsFitM_iff {m : List (Bytes × Val)} : IntsFitM m ↔ ∀ x ∈ m, IntsFit x.2 := by
  induction m with
  | nil => simp [IntsFitM]
  | cons x m ih => obtain ⟨k, v⟩ := x; simp [IntsFitM, ih]

theorem intsFitL_iff {l : List Val} : IntsFitL l ↔ ∀ x ∈ l, IntsFit x := by
  induction l with
  | nil => simp [IntsFitL]
  | cons x m ih => simp [IntsFitL, ih]

theorem intsFitM_set {m : List (Bytes × Val)} (h : IntsFitM m) (k : Bytes) {v : Val} (hv : IntsFit v) : IntsFitM (mapSet m k v) := by
  rw [intsFitM_iff] at h ⊢
  intro x hx
  rcases mem_mapSet hx with rfl | hx
  · exact hv
  · exact h x hx

theorem atoi_int64 {t : Bytes} {i : Int} (h : atoi t = some i) : IsInt64 i := by
  unfold atoi at h
  split at h
  · cases h
  · simp only at h
    split at h
    · cases h
    · rw [Option.ite_none_right_eq_some, Option.some.injEq] at h
      exact h.2 ▸ h.1

theorem readNumber_ints {F : FloatCodec} {E : Env} {st st' : St} {v : Val} (h : readNumber F E st = .ok v st') : IntsFit v := by
  unfold readNumber at h
  simp only at h
  split at h
  · rename_i u r hc
    cases h
    unfold convNumber at hc
    split at hc
    · split at hc
      · cases hc; trivial
      · cases hc
    · split at hc
      · rename_i i hi
        cases hc; exact atoi_int64 hi
      · cases hc
  · cases h

theorem readLit_val {E : Env} {tok : Bytes} {v u : Val} {e : Err} {st st' : St} (h : readLit E tok v e st = .ok u st') : u = v := by
  unfold readLit at h
  simp only at h
  split at h
  · cases h
  · split at h
    · cases h; rfl
    · cases h

/-- the reader delivers no other integers -/
theorem read_ints (F : FloatCodec) (E : Env) (f : Nat) :
    (∀ st v st', readValue F E f st = .ok v st' → IntsFit v) ∧
    (∀ st v st', readObject F E f st = .ok v st' → IntsFit v) ∧
    (∀ m st v st', IntsFitM m → readObjectRest F E f m st = .ok v st' → IntsFit v) ∧
    (∀ st v st', readArray F E f st = .ok v st' → IntsFit v) ∧
    (∀ l st v st', IntsFitL l → readArrayRest F E f l st = .ok v st' → IntsFit v) ∧
    (∀ st kv st', readPair F E f st = .ok kv st' → IntsFit kv.2) := by
  induction f with
  | zero =>
    refine ⟨?_, ?_, ?_, ?_, ?_, ?_⟩ <;> intros <;> rename_i h <;> cases h
  | succ f ih =>
    obtain ⟨ihV, ihO, ihOR, ihA, ihAR, ihP⟩ := ih
    refine ⟨?_, ?_, ?_, ?_, ?_, ?_⟩
    · intro st v st' h
      simp only [readValue] at h
      split at h
      · cases h; trivial
      · split at h
        · rw [readLit_val h]; trivial
        split at h
        · rw [readLit_val h]; trivial
        split at h
        · rw [readLit_val h]; trivial
        split at h
        · split at h
          · cases h; trivial
          · cases h
          · cases h
        split at h
        · exact readNumber_ints h
        split at h
        · exact ihO _ _ _ h
        split at h
        · exact ihA _ _ _ h
        · cases h; trivial
    · intro st v st' h
      simp only [readObject] at h
      split at h
      · cases h; trivial
      · split at h
        · cases h
        · cases h
        · rename_i k u s hp
          exact ihOR _ _ _ _ (intsFitM_set (m := []) trivial _ (ihP _ _ _ hp)) h
    · intro m st v st' hm h
      simp only [readObjectRest] at h
      split at h
      · cases h; exact hm
      · split at h
        · cases h
        · split at h
          · cases h
          · cases h
          · rename_i k u s hp
            exact ihOR _ _ _ _ (intsFitM_set hm _ (ihP _ _ _ hp)) h
    · intro st v st' h
      simp only [readArray] at h
      split at h
      · cases h; trivial
      · split at h
        · cases h
        · cases h; trivial
        · rename_i u s hp
          exact ihAR _ _ _ _ (show IntsFitL [u] from ⟨ihV _ _ _ hp, trivial⟩) h
    · intro l st v st' hl h
      simp only [readArrayRest] at h
      split at h
      · cases h; exact hl
      · split at h
        · cases h
        · split at h
          · cases h
          · cases h
          · rename_i u s hp
            refine ihAR _ _ _ _ ?_ h
            rw [intsFitL_iff] at hl ⊢
            intro x hx
            rcases List.mem_append.1 hx with hx | hx
            · exact hl x hx
            · rw [List.mem_singleton.1 hx]; exact ihV _ _ _ hp
    · intro st kv st' h
      simp only [readPair] at h
      split at h
      · cases h
      · cases h
      · split at h
        · cases h
        · split at h
          · cases h
          · cases h
          · rename_i u s hp
            cases h; exact ihV _ _ _ hp

theorem readBody_ints {F : FloatCodec} {E : Env} {tl : TopLevel} {f : Nat} {n : Int} {st : St} {e : Entry} {r : Reader}
    (h : readBody F E tl f n st = .entry e r) : IntsFit e.value := by
  unfold readBody at h
  split at h
  · split at h
    · rename_i k v s hp
      cases h; exact (read_ints F E f).2.2.2.2.2 _ _ _ hp
    · cases h
    · cases h
  · split at h
    · rename_i v s hp
      cases h; exact (read_ints F E f).1 _ _ _ hp
    · cases h
    · cases h

theorem readEntry_ints {F : FloatCodec} {E : Env} {tl : TopLevel} {r r' : Reader} {e : Entry} (h : readEntry F E tl r = .entry e r') : IntsFit e.value := by
  unfold readEntry at h
  simp only at h
  split at h
  · split at h
    · cases h
    · split at h
      · cases h
      · exact readBody_ints h
  · split at h
    · cases h
    · split at h
      · cases h
      · exact readBody_ints h

theorem readLoop_ints (F : FloatCodec) (E : Env) (tl : TopLevel) : ∀ (n : Nat) (r : Reader), ∀ e ∈ (readLoop F E tl n r).1, IntsFit e.value
  | 0, _ => by simp [readLoop]
  | n + 1, r => by
    intro e he
    rw [readLoop] at he
    split at he
    · simp at he
    · simp at he
    · simp at he
    · rename_i e' r' h
      rcases List.mem_cons.1 he with rfl | he
      · exact readEntry_ints h
      · exact readLoop_ints F E tl n r' e he

theorem indexed_ints {l : List Val} {i : Int} (h : ∀ e ∈ indexed i l, IntsFit e.value) : IntsFitL l := by
  induction l generalizing i with
  | nil => trivial
  | cons v l ih =>
    simp only [indexed, List.mem_cons, forall_eq_or_imp] at h
    exact ⟨h.1, ih h.2⟩

theorem keyed_ints {m : List (Bytes × Val)} (h : ∀ e ∈ keyed m, IntsFit e.value) : IntsFitM m := by
  rw [intsFitM_iff]
  intro x hx
  exact h _ (List.mem_map_of_mem hx)

theorem indexed_inj {l l' : List Val} {i : Int} (h : indexed i l = indexed i l') : l = l' := by
  induction l generalizing i l' with
  | nil => cases l' with
    | nil => rfl
    | cons => simp [indexed] at h
  | cons v l ih => cases l' with
    | nil => simp [indexed] at h
    | cons v' l' =>
      simp only [indexed, List.cons.injEq, Entry.mk.injEq, true_and] at h
      rw [h.1, ih h.2]

theorem keyed_inj {m m' : List (Bytes × Val)} (h : keyed m = keyed m') : m = m' := by
  induction m generalizing m' with
  | nil => cases m' with
    | nil => rfl
    | cons => simp [keyed] at h
  | cons v l ih => cases m' with
    | nil => simp [keyed] at h
    | cons v' l' =>
      simp only [keyed, List.map_cons, List.cons.injEq, Entry.mk.injEq, true_and] at h
      obtain ⟨h1, h2⟩ := h
      rw [ih h2]
      obtain ⟨a, b⟩ := v
      obtain ⟨c, d⟩ := v'
      simp_all

end Verif.JsonBuf
