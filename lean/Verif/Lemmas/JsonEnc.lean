import Verif.Spec.JsonValues
import Verif.Lemmas.Json
/- `json.Marshal` and `json.MarshalIndent` output lies in the JSON grammar. -/
namespace Verif.Json
open JsonG

/-! ### Strings -/

theorem escBody_skip (l s : Bytes) : escBody l.length (l ++ s) = escBody 0 s := by
  induction l with
  | nil => rfl
  | cons c l ih => simpa [escBody] using ih

theorem strBody_append_high {s t l : Bytes} (h : ∀ b ∈ l, 0x80 ≤ b.toNat) (hs : StrBody s t) :
    StrBody (l ++ s) (l ++ t) := by
  induction l with
  | nil => exact hs
  | cons c l ih =>
    have hc := h c (by simp)
    refine StrBody.plain c ?_ ?_ ?_ (ih (fun b hb => h b (by simp [hb])))
    · rw [UInt8.le_iff_toNat_le]; have : (0x20 : UInt8).toNat = 32 := rfl; omega
    · rintro rfl; simp at hc
    · rintro rfl; simp at hc

theorem escAscii_body {b : UInt8} (hb : b < 0x80) {s t : Bytes} (h : StrBody s t) :
    StrBody (b :: s) (escAscii b ++ t) := by
  unfold escAscii
  split
  · rename_i hs
    simp only [htmlSafe, Bool.and_eq_true, decide_eq_true_eq, bne_iff_ne] at hs
    exact StrBody.plain b hs.1.1.1.1.1.1 hs.1.1.1.1.2 hs.2 h
  · split
    · rename_i hq
      exact StrBody.esc b b (by rcases hq with rfl | rfl <;> decide) h
    · split
      · rename_i hq; subst hq; exact StrBody.esc 110 10 (by decide) h
      · split
        · rename_i hq; subst hq; exact StrBody.esc 114 13 (by decide) h
        · split
          · rename_i hq; subst hq; exact StrBody.esc 116 9 (by decide) h
          · rw [UInt8.lt_iff_toNat_lt] at hb
            have hb : b.toNat < 128 := hb
            have h1 : hexVal (hexDigit (b.toNat / 16)) = some (b.toNat / 16) := hexVal_hexDigit _ (by omega)
            have h2 : hexVal (hexDigit (b.toNat % 16)) = some (b.toNat % 16) := hexVal_hexDigit _ (by omega)
            have e : 0 * 4096 + 0 * 256 + b.toNat / 16 * 16 + b.toNat % 16 = b.toNat := by omega
            have := StrBody.uni 48 48 _ _ 0 0 _ _ (by decide) (by decide) h1 h2
              (by rw [e]; exact Or.inl (by omega)) h
            rw [e, utf8Enc_ascii hb, UInt8.ofNat_toNat] at this
            exact this

theorem escBody_drop (k : Nat) (s : Bytes) (h : k ≤ s.length) : escBody k s = escBody 0 (s.drop k) := by
  have := escBody_skip (s.take k) (s.drop k)
  rwa [List.take_append_drop, List.length_take, Nat.min_eq_left h] at this

theorem toValidUtf8_drop (k : Nat) (s : Bytes) (h : k ≤ s.length) :
    toValidUtf8 k s = toValidUtf8 0 (s.drop k) := by
  have := toValidUtf8_skip (s.take k) (s.drop k)
  rwa [List.take_append_drop, List.length_take, Nat.min_eq_left h] at this

/-- every marshalled string denotes the string with invalid bytes replaced -/
theorem escBody_body (s : Bytes) : StrBody (toValidUtf8 0 s) (escBody 0 s) := by
  suffices H : ∀ n (s : Bytes), s.length ≤ n → StrBody (toValidUtf8 0 s) (escBody 0 s) from H _ s (Nat.le_refl _)
  intro n
  induction n with
  | zero =>
    intro s hs
    cases s with
    | nil => exact StrBody.nil
    | cons => simp at hs
  | succ n ih =>
    intro s hs
    cases s with
    | nil => exact StrBody.nil
    | cons b t =>
      simp only [List.length_cons] at hs
      by_cases hb : b < 0x80
      · have hd : utf8Dec (b :: t) = (b.toNat, 1) := by
          rw [UInt8.lt_iff_toNat_lt] at hb
          simp only [utf8Dec, if_pos (show b.toNat < 0x80 from hb)]
        have he : utf8Enc b.toNat = [b] := by
          rw [UInt8.lt_iff_toNat_lt] at hb
          rw [utf8Enc_ascii hb, UInt8.ofNat_toNat]
        rw [escBody.eq_def, toValidUtf8.eq_def]
        simp only [if_pos hb, hd, he, List.singleton_append, Nat.sub_self]
        exact escAscii_body hb (ih t (by omega))
      · have hb' : 0x80 ≤ b.toNat := by
          rw [UInt8.lt_iff_toNat_lt] at hb
          have e : (0x80 : UInt8).toNat = 128 := rfl
          omega
        rw [escBody.eq_def, toValidUtf8.eq_def]
        simp only [if_neg hb]
        rcases utf8Enc_dec b t with ⟨h1, h2⟩ | ⟨hv, h1, h2, h3⟩
        · rw [if_pos ⟨h1, h2⟩, h1, h2]
          exact StrBody.uni 102 102 102 100 15 15 15 13 (by decide) (by decide) (by decide) (by decide) (by decide)
            (ih t (by omega))
        · generalize utf8Dec (b :: t) = p at *
          obtain ⟨c, k⟩ := p
          simp only at *
          have hc : 0x80 ≤ c := by
            apply Nat.le_of_not_lt
            intro hlt
            rw [utf8Enc_ascii hlt] at h1
            cases k with
            | zero => omega
            | succ k =>
              simp at h1
              rw [← h1.1, ofNat_toNat (by omega)] at hb'
              omega
          have hne : ¬ (c = runeError ∧ k = 1) := by
            rintro ⟨rfl, rfl⟩
            rw [show utf8Enc runeError = [0xEF, 0xBF, 0xBD] by decide] at h1
            simp at h1
          simp only [List.length_cons] at h3
          rw [if_neg hne, escBody_drop _ _ (by omega), toValidUtf8_drop _ _ (by omega)]
          have IH := ih (t.drop (k - 1)) (by simp; omega)
          split
          · rename_i hq; subst hq
            exact StrBody.uni 50 48 50 56 2 0 2 8 (by decide) (by decide) (by decide) (by decide) (by decide) IH
          · split
            · rename_i hq; subst hq
              exact StrBody.uni 50 48 50 57 2 0 2 9 (by decide) (by decide) (by decide) (by decide) (by decide) IH
            · rw [← h1]
              exact strBody_append_high (utf8Enc_high hc hv) IH

theorem b64Digit_ok : ∀ n < 64, 0x20 ≤ b64Digit n ∧ b64Digit n ≠ 34 ∧ b64Digit n ≠ 92 := by decide

theorem base64_body (s : Bytes) : StrBody (base64 s) (base64 s) := by
  have P : ∀ n < 64, ∀ {s t}, StrBody s t → StrBody (b64Digit n :: s) (b64Digit n :: t) :=
    fun n hn _ _ h => StrBody.plain _ (b64Digit_ok n hn).1 (b64Digit_ok n hn).2.1 (b64Digit_ok n hn).2.2 h
  have E : ∀ {s t}, StrBody s t → StrBody (61 :: s) (61 :: t) :=
    fun h => StrBody.plain _ (by decide) (by decide) (by decide) h
  fun_induction base64 s with
  | case1 => exact StrBody.nil
  | case2 a =>
    have := a.toNat_lt
    exact P _ (by omega) (P _ (by omega) (E (E StrBody.nil)))
  | case3 a b =>
    have := a.toNat_lt
    have := b.toNat_lt
    exact P _ (by omega) (P _ (by omega) (P _ (by omega) (E StrBody.nil)))
  | case4 a b c t ih =>
    have := a.toNat_lt
    have := b.toNat_lt
    have := c.toNat_lt
    exact P _ (by omega) (P _ (by omega) (P _ (by omega) (P _ (by omega) ih)))

/-! ### Integers -/

theorem fmtNatF_head (f n : Nat) (h : n ≤ f) (hn : 0 < n) :
    ∃ c t, fmtNatF f n = c :: t ∧ c ≠ 48 := by
  induction f generalizing n with
  | zero => omega
  | succ f ih =>
    simp only [fmtNatF]
    split
    · rename_i h10
      refine ⟨digit n, [], rfl, ?_⟩
      intro e
      have := digit_toNat h10
      rw [e] at this
      have e48 : (48 : UInt8).toNat = 48 := rfl
      omega
    · obtain ⟨c, t, h1, h2⟩ := ih (n / 10) (by omega) (by omega)
      exact ⟨c, t ++ [digit (n % 10)], by rw [h1]; rfl, h2⟩

theorem fmtNat_intPart (n : Nat) : IntPart (fmtNat n) := by
  by_cases h : n = 0
  · subst h; exact IntPart.zero
  · obtain ⟨c, t, h1, h2⟩ := fmtNatF_head n n (Nat.le_refl n) (by omega)
    have hd := fmtNatF_digits n n
    unfold fmtNat
    rw [h1] at hd ⊢
    exact IntPart.nonzero c t (hd c (by simp)) h2 (fun d hd' => hd d (by simp [hd']))

theorem fmtInt_text (F : FloatCodec) (i : Int) (h : IsInt64 i) : Text F (.int i) (fmtInt i) := by
  unfold fmtInt
  split
  · rename_i hneg
    have e : -(((-i).toNat : Nat) : Int) = i := by omega
    have := Text.neg (F := F) _ _ (fmtNat_intPart (-i).toNat) (parseNat_fmtNat _) (by rw [e]; exact h)
    rwa [e] at this
  · have e : ((i.toNat : Nat) : Int) = i := by omega
    have := Text.nat (F := F) _ _ (fmtNat_intPart i.toNat) (parseNat_fmtNat _) (by rw [e]; exact h)
    rwa [e] at this

/-! ### Values -/

theorem parseNatAux_nondigit {s : Bytes} (h : ∃ c ∈ s, isDigit c = false) (acc : Nat) : parseNatAux acc s = none := by
  induction s generalizing acc with
  | nil => simp at h
  | cons c s ih =>
    simp only [parseNatAux]
    split
    · rename_i hd
      obtain ⟨d, hd1, hd2⟩ := h
      simp only [List.mem_cons] at hd1
      rcases hd1 with rfl | hd1
      · rw [hd] at hd2; simp at hd2
      · exact ih ⟨d, hd1, hd2⟩ _
    · rfl

theorem atoi_floatOK {F : FloatCodec} {x : UInt64} (h : FloatOK F x) : atoi (F.fmt x) = none := by
  obtain ⟨sign, t, u, hs, ht, hu, he, _⟩ := h
  rw [he]
  obtain ⟨c, t', rfl, hc⟩ := intPart_ne ht
  have hnd : ∃ d ∈ c :: t' ++ u, isDigit d = false := by
    cases hu with
    | frac v h1 h2 => exact ⟨46, by simp, by decide⟩
    | exp e sg v h1 h2 h3 h4 => exact ⟨e, by simp, by rcases h1 with rfl | rfl <;> decide⟩
    | both v e sg w h1 h2 h3 h4 h5 h6 => exact ⟨46, by simp, by decide⟩
  have hp : parseNat (c :: t' ++ u) = none := by
    rw [parseNat_eq (by simp)]; exact parseNatAux_nondigit hnd 0
  rcases hs with rfl | rfl
  · have hd := (isDigit_iff c).mp hc
    have h1 : c ≠ 45 := by rintro rfl; simp at hd
    have h2 : c ≠ 43 := by rintro rfl; simp at hd
    rw [List.nil_append, List.cons_append]
    rw [List.cons_append] at hp
    simp only [atoi, h1, h2, or_self, if_false, hp]
  · rw [List.singleton_append]
    simp only [atoi, true_or, if_true, hp]

theorem float_text {F : FloatCodec} {x : UInt64} (h : FloatOK F x ∨ FloatAsInt F x) :
    Text F (norm F (.f64 x)) (F.fmt x) := by
  rcases h with h | ⟨i, hi, he⟩
  · simp only [norm, atoi_floatOK h]
    obtain ⟨sign, t, u, hs, ht, hu, he, hp⟩ := h
    rw [he] at hp ⊢
    rcases hs with rfl | rfl
    · exact Text.float t u x ht hu hp
    · exact Text.negFloat t u x ht hu hp
  · simp only [norm, he, atoi_fmtInt i hi]
    exact fmtInt_text F i hi

theorem foldl_mapSet_sorted {α : Type} (acc m : List (Bytes × α)) (h : KeysSorted (acc ++ m)) :
    m.foldl (fun m kv => mapSet m kv.1 kv.2) acc = acc ++ m := by
  induction m generalizing acc with
  | nil => simp
  | cons kv m ih =>
    simp only [List.foldl]
    have : mapSet acc kv.1 kv.2 = acc ++ [kv] := by
      apply mapSet_append
      intro p hp
      simp only [KeysSorted, List.pairwise_append] at h
      exact h.2.2 p hp kv (by simp)
    rw [this, ih _ (by simpa using h)]
    simp

theorem mapOf_sorted {α : Type} {m : List (Bytes × α)} (h : KeysSorted m) : mapOf m = m :=
  foldl_mapSet_sorted [] m h

theorem ws_nil : WS [] := by intro c hc; simp at hc

mutual
theorem enc_text (F : FloatCodec) : ∀ (v : Val), Writable F v → Text F (norm F v) (enc F v)
  | .null, _ => by simp only [enc, norm]; exact Text.null
  | .bool true, _ => by simp only [enc, norm]; exact Text.true
  | .bool false, _ => by simp only [enc, norm]; exact Text.false
  | .int i, h => by simp only [enc, norm]; exact fmtInt_text F i h
  | .gint i, h => by simp only [enc, norm]; exact fmtInt_text F i h
  | .f64 x, h => by simp only [enc]; simp only [Writable] at h; exact float_text h.1
  | .str s, h => by simp only [enc, jsonStr, norm]; exact Text.str _ _ (escBody_body s)
  | .bytes s, h => by simp only [enc, norm]; exact Text.str _ _ (base64_body s)
  | .arr [], _ => by simp only [enc, encL, norm, normL]; exact Text.arr0 [] ws_nil
  | .arr (v :: l), h => by
    simp only [Writable] at h
    simp only [enc, norm]; exact Text.arr _ _ (encL_text F (v :: l) nofun h)
  | .obj [], _ => by simp only [enc, encF, norm, normF, mapOf, List.foldl]; exact Text.obj0 [] ws_nil
  | .obj ((k, v) :: m), h => by
    simp only [Writable] at h
    simp only [enc, norm]
    exact Text.obj _ _ (encF_text F ((k, v) :: m) nofun h)
theorem encL_text (F : FloatCodec) : ∀ (l : List Val), l ≠ [] → WritableL F l → Elems F (normL F l) (encL F l)
  | [], h, _ => absurd rfl h
  | [v], _, h => by
    simp only [WritableL] at h
    simpa [encL, normL] using Elems.one (norm F v) [] _ [] ws_nil (enc_text F v h.1) ws_nil
  | v :: w :: l, _, h => by
    rw [WritableL] at h
    simpa [encL, normL] using
      Elems.cons (norm F v) [] _ [] _ _ ws_nil (enc_text F v h.1) ws_nil (encL_text F (w :: l) nofun h.2)
theorem encF_text (F : FloatCodec) : ∀ (m : List (Bytes × Val)), m ≠ [] → WritableF F m →
    Members F (normF F m) (encF F m)
  | [], h, _ => absurd rfl h
  | [(k, v)], _, h => by
    simp only [WritableF] at h
    simpa [encF, jsonStr, normF] using
      Members.one _ _ [] _ [] [] _ [] ws_nil (escBody_body k) ws_nil ws_nil (enc_text F v h.1) ws_nil
  | (k, v) :: (k', w) :: m, _, h => by
    rw [WritableF] at h
    simpa [encF, jsonStr, normF] using
      Members.cons _ _ [] _ [] [] _ [] _ _ ws_nil (escBody_body k) ws_nil ws_nil (enc_text F v h.1) ws_nil
        (encF_text F ((k', w) :: m) nofun h.2)
end

theorem ws_append {a b : Bytes} (ha : WS a) (hb : WS b) : WS (a ++ b) := by
  intro c hc; rw [List.mem_append] at hc; rcases hc with hc | hc
  · exact ha c hc
  · exact hb c hc

theorem ws_cons {c : UInt8} (hc : c = 32 ∨ c = 10 ∨ c = 13 ∨ c = 9) {b : Bytes} (hb : WS b) : WS (c :: b) := by
  intro d hd; simp only [List.mem_cons] at hd; rcases hd with rfl | hd
  · exact hc
  · exact hb d hd

theorem ws_space : WS [32] := ws_cons (by decide) ws_nil

theorem ws_jsonNL {pre ind : Bytes} (hp : WS pre) (hi : WS ind) (d : Nat) : WS (jsonNL pre ind d) := by
  refine ws_cons (by decide) (ws_append hp ?_)
  intro c hc
  simp only [List.mem_flatten] at hc
  obtain ⟨l, hl, hc⟩ := hc
  rw [(List.mem_replicate.mp hl).2] at hc
  exact hi c hc

theorem elems_ws {F : FloatCodec} {l : List Val} {t w w' : Bytes} (hw : WS w) (hw' : WS w') (h : Elems F l t) :
    Elems F l (w ++ t ++ w') := by
  induction l generalizing t w with
  | nil => cases h
  | cons v l ih =>
    cases h with
    | one _ w1 t w2 h1 ht h2 =>
      simpa using Elems.one v (w ++ w1) t (w2 ++ w') (ws_append hw h1) ht (ws_append h2 hw')
    | cons _ w1 t w2 _ t' h1 ht h2 hl =>
      have := ih ws_nil hl
      simpa using Elems.cons v (w ++ w1) t w2 l _ (ws_append hw h1) ht h2 this

theorem members_ws {F : FloatCodec} {m : List (Bytes × Val)} {t w w' : Bytes} (hw : WS w) (hw' : WS w')
    (h : Members F m t) : Members F m (w ++ t ++ w') := by
  induction m generalizing t w with
  | nil => cases h
  | cons kv m ih =>
    obtain ⟨k, v⟩ := kv
    cases h with
    | one _ _ w0 kt w1 w2 t w3 h0 hk h1 h2 ht h3 =>
      simpa using Members.one k v (w ++ w0) kt w1 w2 t (w3 ++ w') (ws_append hw h0) hk h1 h2 ht (ws_append h3 hw')
    | cons _ _ w0 kt w1 w2 t w3 _ t' h0 hk h1 h2 ht h3 hm =>
      have := ih ws_nil hm
      simpa using Members.cons k v (w ++ w0) kt w1 w2 t w3 m _ (ws_append hw h0) hk h1 h2 ht h3 this

mutual
theorem encP_text (F : FloatCodec) {pre ind : Bytes} (hp : WS pre) (hi : WS ind) :
    ∀ (v : Val) (d : Nat), Writable F v → Text F (norm F v) (encP F pre ind d v)
  | .null, _, h | .bool _, _, h | .int _, _, h | .gint _, _, h | .f64 _, _, h | .str _, _, h
  | .bytes _, _, h => by simp only [encP]; exact enc_text F _ h
  | .arr [], _, _ => by simp only [encP, norm, normL]; exact Text.arr0 [] ws_nil
  | .arr (v :: l), d, h => by
    simp only [Writable] at h
    have := elems_ws (ws_jsonNL hp hi (d + 1)) (ws_jsonNL hp hi d) (encPL_text F hp hi (v :: l) (d + 1) nofun h)
    simpa [encP, norm] using Text.arr _ _ this
  | .obj [], _, _ => by simp only [encP, norm, normF]; exact Text.obj0 [] ws_nil
  | .obj ((k, v) :: m), d, h => by
    simp only [Writable] at h
    have := members_ws (ws_jsonNL hp hi (d + 1)) (ws_jsonNL hp hi d) (encPF_text F hp hi ((k, v) :: m) (d + 1) nofun h)
    have := Text.obj _ _ this
    simpa [encP, norm] using this
theorem encPL_text (F : FloatCodec) {pre ind : Bytes} (hp : WS pre) (hi : WS ind) :
    ∀ (l : List Val) (d : Nat), l ≠ [] → WritableL F l → Elems F (normL F l) (encPL F pre ind d l)
  | [], _, h, _ => absurd rfl h
  | [v], d, _, h => by
    simp only [WritableL] at h
    simpa [encPL, normL] using Elems.one _ [] _ [] ws_nil (encP_text F hp hi v d h.1) ws_nil
  | v :: w :: l, d, _, h => by
    rw [WritableL] at h
    have := elems_ws (ws_jsonNL hp hi d) ws_nil (encPL_text F hp hi (w :: l) d nofun h.2)
    simpa [encPL, normL] using Elems.cons _ [] _ [] _ _ ws_nil (encP_text F hp hi v d h.1) ws_nil this
theorem encPF_text (F : FloatCodec) {pre ind : Bytes} (hp : WS pre) (hi : WS ind) :
    ∀ (m : List (Bytes × Val)) (d : Nat), m ≠ [] → WritableF F m → Members F (normF F m) (encPF F pre ind d m)
  | [], _, h, _ => absurd rfl h
  | [(k, v)], d, _, h => by
    simp only [WritableF] at h
    simpa [encPF, jsonStr, normF] using
      Members.one _ _ [] _ [] [32] _ [] ws_nil (escBody_body k) ws_nil ws_space
        (encP_text F hp hi v d h.1) ws_nil
  | (k, v) :: (k', w) :: m, d, _, h => by
    rw [WritableF] at h
    have := members_ws (ws_jsonNL hp hi d) ws_nil (encPF_text F hp hi ((k', w) :: m) d nofun h.2)
    simpa [encPF, jsonStr, normF] using
      Members.cons _ _ [] _ [] [32] _ [] _ _ ws_nil (escBody_body k) ws_nil ws_space
        (encP_text F hp hi v d h.1) ws_nil this
end

mutual
theorem jsonOK_writable (F : FloatCodec) : ∀ (v : Val), Writable F v → jsonOK v = true
  | .null, _ | .bool _, _ | .int _, _ | .gint _, _ | .str _, _ | .bytes _, _ => by simp [jsonOK]
  | .f64 x, h => by simp only [Writable] at h; simpa [jsonOK] using h.2
  | .arr l, h => by simp only [Writable] at h; simpa [jsonOK] using jsonOKL_writable F l h
  | .obj m, h => by simp only [Writable] at h; simpa [jsonOK] using jsonOKF_writable F m h
theorem jsonOKL_writable (F : FloatCodec) : ∀ (l : List Val), WritableL F l → jsonOKL l = true
  | [], _ => by simp [jsonOKL]
  | v :: l, h => by
    rw [WritableL] at h
    simp [jsonOKL, jsonOK_writable F v h.1, jsonOKL_writable F l h.2]
theorem jsonOKF_writable (F : FloatCodec) : ∀ (m : List (Bytes × Val)), WritableF F m → jsonOKF m = true
  | [], _ => by simp [jsonOKF]
  | (k, v) :: m, h => by
    rw [WritableF] at h
    simp [jsonOKF, jsonOK_writable F v h.1, jsonOKF_writable F m h.2]
end

mutual
theorem writable_supported (F : FloatCodec) : ∀ (v : Val), Supported F v → Writable F v ∧ norm F v = v
  | .null, _ => by simp [Writable, norm]
  | .bool _, _ => by simp [Writable, norm]
  | .int _, h => by simpa [Writable, norm, Supported] using h
  | .gint _, h => by simp [Supported] at h
  | .f64 x, h => by
    simp only [Supported] at h
    simp [Writable, norm, h.1, h.2, atoi_floatOK h.1]
  | .str s, h => by
    simp only [Supported] at h
    simp [Writable, norm, toValidUtf8_valid h]
  | .bytes _, h => by simp [Supported] at h
  | .arr l, h => by
    simp only [Supported] at h
    have := writableL_supported F l h
    simp [Writable, norm, this]
  | .obj m, h => by
    simp only [Supported] at h
    have := writableF_supported F m h.2
    simp [Writable, norm, this, mapOf_sorted h.1]
theorem writableL_supported (F : FloatCodec) : ∀ (l : List Val), SupportedL F l → WritableL F l ∧ normL F l = l
  | [], _ => by simp [WritableL, normL]
  | v :: l, h => by
    rw [SupportedL] at h
    have h1 := writable_supported F v h.1
    have h2 := writableL_supported F l h.2
    simp [WritableL, normL, h1, h2]
theorem writableF_supported (F : FloatCodec) : ∀ (m : List (Bytes × Val)), SupportedF F m →
    WritableF F m ∧ normF F m = m
  | [], _ => by simp [WritableF, normF]
  | (k, v) :: m, h => by
    rw [SupportedF] at h
    have h1 := writable_supported F v h.2.1
    have h2 := writableF_supported F m h.2.2
    simp [WritableF, normF, h1, h2, toValidUtf8_valid h.1]
end

end Verif.Json
