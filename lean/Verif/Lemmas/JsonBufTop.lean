import Verif.Lemmas.JsonBufMain
import Verif.Lemmas.JsonTop
/- Whole bodies through the buffered JSON reader; texts of the grammar read cleanly. -/
set_option autoImplicit false
namespace Verif.JsonBuf
open Json JsonG

theorem new_inv (size : Nat) (reads : List Nat) (s : Bytes) : Inv (new size reads s) s :=
  ⟨rfl, by simp [new]; omega, by simp [new]⟩

theorem rest_inv {st : St} {s : Bytes} (h : Inv st s) : st.rest = s := h.rest

theorem fuelFor_le (s : Bytes) {t : Bytes} (h : t.length = s.length) : fuelFor t = fuelFor s := by unfold fuelFor; rw [h]

/-! ### Clean texts -/

theorem value_ws {w : Bytes} (h : WS w) (F : FloatCodec) (f : Nat) (s : Bytes) :
    JsonClean.value F f (w ++ s) = JsonClean.value F f s := by
  cases f with
  | zero => rfl
  | succ f => rw [JsonClean.value, skipWS_ws h, JsonClean.value]

theorem string_ws {w : Bytes} (h : WS w) (s : Bytes) : JsonClean.string (w ++ s) = JsonClean.string s := by
  unfold JsonClean.string; rw [token_ws h]

theorem escapesWhole_body {s t : Bytes} (h : StrBody s t) : JsonClean.escapesWhole t = true := by
  induction h with
  | nil => rfl
  | plain c _ _ h3 _ ih => rw [JsonClean.escapesWhole.eq_def]; simp [h3, ih]
  | esc e c h _ ih =>
    have h1 : e ≠ 120 ∧ e ≠ 117 := by
      simp only [escapes, List.mem_cons, Prod.mk.injEq, List.not_mem_nil, or_false] at h
      rcases h with ⟨rfl, _⟩ | ⟨rfl, _⟩ | ⟨rfl, _⟩ | ⟨rfl, _⟩ | ⟨rfl, _⟩ | ⟨rfl, _⟩ | ⟨rfl, _⟩ | ⟨rfl, _⟩ <;> decide
    rw [JsonClean.escapesWhole.eq_def]; simp [h1.1, h1.2, ih]
  | uni a b c d n1 n2 n3 n4 _ _ _ _ _ _ ih => rw [JsonClean.escapesWhole.eq_def]; simp [ih]

theorem stringBody_text {s t : Bytes} (h : StrBody s t) (r : Bytes) : JsonClean.stringBody (t ++ 34 :: r) = some (s, r) := by
  unfold JsonClean.stringBody
  rw [scan_body h, Option.bind_some]
  simp only
  rw [if_pos (escapesWhole_body h), unq_body h]

theorem number_text (F : FloatCodec) {t r : Bytes} (h : ∀ c ∈ t, isNumCh c = true) (hr : NumEnd r) {v : Val}
    (hv : convNumber F t r = .ok v r) : JsonClean.number F (t ++ r) = some (v, r) := by
  have h1 := takeWhile_append_stop h hr
  unfold JsonClean.number
  rw [h1.1, h1.2]
  unfold convNumber at hv ⊢
  by_cases hf : t.any isFloatCh = true
  · rw [if_pos hf] at hv ⊢
    cases hp : F.parse t with
    | none => rw [hp] at hv; simp at hv
    | some x => rw [hp] at hv; simp only [Json.Res.ok.injEq] at hv; rw [← hv.1]
  · rw [if_neg hf] at hv ⊢
    cases hp : atoi t with
    | none => rw [hp] at hv; simp at hv
    | some x => rw [hp] at hv; simp only [Json.Res.ok.injEq] at hv; rw [← hv.1]

theorem lit_text (tok : Bytes) (v : Val) (r : Bytes) : JsonClean.lit tok v (tok ++ r) = some (v, r) := by
  simp [JsonClean.lit]

theorem value_num (F : FloatCodec) (f : Nat) {c : UInt8} (s : Bytes) (h : c = 45 ∨ isDigit c = true) :
    JsonClean.value F (f + 1) (c :: s) = JsonClean.number F (c :: s) := by
  have hw : isWhitespace c = false := by
    rcases h with rfl | h
    · decide
    · exact notWS_digit h
  have hr : c = 45 ∨ (48 ≤ c.toNat ∧ c.toNat ≤ 57) := by rwa [isDigit_iff] at h
  have hn : ∀ d : UInt8, (d.toNat < 48 ∨ 57 < d.toNat) → d ≠ 45 → c ≠ d := by
    rintro d hd hd2 rfl
    rcases hr with hr | hr
    · exact hd2 hr
    · omega
  simp only [JsonClean.value, skipWS_cons hw]
  rw [if_neg (hn _ (by decide) (by decide)), if_neg (hn _ (by decide) (by decide)),
    if_neg (hn _ (by decide) (by decide)), if_neg (hn _ (by decide) (by decide)), if_pos h]

theorem value_number {F : FloatCodec} {v : Val} {t : Bytes} (h : Text F v t) {c : UInt8} {t' : Bytes} (ht : t = c :: t')
    (hc : c = 45 ∨ isDigit c = true) (hnum : ∀ d ∈ t, isNumCh d = true) (f : Nat) (r : Bytes) (hr : NumEnd r) :
    JsonClean.value F (f + 1) (t ++ r) = some (v, r) := by
  have h1 := readValue_text h (2 * t.length + 1) r (Nat.le_refl _) hr
  rw [ht, List.cons_append, readValue_number F _ _ hc, ← List.cons_append, ← ht, readNumber_text F hnum hr] at h1
  rw [ht, List.cons_append, value_num F f _ hc, ← List.cons_append, ← ht]
  exact number_text F hnum hr h1

mutual
/-- every text of the grammar reads cleanly -/
theorem value_text {F : FloatCodec} : ∀ {v : Val} {t : Bytes}, Text F v t → ∀ (f : Nat) (r : Bytes),
    2 * t.length + 1 ≤ f → NumEnd r → JsonClean.value F f (t ++ r) = some (v, r)
  | _, _, .null, f + 1, r, _, _ => by
    simp only [List.cons_append, List.nil_append, JsonClean.value, skipWS_cons (show isWhitespace 110 = false by decide)]
    rw [if_pos trivial]; exact lit_text b!"null" _ r
  | _, _, .true, f + 1, r, _, _ => by
    simp only [List.cons_append, List.nil_append, JsonClean.value, skipWS_cons (show isWhitespace 116 = false by decide)]
    rw [if_neg (by decide), if_pos trivial]; exact lit_text b!"true" _ r
  | _, _, .false, f + 1, r, _, _ => by
    simp only [List.cons_append, List.nil_append, JsonClean.value, skipWS_cons (show isWhitespace 102 = false by decide)]
    rw [if_neg (by decide), if_neg (by decide), if_pos trivial]; exact lit_text b!"false" _ r
  | _, _, .nat t n h1 h2 h3, f + 1, r, _, hr => by
    obtain ⟨c, t', ht, hc⟩ := intPart_ne h1
    exact value_number (.nat t n h1 h2 h3) ht (Or.inr hc) (fun d hd => isNumCh_digit (intPart_digits h1 d hd)) f r hr
  | _, _, .neg t n h1 h2 h3, f + 1, r, _, hr => by
    refine value_number (.neg t n h1 h2 h3) rfl (Or.inl rfl) ?_ f r hr
    intro d hd
    simp only [List.mem_cons] at hd
    rcases hd with rfl | hd
    · decide
    · exact isNumCh_digit (intPart_digits h1 d hd)
  | _, _, .float t u x h1 h2 h3, f + 1, r, _, hr => by
    obtain ⟨c, t', ht, hc⟩ := intPart_ne h1
    refine value_number (.float t u x h1 h2 h3) (c := c) (t' := t' ++ u) (by rw [ht]; rfl) (Or.inr hc) ?_ f r hr
    intro d hd; rw [List.mem_append] at hd
    rcases hd with hd | hd
    · exact isNumCh_digit (intPart_digits h1 d hd)
    · exact (fracExp_num h2).1 d hd
  | _, _, .negFloat t u x h1 h2 h3, f + 1, r, _, hr => by
    refine value_number (.negFloat t u x h1 h2 h3) rfl (Or.inl rfl) ?_ f r hr
    intro d hd; simp only [List.mem_cons, List.mem_append] at hd
    rcases hd with rfl | hd | hd
    · decide
    · exact isNumCh_digit (intPart_digits h1 d hd)
    · exact (fracExp_num h2).1 d hd
  | _, _, .str s t h, f + 1, r, _, _ => by
    have e : 34 :: (t ++ [34]) ++ r = 34 :: (t ++ 34 :: r) := by simp
    rw [e]
    simp only [JsonClean.value, skipWS_cons (show isWhitespace 34 = false by decide)]
    rw [if_neg (by decide), if_neg (by decide), if_neg (by decide), if_pos trivial, stringBody_text h]
    rfl
  | _, _, .arr0 w h, f + 2, r, _, _ => by
    have e : 91 :: (w ++ [93]) ++ r = 91 :: (w ++ 93 :: r) := by simp
    rw [e]
    simp only [JsonClean.value, skipWS_cons (show isWhitespace 91 = false by decide)]
    rw [if_neg (by decide), if_neg (by decide), if_neg (by decide), if_neg (by decide), if_neg (by decide),
      if_neg (by decide), if_pos trivial]
    simp only [JsonClean.array, token_ws h, token_self (show isWhitespace 93 = false by decide)]
  | _, _, .arr l t h, f + 2, r, hf, _ => by
    have e : 91 :: (t ++ [93]) ++ r = 91 :: (t ++ 93 :: r) := by simp
    rw [e]
    simp only [JsonClean.value, skipWS_cons (show isWhitespace 91 = false by decide)]
    rw [if_neg (by decide), if_neg (by decide), if_neg (by decide), if_neg (by decide), if_neg (by decide),
      if_neg (by decide), if_pos trivial]
    have ht : Json.token 93 (t ++ 93 :: r) = none := by
      obtain ⟨w, c, t', hw, rfl, h1, h2⟩ := elems_head h
      rw [List.append_assoc, token_ws hw]; exact token_ne h1 h2 _
    obtain ⟨v, r', h1, h2⟩ := elems_text h f [] r (by simp at hf; omega)
    simp only [JsonClean.array, ht, h1, Option.bind_some]
    simpa using h2
  | _, _, .obj0 w h, f + 2, r, _, _ => by
    have e : 123 :: (w ++ [125]) ++ r = 123 :: (w ++ 125 :: r) := by simp
    rw [e]
    simp only [JsonClean.value, skipWS_cons (show isWhitespace 123 = false by decide)]
    rw [if_neg (by decide), if_neg (by decide), if_neg (by decide), if_neg (by decide), if_neg (by decide),
      if_pos trivial]
    simp only [JsonClean.object, token_ws h, token_self (show isWhitespace 125 = false by decide)]
  | _, _, .obj m t h, f + 2, r, hf, _ => by
    have e : 123 :: (t ++ [125]) ++ r = 123 :: (t ++ 125 :: r) := by simp
    rw [e]
    simp only [JsonClean.value, skipWS_cons (show isWhitespace 123 = false by decide)]
    rw [if_neg (by decide), if_neg (by decide), if_neg (by decide), if_neg (by decide), if_neg (by decide),
      if_pos trivial]
    have ht : Json.token 125 (t ++ 125 :: r) = none := by
      obtain ⟨w, t', hw, rfl⟩ := members_head h
      rw [List.append_assoc, token_ws hw]; exact token_ne (by decide) (by decide) _
    obtain ⟨k, v, r', h1, h2⟩ := members_text h f [] r (by simp at hf; omega)
    simp only [JsonClean.object, ht, h1, Option.bind_some]
    exact h2
  | _, _, .arr0 w h, 1, r, hf, _ => by simp at hf
  | _, _, .arr l t h, 1, r, hf, _ => by simp at hf
  | _, _, .obj0 w h, 1, r, hf, _ => by simp at hf
  | _, _, .obj m t h, 1, r, hf, _ => by simp at hf
theorem elems_text {F : FloatCodec} : ∀ {l : List Val} {t : Bytes}, Elems F l t →
    ∀ (f : Nat) (acc : List Val) (r : Bytes), 2 * t.length + 2 ≤ f →
    ∃ v r', JsonClean.value F f (t ++ 93 :: r) = some (v, r') ∧ JsonClean.elements F f (acc ++ [v]) r' = some (.arr (acc ++ l), r)
  | _, _, .one v w t w' hw ht hw', f + 1, acc, r, hf => by
    refine ⟨v, w' ++ 93 :: r, ?_, ?_⟩
    · rw [List.append_assoc, List.append_assoc, value_ws hw]
      exact value_text ht _ _ (by simp at hf; omega) (numEnd_ws hw' (by decide) _)
    · simp only [JsonClean.elements, token_ws hw', token_self (show isWhitespace 93 = false by decide)]
  | _, _, .cons v w t w' l t' hw ht hw' hl, f + 1, acc, r, hf => by
    refine ⟨v, w' ++ 44 :: (t' ++ 93 :: r), ?_, ?_⟩
    · have e : w ++ (t ++ (w' ++ 44 :: t')) ++ 93 :: r = w ++ (t ++ (w' ++ 44 :: (t' ++ 93 :: r))) := by simp
      rw [e, value_ws hw]
      exact value_text ht _ _ (by simp at hf; omega) (numEnd_ws hw' (by decide) _)
    · obtain ⟨v', r', h1, h2⟩ := elems_text hl f (acc ++ [v]) r (by simp at hf; omega)
      simp only [JsonClean.elements, token_ws hw', token_self (show isWhitespace 44 = false by decide),
        token_ne (show isWhitespace 44 = false by decide) (show (44 : UInt8) ≠ 93 by decide), h1, Option.bind_some]
      simpa using h2
theorem members_text {F : FloatCodec} : ∀ {m : List (Bytes × Val)} {t : Bytes}, Members F m t →
    ∀ (f : Nat) (acc : List (Bytes × Val)) (r : Bytes), 2 * t.length + 2 ≤ f →
    ∃ k v r', JsonClean.pair F f (t ++ 125 :: r) = some ((k, v), r') ∧
      JsonClean.members F f (mapSet acc k v) r' = some (.obj (m.foldl (fun m kv => mapSet m kv.1 kv.2) acc), r)
  | _, _, .one k v w kt w1 w2 t w' hw hk hw1 hw2 ht hw', f + 1, acc, r, hf => by
    have hlen : (w ++ 34 :: (kt ++ 34 :: (w1 ++ 58 :: (w2 ++ (t ++ w'))))).length ≥ t.length + 3 := by simp; omega
    refine ⟨k, v, w' ++ 125 :: r, ?_, ?_⟩
    · have e : w ++ 34 :: (kt ++ 34 :: (w1 ++ 58 :: (w2 ++ (t ++ w')))) ++ 125 :: r
        = w ++ 34 :: (kt ++ 34 :: (w1 ++ 58 :: (w2 ++ (t ++ (w' ++ 125 :: r))))) := by simp
      rw [e]
      rw [JsonClean.pair, string_ws hw]
      simp only [JsonClean.string, token_self (show isWhitespace 34 = false by decide), Option.bind_some,
        stringBody_text hk, token_ws hw1, token_self (show isWhitespace 58 = false by decide)]
      rw [value_ws hw2, value_text ht f _ (by omega) (numEnd_ws hw' (by decide) _)]
      rfl
    · simp only [JsonClean.members, token_ws hw', token_self (show isWhitespace 125 = false by decide), List.foldl]
  | _, _, .cons k v w kt w1 w2 t w' m t' hw hk hw1 hw2 ht hw' hm, f + 1, acc, r, hf => by
    have hlen : (w ++ 34 :: (kt ++ 34 :: (w1 ++ 58 :: (w2 ++ (t ++ (w' ++ 44 :: t')))))).length ≥
      t.length + t'.length + 4 := by simp; omega
    refine ⟨k, v, w' ++ 44 :: (t' ++ 125 :: r), ?_, ?_⟩
    · have e : w ++ 34 :: (kt ++ 34 :: (w1 ++ 58 :: (w2 ++ (t ++ (w' ++ 44 :: t'))))) ++ 125 :: r
        = w ++ 34 :: (kt ++ 34 :: (w1 ++ 58 :: (w2 ++ (t ++ (w' ++ 44 :: (t' ++ 125 :: r)))))) := by simp
      rw [e]
      rw [JsonClean.pair, string_ws hw]
      simp only [JsonClean.string, token_self (show isWhitespace 34 = false by decide), Option.bind_some,
        stringBody_text hk, token_ws hw1, token_self (show isWhitespace 58 = false by decide)]
      rw [value_ws hw2, value_text ht f _ (by omega) (numEnd_ws hw' (by decide) _)]
      rfl
    · obtain ⟨k', v', r', h1, h2⟩ := members_text hm f (mapSet acc k v) r (by omega)
      simp only [JsonClean.members, token_ws hw', token_self (show isWhitespace 44 = false by decide),
        token_ne (show isWhitespace 44 = false by decide) (show (44 : UInt8) ≠ 125 by decide), h1, List.foldl, Option.bind_some]
      exact h2
end

/-! ### Bodies -/

theorem entry_elem {F : FloatCodec} {v : Val} {w t x : Bytes} (hw : WS w) (ht : Text F v t) (hx : NumEnd x) (i : Int) :
    JsonClean.entry F .array i (w ++ (t ++ x)) = some ({ index := i, value := v }, x) := by
  simp only [JsonClean.entry]
  rw [value_ws hw, value_text ht _ _ (by unfold fuelFor; simp; omega) hx]; rfl

theorem entry_member {F : FloatCodec} {k : Bytes} {v : Val} {w kt w1 w2 t x : Bytes} (hw : WS w) (hk : StrBody k kt)
    (hw1 : WS w1) (hw2 : WS w2) (ht : Text F v t) (hx : NumEnd x) (i : Int) :
    JsonClean.entry F .object i (w ++ 34 :: (kt ++ 34 :: (w1 ++ 58 :: (w2 ++ (t ++ x))))) =
      some ({ key := k, value := v }, x) := by
  have : ∃ f, fuelFor (w ++ 34 :: (kt ++ 34 :: (w1 ++ 58 :: (w2 ++ (t ++ x))))) = f + 1 ∧ 2 * t.length + 1 ≤ f := by
    refine ⟨fuelFor (w ++ 34 :: (kt ++ 34 :: (w1 ++ 58 :: (w2 ++ (t ++ x))))) - 1, ?_, ?_⟩ <;> unfold fuelFor <;> simp <;> omega
  obtain ⟨f, hf, hf2⟩ := this
  simp only [JsonClean.entry, hf]
  rw [JsonClean.pair, string_ws hw]
  simp only [JsonClean.string, token_self (show isWhitespace 34 = false by decide), Option.bind_some,
    stringBody_text hk, token_ws hw1, token_self (show isWhitespace 58 = false by decide)]
  rw [value_ws hw2, value_text ht f _ hf2 hx]
  rfl

theorem clean_elems {F : FloatCodec} {l : List Val} {t : Bytes} (h : Elems F l t) (n : Nat) (i : Int) (r : Bytes)
    (hn : l.length ≤ n) : ∃ e r', JsonClean.entry F .array i (t ++ 93 :: r) = some (e, r') ∧
      e :: (JsonClean.rest F .array n (i + 1) r').1 = indexed i l ∧ (JsonClean.rest F .array n (i + 1) r').2 = true := by
  induction l generalizing t n i with
  | nil => cases h
  | cons v l ih =>
    cases h with
    | one _ w t w' hw ht hw' =>
      refine ⟨{ index := i, value := v }, w' ++ 93 :: r, ?_, ?_⟩
      · rw [List.append_assoc, List.append_assoc]; exact entry_elem hw ht (numEnd_ws hw' (by decide) _) i
      · cases n with
        | zero => simp at hn
        | succ n =>
          simp [JsonClean.rest, closeCh, token_ws hw', token_self (show isWhitespace 93 = false by decide), indexed]
    | cons _ w t w' _ t' hw ht hw' hl =>
      refine ⟨{ index := i, value := v }, w' ++ 44 :: (t' ++ 93 :: r), ?_, ?_⟩
      · rw [show w ++ (t ++ (w' ++ 44 :: t')) ++ 93 :: r = w ++ (t ++ (w' ++ 44 :: (t' ++ 93 :: r))) by simp]
        exact entry_elem hw ht (numEnd_ws hw' (by decide) _) i
      · cases n with
        | zero => simp at hn
        | succ n =>
          obtain ⟨e, r', h1, h2, h3⟩ := ih hl n (i + 1) (by simpa using hn)
          simp only [JsonClean.rest, closeCh, token_ws hw', Option.bind_some,
            token_self (show isWhitespace 44 = false by decide),
            token_ne (show isWhitespace 44 = false by decide) (show (44 : UInt8) ≠ 93 by decide), h1, h2, h3, indexed]
          simp

theorem clean_members {F : FloatCodec} {m : List (Bytes × Val)} {t : Bytes} (h : Members F m t) (n : Nat) (i : Int)
    (r : Bytes) (hn : m.length ≤ n) : ∃ e r', JsonClean.entry F .object i (t ++ 125 :: r) = some (e, r') ∧
      e :: (JsonClean.rest F .object n (i + 1) r').1 = keyed m ∧ (JsonClean.rest F .object n (i + 1) r').2 = true := by
  induction m generalizing t n i with
  | nil => cases h
  | cons kv m ih =>
    obtain ⟨k, v⟩ := kv
    cases h with
    | one _ _ w kt w1 w2 t w' hw hk hw1 hw2 ht hw' =>
      refine ⟨{ key := k, value := v }, w' ++ 125 :: r, ?_, ?_⟩
      · rw [show w ++ 34 :: (kt ++ 34 :: (w1 ++ 58 :: (w2 ++ (t ++ w')))) ++ 125 :: r =
          w ++ 34 :: (kt ++ 34 :: (w1 ++ 58 :: (w2 ++ (t ++ (w' ++ 125 :: r))))) by simp]
        exact entry_member hw hk hw1 hw2 ht (numEnd_ws hw' (by decide) _) i
      · cases n with
        | zero => simp at hn
        | succ n =>
          simp [JsonClean.rest, closeCh, token_ws hw', token_self (show isWhitespace 125 = false by decide), keyed]
    | cons _ _ w kt w1 w2 t w' _ t' hw hk hw1 hw2 ht hw' hm =>
      refine ⟨{ key := k, value := v }, w' ++ 44 :: (t' ++ 125 :: r), ?_, ?_⟩
      · rw [show w ++ 34 :: (kt ++ 34 :: (w1 ++ 58 :: (w2 ++ (t ++ (w' ++ 44 :: t'))))) ++ 125 :: r =
          w ++ 34 :: (kt ++ 34 :: (w1 ++ 58 :: (w2 ++ (t ++ (w' ++ 44 :: (t' ++ 125 :: r)))))) by simp]
        exact entry_member hw hk hw1 hw2 ht (numEnd_ws hw' (by decide) _) i
      · cases n with
        | zero => simp at hn
        | succ n =>
          obtain ⟨e, r', h1, h2, h3⟩ := ih hm n (i + 1) (by simpa using hn)
          simp only [JsonClean.rest, closeCh, token_ws hw', Option.bind_some,
            token_self (show isWhitespace 44 = false by decide),
            token_ne (show isWhitespace 44 = false by decide) (show (44 : UInt8) ≠ 125 by decide), h1, h2, h3]
          simp [keyed]

theorem body_elems {F : FloatCodec} {l : List Val} {t w : Bytes} (hw : WS w) (h : Elems F l t) (r : Bytes) :
    JsonClean.body F .array (w ++ 91 :: (t ++ 93 :: r)) = (indexed 0 l, true) := by
  have hlen := elems_length h
  obtain ⟨w', c, t', hw', ht', h1, h2⟩ := elems_head h
  have hnone : Json.token 93 (t ++ 93 :: r) = none := by
    rw [ht', List.append_assoc, token_ws hw']; exact token_ne h1 h2 _
  obtain ⟨e, r', h3, h4, h5⟩ := clean_elems h (t ++ 93 :: r).length 0 r (by simp; omega)
  simp only [JsonClean.body, openCh, closeCh, token_ws hw, token_self (show isWhitespace 91 = false by decide), hnone, h3]
  simp only [Int.zero_add] at h4 h5
  rw [h4, h5]

theorem body_arr0 (F : FloatCodec) {w w' : Bytes} (hw : WS w) (hw' : WS w') (r : Bytes) :
    JsonClean.body F .array (w ++ 91 :: (w' ++ 93 :: r)) = ([], true) := by
  simp only [JsonClean.body, openCh, closeCh, token_ws hw, token_ws hw',
    token_self (show isWhitespace 91 = false by decide), token_self (show isWhitespace 93 = false by decide)]

theorem body_members {F : FloatCodec} {m : List (Bytes × Val)} {t w : Bytes} (hw : WS w) (h : Members F m t) (r : Bytes) :
    JsonClean.body F .object (w ++ 123 :: (t ++ 125 :: r)) = (keyed m, true) := by
  have hlen := members_length h
  obtain ⟨w', t', hw', ht'⟩ := members_head h
  have hnone : Json.token 125 (t ++ 125 :: r) = none := by
    rw [ht', List.append_assoc, token_ws hw']; exact token_ne (by decide) (by decide) _
  obtain ⟨e, r', h3, h4, h5⟩ := clean_members h (t ++ 125 :: r).length 0 r (by simp; omega)
  simp only [JsonClean.body, openCh, closeCh, token_ws hw, token_self (show isWhitespace 123 = false by decide), hnone, h3]
  simp only [Int.zero_add] at h4 h5
  rw [h4, h5]

theorem body_obj0 (F : FloatCodec) {w w' : Bytes} (hw : WS w) (hw' : WS w') (r : Bytes) :
    JsonClean.body F .object (w ++ 123 :: (w' ++ 125 :: r)) = ([], true) := by
  simp only [JsonClean.body, openCh, closeCh, token_ws hw, token_ws hw',
    token_self (show isWhitespace 123 = false by decide), token_self (show isWhitespace 125 = false by decide)]

/-! ### The buffered loop on clean bodies -/

theorem readBody_clean {F : FloatCodec} {E : Env} {tl : TopLevel} {n : Int} {st : St} {s s' r : Bytes} {e : Entry}
    (h : Inv st s') (hs : skipWS s' = skipWS s) (he : JsonClean.entry F tl n s = some (e, r)) :
    ∃ st', readBody F E tl (fuelFor s) n st = .entry e ⟨true, n + 1, st'⟩ ∧ Inv st' r := by
  have hv : JsonClean.value F (fuelFor s) s' = JsonClean.value F (fuelFor s) s := by rw [← value_skip, hs, value_skip]
  have hp : JsonClean.pair F (fuelFor s) s' = JsonClean.pair F (fuelFor s) s := by rw [← pair_skip, hs, pair_skip]
  cases tl with
  | object =>
    simp only [JsonClean.entry] at he
    rw [← hp] at he
    cases hq : JsonClean.pair F (fuelFor s) s' with
    | none => rw [hq] at he; simp at he
    | some p =>
      obtain ⟨⟨k, v⟩, r'⟩ := p
      rw [hq] at he; simp at he
      obtain ⟨rfl, rfl⟩ := he
      obtain ⟨st', h1, h2⟩ := (cleanAll F E _).pair h hq
      exact ⟨st', by simp only [readBody, h1], h2⟩
  | array =>
    simp only [JsonClean.entry] at he
    rw [← hv] at he
    cases hq : JsonClean.value F (fuelFor s) s' with
    | none => rw [hq] at he; simp at he
    | some p =>
      obtain ⟨v, r'⟩ := p
      rw [hq] at he; simp at he
      obtain ⟨rfl, rfl⟩ := he
      obtain ⟨st', h1, h2⟩ := (cleanAll F E _).value h hq
      exact ⟨st', by simp only [readBody, h1], h2⟩

theorem readLoop_clean (F : FloatCodec) (E : Env) (tl : TopLevel) : ∀ (f n : Nat) (k : Int) (st : St) (s : Bytes),
    f ≤ n → Inv st s → (JsonClean.rest F tl f k s).1 <+: (readLoop F E tl n ⟨true, k, st⟩).1 ∧
      ((JsonClean.rest F tl f k s).2 = true → readLoop F E tl n ⟨true, k, st⟩ = ((JsonClean.rest F tl f k s).1, .eof))
  | 0, _, _, _, _, _, _ => by simp [JsonClean.rest]
  | f + 1, 0, _, _, _, h, _ => by omega
  | f + 1, n + 1, k, st, s, hfn, h => by
    have h := (peek_inv h).1
    rw [JsonClean.rest]
    cases hc : Json.token (closeCh tl) s with
    | some r =>
      obtain ⟨st', h1, -⟩ := token_some (E := E) h hc
      simp [readLoop, readEntry, h1]
    | none =>
      obtain ⟨st1, h1, h2⟩ := token_none (E := E) h hc
      simp only
      cases hq : (Json.token 44 s).bind (JsonClean.entry F tl k) with
      | none => simp
      | some p =>
        obtain ⟨e, s'⟩ := p
        cases ht : Json.token 44 s with
        | none => rw [ht] at hq; simp at hq
        | some r =>
          rw [ht, Option.bind_some] at hq
          obtain ⟨st2, h3, h4⟩ := token_some (E := E) h2 (by rw [token_skip]; exact ht)
          obtain ⟨st3, h5, h6⟩ := readBody_clean (E := E) h4 rfl hq
          have e4 : st2.rest = r := rest_inv h4
          have ih := readLoop_clean F E tl f n (k + 1) st3 s' (by omega) h6
          have hR : readEntry F E tl ⟨true, k, st⟩ = .entry e ⟨true, k + 1, st3⟩ := by
            simp [readEntry, h1, h3, e4, h5]
          simp only [readLoop, hR]
          refine ⟨?_, ?_⟩
          · obtain ⟨l, hl⟩ := ih.1
            exact ⟨l, by rw [← hl]; rfl⟩
          · intro hb
            rw [ih.2 hb]

theorem token_length {ch : UInt8} {s r : Bytes} (h : Json.token ch s = some r) : r.length + 1 ≤ s.length := by
  unfold Json.token at h
  have hl := skipWS_length s
  cases hs : skipWS s with
  | nil => rw [hs] at h; simp at h
  | cons c t =>
    rw [hs] at h hl
    simp only at h
    split at h
    · simp at h; subst h; simpa using hl
    · simp at h

/-- the buffered reader yields the clean entries of a body, and ends where it ends -/
theorem readAll_clean (F : FloatCodec) (E : Env) (tl : TopLevel) (size : Nat) (reads : List Nat) (s : Bytes) :
    (JsonClean.body F tl s).1 <+: (readAll F E tl size reads s).1 ∧
      ((JsonClean.body F tl s).2 = true → readAll F E tl size reads s = ((JsonClean.body F tl s).1, .eof)) := by
  have h := (peek_inv (new_inv size reads s)).1
  unfold JsonClean.body
  cases ho : Json.token (openCh tl) s with
  | none => simp
  | some s1 =>
    simp only
    obtain ⟨st1, h1, h2⟩ := token_some (E := E) h ho
    have e1 : st1.rest = s1 := rest_inv h2
    cases hc : Json.token (closeCh tl) s1 with
    | some r =>
      obtain ⟨st', h3, -⟩ := token_some (E := E) h2 hc
      simp [readAll, readLoop, readEntry, h1, h3]
    | none =>
      obtain ⟨st2, h3, h4⟩ := token_none (E := E) h2 hc
      simp only
      cases hq : JsonClean.entry F tl 0 s1 with
      | none => simp
      | some p =>
        obtain ⟨e, r⟩ := p
        obtain ⟨st3, h5, h6⟩ := readBody_clean (E := E) h4 (skipWS_idem _) hq
        have hl := token_length ho
        have ih := readLoop_clean F E tl s1.length s.length 1 st3 r (by omega) h6
        have hR : readEntry F E tl { st := new size reads s } = .entry e ⟨true, 1, st3⟩ := by
          simp only [readEntry, Bool.false_eq_true, if_false, h1, h3, e1, h5]
          rfl
        simp only [readAll, readLoop, hR]
        refine ⟨?_, ?_⟩
        · obtain ⟨l, hl⟩ := ih.1
          exact ⟨l, by rw [← hl]; rfl⟩
        · intro hb
          rw [ih.2 hb]

/-! ### Everything in the buffer -/

/-- ends of reading agree -/
def endOf : Json.End → End
  | .eof => .eof
  | .err e => .err e
  | .outOfCalls => .outOfCalls

theorem InvW.peek {st : St} {s : Bytes} (h : InvW st s) : InvW (peek st) s := by
  obtain ⟨s', h1, h2, h3⟩ := h
  exact ⟨s', (peek_inv h1).1, h2, peek_whole h3⟩

theorem token_exact (E : Env) (ch : UInt8) {st st' : St} {s r : Bytes} (h : InvW st s) (hr : Json.token ch s = some r)
    (ht : token E ch st = (true, st')) : st'.rest = r := by
  obtain ⟨s', h1, h2, h3⟩ := h
  obtain ⟨st2, h4, h5⟩ := token_some (E := E) h1 (by rw [token_eq h2]; exact hr)
  rw [ht] at h4; simp at h4; subst h4
  exact rest_inv h5

/-- the steps agree -/
def SimStep (x : Step) (y : Json.Step) : Prop :=
  match x, y with
  | .entry e r, .entry e' r' => e = e' ∧ r.initialized = r'.initialized ∧ r.entriesRead = r'.entriesRead ∧ InvW r.st r'.rest
  | .eof _, .eof _ => True
  | .err e _, .err e' _ => e = e'
  | _, _ => False

theorem readBody_whole (F : FloatCodec) (E : Env) (tl : TopLevel) (n : Int) {st : St} {s : Bytes} (h : InvW st s) :
    SimStep (readBody F E tl (fuelFor s) n st) (Json.readBody F tl n s) := by
  cases tl with
  | object =>
    simp only [readBody, Json.readBody]
    rcases ((wholeAll F E _).pair h).cases with ⟨⟨k, v⟩, st', r, h1, h2, h3⟩ | ⟨e, st', r, h1, h2, h3⟩
    · rw [h1, h2]; exact ⟨rfl, rfl, rfl, h3⟩
    · rw [h1, h2]; exact rfl
  | array =>
    simp only [readBody, Json.readBody]
    rcases ((wholeAll F E _).value h).cases with ⟨v, st', r, h1, h2, h3⟩ | ⟨e, st', r, h1, h2, h3⟩
    · rw [h1, h2]; exact ⟨rfl, rfl, rfl, h3⟩
    · rw [h1, h2]; exact rfl

theorem readEntry_whole (F : FloatCodec) (E : Env) (tl : TopLevel) {r : Reader} {r' : RState} (h : InvW (peek r.st) r'.rest)
    (hi : r.initialized = r'.initialized) (hn : r.entriesRead = r'.entriesRead) :
    SimStep (readEntry F E tl r) (Json.readEntry F tl r') := by
  simp only [readEntry, Json.readEntry, hi, hn]
  cases r'.initialized with
  | true =>
    simp only [if_true]
    rcases token_whole E (closeCh tl) h with ⟨x, st', h1, h2, h3⟩ | ⟨st', h1, h2, h3⟩
    · simp only [h1, h2]; trivial
    · simp only [h1, h2]
      rcases token_whole E 44 h3 with ⟨x, st2, h4, h5, h6⟩ | ⟨st2, h4, h5, h6⟩
      · simp only [h4, h5]
        rw [token_exact E 44 h3 h4 h5]
        exact readBody_whole F E tl _ h6
      · simp only [h4, h5]; rfl
  | false =>
    simp only [Bool.false_eq_true, if_false]
    rcases token_whole E (openCh tl) h with ⟨x, st', h1, h2, h3⟩ | ⟨st', h1, h2, h3⟩
    · simp only [h1, h2]
      rw [token_exact E _ h h1 h2]
      rcases token_whole E (closeCh tl) h3 with ⟨y, st2, h4, h5, h6⟩ | ⟨st2, h4, h5, h6⟩
      · simp only [h4, h5]; trivial
      · simp only [h4, h5]
        exact readBody_whole F E tl _ h6
    · simp only [h1, h2]; rfl

theorem readLoop_whole (F : FloatCodec) (E : Env) (tl : TopLevel) : ∀ (n : Nat) (r : Reader) (r' : RState),
    InvW (peek r.st) r'.rest → r.initialized = r'.initialized → r.entriesRead = r'.entriesRead →
    readLoop F E tl n r = ((Json.readLoop F tl n r').1, endOf (Json.readLoop F tl n r').2)
  | 0, _, _, _, _, _ => rfl
  | n + 1, r, r', h, hi, hn => by
    have := readEntry_whole F E tl h hi hn
    simp only [readLoop, Json.readLoop]
    cases h1 : readEntry F E tl r <;> cases h2 : Json.readEntry F tl r' <;> rw [h1, h2] at this <;>
      simp only [SimStep] at this
    · obtain ⟨rfl, h3, h4, h5⟩ := this
      simp only [readLoop_whole F E tl n _ _ h5.peek h3 h4]
    · rfl
    · subst this; rfl

theorem fillLoop_nil : ∀ (n : Nat) (st : St), st.src = [] → st.pos = 0 → (fillLoop n st).src = [] ∧ (fillLoop n st).pos = 0
  | 0, _, h, h' => ⟨h, h'⟩
  | n + 1, st, h, h' => by
    rw [fillLoop]
    split
    · refine fillLoop_nil n _ ?_ ?_ <;> simp [fill, h]
    · exact ⟨h, h'⟩

theorem fillLoop_all {s : Bytes} (hs : s.length ≤ blockSize) : ∀ (n : Nat) (st : St), Inv st s → s.length < st.size → st.pos = 0 →
    st.src.length < n → (fillLoop n st).src = [] ∧ (fillLoop n st).pos = 0
  | 0, _, _, _, _, h => by omega
  | n + 1, st, hi, hsz, h', h => by
    rw [fillLoop]
    have hl : st.buf.length + st.src.length = s.length := by rw [← hi.rest]; simp
    split
    · rename_i hc
      have hf := fill_inv hi hc.2.1
      by_cases he : st.src = []
      · exact fillLoop_nil n _ (by simp [fill, he]) (by simp [fill, he])
      · exact fillLoop_all hs n _ hf.1 (by rw [hf.2.2.1]; exact hsz) (by simp [fill, he]) (by have := (hf.2.2.2.2 he).1; omega)
    · rename_i hc
      refine ⟨?_, h'⟩
      by_cases he : st.eof = true
      · exact hi.eof he
      · have he : st.eof = false := by simpa using he
        simp only [he, and_true, not_and, Nat.not_lt] at hc
        rcases Nat.lt_or_ge st.buf.length blockSize with hb | hb
        · have := hc hb; exact List.length_eq_zero_iff.mp (by omega)
        · exact List.length_eq_zero_iff.mp (by omega)

theorem peek_src {st : St} : (peek st).src = (fillLoop (st.src.length + 1) st).src ∧
    (peek st).pos = (fillLoop (st.src.length + 1) st).pos := by
  unfold peek; simp only; split <;> exact ⟨rfl, rfl⟩

/-- the first look at a short input brings it all into the buffer -/
theorem new_whole (size : Nat) (reads : List Nat) (s : Bytes) (h : s.length + 4 ≤ size)
    (h2 : reads = [] ∨ s.length ≤ 4096) : InvW (peek (new size reads s)) s := by
  have hi := new_inv size reads s
  have hp := peek_inv hi
  have key : (peek (new size reads s)).src = [] ∧ (peek (new size reads s)).pos = 0 := by
    rw [peek_src.1, peek_src.2]
    rcases h2 with rfl | h2
    · rw [fillLoop]
      split
      · refine fillLoop_nil _ _ ?_ ?_
        · by_cases hs : s = []
          · simp [fill, new, hs]
          · simp [fill, new, hs, St.portion]; omega
        · unfold fill; split <;> rfl
      · rename_i hc
        exfalso; apply hc
        simp [new, blockSize]; omega
    · exact fillLoop_all h2 _ _ hi (by simp [new]; omega) rfl (by simp)
  refine hp.1.w ⟨key.1, ?_⟩
  have hr := hp.1.rest
  rw [key.1, List.append_nil] at hr
  rw [key.2, hr, hp.2.2.1]
  simp [new]; omega

/-- with everything in the buffer, the buffered reader is the reader of the plain text -/
theorem readAll_whole (F : FloatCodec) (E : Env) (tl : TopLevel) (size : Nat) (reads : List Nat) (s : Bytes)
    (h : s.length + 4 ≤ size) (h2 : reads = [] ∨ s.length ≤ 4096) :
    readAll F E tl size reads s = ((Json.readAll F tl s).1, endOf (Json.readAll F tl s).2) :=
  readLoop_whole F E tl _ _ _ (new_whole size reads s h h2) rfl rfl

/-! ### A backslash at the end of the buffer -/

theorem scan_plain (E : Env) (b : Slice) (st : St) : ∀ (k n i : Nat), (∀ j, i ≤ j → j < i + k → ∃ c, b.data[j]? = some c ∧ c ≠ 92 ∧ c ≠ 34) →
    scan E (n + k) b i st = scan E n b (i + k) st
  | 0, _, _, _ => rfl
  | k + 1, n, i, h => by
    obtain ⟨c, hc, h1, h2⟩ := h i (by omega) (by omega)
    have hi : i < b.data.length := by
      rw [List.getElem?_eq_some_iff] at hc; exact hc.1
    rw [show n + (k + 1) = (n + k) + 1 by omega, scan, if_neg (by omega)]
    simp only [hc, if_neg h1, if_neg h2]
    rw [scan_plain E b st k n (i + 1) (fun j h3 h4 => h j (by omega) (by omega)), show i + 1 + k = i + (k + 1) by omega]

theorem current_nows (E : Env) {st : St} {c : UInt8} {t : Bytes} (h : st.buf = c :: t) (hc : isWhitespace c = false) :
    current E st = (⟨c :: t, st.size - st.pos - (t.length + 1)⟩, { st with prev := 0 }) := by
  simp [current, h, span, hc]

theorem token_yes (E : Env) {st : St} {c : UInt8} {t : Bytes} (h : st.buf = c :: t) (hc : isWhitespace c = false) :
    token E c st = (true, discard 1 { st with prev := 0 }) := by
  simp [token, current_nows E h hc]

theorem token_no (E : Env) {st : St} {c d : UInt8} {t : Bytes} (h : st.buf = c :: t) (hc : isWhitespace c = false) (hd : c ≠ d) :
    token E d st = (false, { st with prev := 0 }) := by
  simp [token, current_nows E h hc, hd]

end Verif.JsonBuf
