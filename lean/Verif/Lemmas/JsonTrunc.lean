import Verif.Lemmas.JsonTop
/- Reading a body that is cut short. -/
namespace Verif.Json
open JsonG

/-- unread input after a read -/
def Res.rest {α : Type} : Res α → Bytes
  | .ok _ r => r
  | .err _ r => r

theorem append_prefix_cases {p q a b : Bytes} (h : p ++ q = a ++ b) :
    (∃ a', a = p ++ a' ∧ a' ≠ []) ∨ (∃ p', p = a ++ p' ∧ p' ++ q = b) := by
  rcases List.append_eq_append_iff.mp h with ⟨a', h1, h2⟩ | ⟨c', h1, h2⟩
  · by_cases hn : a' = []
    · subst hn; right; exact ⟨[], by simpa using h1.symm, by simpa using h2⟩
    · left; exact ⟨a', h1, hn⟩
  · right; exact ⟨c', h1, h2.symm⟩

theorem ws_prefix {w p q : Bytes} (h : WS w) (he : w = p ++ q) : WS p := by
  intro c hc; exact h c (by rw [he]; simp [hc])

theorem skipWS_all {w : Bytes} (h : WS w) : skipWS w = [] := by
  have := skipWS_ws h []; simpa [skipWS_nil] using this

theorem token_all {w : Bytes} (h : WS w) (c : UInt8) : token c w = none := by simp [token, skipWS_all h]

/-- reading nothing but whitespace -/
theorem readValue_all {w : Bytes} (h : WS w) (F : FloatCodec) (f : Nat) :
    readValue F (f + 1) w = .ok .null [] := by simp [readValue, skipWS_all h]

theorem readArrayRest_all {w : Bytes} (h : WS w) (F : FloatCodec) (f : Nat) (l : List Val) :
    readArrayRest F (f + 1) l w = .err .comma [] := by simp [readArrayRest, token_all h, skipWS_all h]

theorem readObjectRest_all {w : Bytes} (h : WS w) (F : FloatCodec) (f : Nat) (m : List (Bytes × Val)) :
    readObjectRest F (f + 1) m w = .err .comma [] := by simp [readObjectRest, token_all h, skipWS_all h]

theorem readPair_all {w : Bytes} (h : WS w) (F : FloatCodec) (f : Nat) :
    readPair F (f + 1) w = .err .string [] := by simp [readPair, readString, skipWS_all h]

/-- a cut string is not terminated -/
theorem scanStr_cut {s t : Bytes} (h : StrBody s t) : ∀ p q : Bytes, t = p ++ q → scanStr p = none := by
  induction h with
  | nil => intro p q e; simp at e; rw [e.1]; rfl
  | plain c h1 h2 h3 _ ih =>
    intro p q e
    cases p with
    | nil => rfl
    | cons d p => simp at e; obtain ⟨rfl, e⟩ := e; rw [scanStr_plain _ h3 h2, ih p q e]; rfl
  | esc e c h _ ih =>
    intro p q e
    match p with
    | [] => rfl
    | [d] => simp at e; obtain ⟨rfl, _⟩ := e; rw [scanStr.eq_def]; simp
    | d :: d' :: p => simp at e; obtain ⟨rfl, rfl, e⟩ := e; rw [scanStr_esc, ih p q e]; rfl
  | uni a b c d n1 n2 n3 n4 h1 h2 h3 h4 _ _ ih =>
    intro p q e
    have P := fun {a : UInt8} {n : Nat} (h : hexVal a = some n) (t : Bytes) =>
      scanStr_plain a (hexVal_range h).1 (hexVal_range h).2.1 t
    match p with
    | [] => rfl
    | [x] => simp at e; obtain ⟨rfl, _⟩ := e; rw [scanStr.eq_def]; simp
    | [x, y] => simp at e; obtain ⟨rfl, rfl, _⟩ := e; rw [scanStr_esc]; rfl
    | [x, y, z] => simp at e; obtain ⟨rfl, rfl, rfl, _⟩ := e; rw [scanStr_esc, P h1]; rfl
    | [x, y, z, u] => simp at e; obtain ⟨rfl, rfl, rfl, rfl, _⟩ := e; rw [scanStr_esc, P h1, P h2]; rfl
    | [x, y, z, u, v] =>
      simp at e; obtain ⟨rfl, rfl, rfl, rfl, rfl, _⟩ := e; rw [scanStr_esc, P h1, P h2, P h3]; rfl
    | x :: y :: z :: u :: v :: w :: p =>
      simp at e; obtain ⟨rfl, rfl, rfl, rfl, rfl, rfl, e⟩ := e
      rw [scanStr_esc, P h1, P h2, P h3, P h4, ih p q e]; rfl

theorem readStringBody_cut {s t : Bytes} (h : StrBody s t) (p q : Bytes) (e : t = p ++ q) :
    readStringBody p = .err .stringClose [] := by simp [readStringBody, scanStr_cut h p q e]

theorem readNumber_cut (F : FloatCodec) (t p q : Bytes) (h : ∀ c ∈ t, isNumCh c = true) (e : t = p ++ q) :
    (readNumber F p).rest = [] := by
  have hp : ∀ c ∈ p, isNumCh c = true := fun c hc => h c (by rw [e]; simp [hc])
  have := readNumber_text F (r := []) hp (by rintro c t ⟨⟩)
  rw [List.append_nil] at this
  rw [this]
  unfold convNumber
  split <;> split <;> rfl

theorem readValue_num_cut (F : FloatCodec) (f : Nat) (t p q : Bytes) (h : ∀ c ∈ t, isNumCh c = true)
    (hh : ∃ c t', t = c :: t' ∧ (c = 45 ∨ isDigit c = true)) (e : t = p ++ q) :
    (readValue F (f + 1) p).rest = [] := by
  cases p with
  | nil => rfl
  | cons d p =>
    obtain ⟨c, t', rfl, hc⟩ := hh
    have : c = d := by simpa using (List.cons.inj e).1
    subst this
    rw [readValue_number F f p hc]
    exact readNumber_cut F _ _ q h e

/-- a cut literal -/
theorem readLit_cut (tok : Bytes) (v : Val) (e : Err) (p : Bytes) (h : p.length < tok.length) :
    (readLit tok v e p).rest = [] := by simp [readLit, h, Res.rest]

theorem numEnd_all {w : Bytes} (h : WS w) : NumEnd w := by
  rintro c t rfl
  have := h c (by simp)
  rcases this with rfl | rfl | rfl | rfl <;> decide

theorem rest_nil {α : Type} {x : Res α} (h : x.rest = []) : (∃ e, x = .err e []) ∨ ∃ v, x = .ok v [] := by
  cases x with
  | ok v r => right; exact ⟨v, by simp only [Res.rest] at h; rw [h]⟩
  | err e r => left; exact ⟨e, by simp only [Res.rest] at h; rw [h]⟩

theorem append_cons_prefix {p q w t : Bytes} {c : UInt8} (h : p ++ q = w ++ c :: t) :
    (∃ a', w = p ++ a') ∨ (∃ p', p' ++ q = t ∧ p = w ++ c :: p') := by
  rcases append_prefix_cases h with ⟨a', h1, _⟩ | ⟨p', h1, h2⟩
  · left; exact ⟨a', h1⟩
  · cases p' with
    | nil => left; exact ⟨[], by simp [h1]⟩
    | cons d p' =>
      simp only [List.cons_append, List.cons.injEq] at h2
      right; exact ⟨p', h2.2, by rw [h1, h2.1]⟩

theorem prefix_cases {p q a b : Bytes} (h : p ++ q = a ++ b) :
    (∃ a', a = p ++ a' ∧ a' ≠ []) ∨ (∃ p', p' ++ q = b ∧ p = a ++ p') := by
  rcases append_prefix_cases h with ⟨a', h1, h2⟩ | ⟨p', h1, h2⟩
  · left; exact ⟨a', h1, h2⟩
  · right; exact ⟨p', h2, h1⟩

/-- a member cut before the end of its value -/
theorem readPair_cut {F : FloatCodec} {k w kt w1 w2 t : Bytes} (hw : WS w) (hk : StrBody k kt) (hw1 : WS w1) (hw2 : WS w2)
    (H0 : ∀ (f : Nat) (p q : Bytes), t = p ++ q → q ≠ [] → 2 * p.length + 2 ≤ f → (readValue F f p).rest = [])
    (f : Nat) (p q : Bytes) (e : w ++ 34 :: (kt ++ 34 :: (w1 ++ 58 :: (w2 ++ t))) = p ++ q) (hq : q ≠ [])
    (hf : 2 * p.length + 2 ≤ f) : (readPair F f p).rest = [] := by
  cases f with
  | zero => omega
  | succ f =>
  have H := append_cons_prefix e.symm; clear e; rcases H with ⟨a, ha⟩ | ⟨p, e, rfl⟩
  · rw [readPair_all (ws_prefix hw ha)]; rfl
  simp only [readPair, readString_ws hw]
  have H := append_cons_prefix e; clear e; rcases H with ⟨a, ha⟩ | ⟨p, e, rfl⟩
  · simp only [readString, skipWS_cons (show isWhitespace 34 = false by decide), if_true, readStringBody_cut hk _ _ ha]
    rfl
  simp only [readString, skipWS_cons (show isWhitespace 34 = false by decide), if_true, readStringBody_text hk]
  have H := append_cons_prefix e; clear e; rcases H with ⟨a, ha⟩ | ⟨p, e, rfl⟩
  · have := ws_prefix hw1 ha
    simp [token_all this, skipWS_all this, Res.rest]
  simp only [token_ws hw1, token_self (show isWhitespace 58 = false by decide)]
  have hlen : p.length + 3 ≤ (w ++ 34 :: (kt ++ 34 :: (w1 ++ 58 :: p))).length := by simp; omega
  have : (readValue F f p).rest = [] := by
    have H := prefix_cases e; clear e; rcases H with ⟨a, ha, _⟩ | ⟨p', e, rfl⟩
    · cases f with
      | zero => omega
      | succ f => rw [readValue_all (ws_prefix hw2 ha)]; rfl
    · rw [readValue_ws hw2 _ _ _ (by omega)]
      exact H0 f p' q e.symm hq (by simp at hf; omega)
  rcases rest_nil this with ⟨e, he⟩ | ⟨v, he⟩ <;> rw [he] <;> rfl

theorem readPair_text {F : FloatCodec} {k : Bytes} {v : Val} (f : Nat) {w kt w1 w2 t x : Bytes} (hw : WS w)
    (hk : StrBody k kt) (hw1 : WS w1) (hw2 : WS w2) (ht : Text F v t) (hx : NumEnd x) (hf : 2 * t.length + 2 ≤ f) :
    readPair F f (w ++ 34 :: (kt ++ 34 :: (w1 ++ 58 :: (w2 ++ (t ++ x))))) = .ok (k, v) x := by
  cases f with
  | zero => omega
  | succ f =>
    have hs : readString (34 :: (kt ++ 34 :: (w1 ++ 58 :: (w2 ++ (t ++ x))))) =
        .ok k (w1 ++ 58 :: (w2 ++ (t ++ x))) := by
      simp only [readString, skipWS_cons (show isWhitespace 34 = false by decide), if_true, readStringBody_text hk]
    simp only [readPair, readString_ws hw, hs, token_ws hw1, token_self (show isWhitespace 58 = false by decide)]
    rw [readValue_ws hw2 _ _ _ (by omega), readValue_text ht f _ (by omega) hx]

/-- where a cut member list is cut: inside a member, after it, or later -/
theorem pair_prefix_cases {w kt w1 w2 t z p q : Bytes}
    (e : w ++ 34 :: (kt ++ 34 :: (w1 ++ 58 :: (w2 ++ (t ++ z)))) = p ++ q) :
    (∃ a, a ≠ [] ∧ w ++ 34 :: (kt ++ 34 :: (w1 ++ 58 :: (w2 ++ t))) = p ++ a) ∨
    (∃ p', p' ++ q = z ∧ p = w ++ 34 :: (kt ++ 34 :: (w1 ++ 58 :: (w2 ++ (t ++ p'))))) := by
  have e' : p ++ q = (w ++ 34 :: (kt ++ 34 :: (w1 ++ 58 :: (w2 ++ t)))) ++ z := by rw [← e]; simp
  rcases prefix_cases e' with ⟨a, ha, hn⟩ | ⟨p', hz, hp⟩
  · left; exact ⟨a, hn, ha⟩
  · right; exact ⟨p', hz, by rw [hp]; simp⟩

mutual
/-- reading a proper prefix of a value's text uses up all input -/
theorem readValue_cut {F : FloatCodec} : ∀ {v : Val} {t : Bytes}, Text F v t → ∀ (f : Nat) (p q : Bytes),
    t = p ++ q → q ≠ [] → 2 * p.length + 2 ≤ f → (readValue F f p).rest = []
  | _, _, .null, f + 1, p, q, e, hq, _ => by
    cases p with
    | nil => rfl
    | cons c p =>
      have hlen := congrArg List.length e
      have hq' : 0 < q.length := List.length_pos_iff.mpr hq
      simp only [List.cons_append, List.cons.injEq] at e; obtain ⟨rfl, e⟩ := e
      simp only [readValue, skipWS_cons (show isWhitespace 110 = false by decide)]
      rw [if_pos trivial]
      exact readLit_cut _ _ _ _ (by simp at hlen ⊢; omega)
  | _, _, .true, f + 1, p, q, e, hq, _ => by
    cases p with
    | nil => rfl
    | cons c p =>
      have hlen := congrArg List.length e
      have hq' : 0 < q.length := List.length_pos_iff.mpr hq
      simp only [List.cons_append, List.cons.injEq] at e; obtain ⟨rfl, e⟩ := e
      simp only [readValue, skipWS_cons (show isWhitespace 116 = false by decide)]
      rw [if_neg (by decide), if_pos trivial]
      exact readLit_cut _ _ _ _ (by simp at hlen ⊢; omega)
  | _, _, .false, f + 1, p, q, e, hq, _ => by
    cases p with
    | nil => rfl
    | cons c p =>
      have hlen := congrArg List.length e
      have hq' : 0 < q.length := List.length_pos_iff.mpr hq
      simp only [List.cons_append, List.cons.injEq] at e; obtain ⟨rfl, e⟩ := e
      simp only [readValue, skipWS_cons (show isWhitespace 102 = false by decide)]
      rw [if_neg (by decide), if_neg (by decide), if_pos trivial]
      exact readLit_cut _ _ _ _ (by simp at hlen ⊢; omega)
  | _, _, .nat t n h1 h2 h3, f + 1, p, q, e, hq, _ => by
    refine readValue_num_cut F f _ p q (fun d hd => isNumCh_digit (intPart_digits h1 d hd)) ?_ e
    obtain ⟨c, t', rfl, hc⟩ := intPart_ne h1; exact ⟨c, t', rfl, Or.inr hc⟩
  | _, _, .neg t n h1 h2 h3, f + 1, p, q, e, hq, _ => by
    refine readValue_num_cut F f _ p q ?_ ⟨45, t, rfl, Or.inl rfl⟩ e
    intro d hd
    simp only [List.mem_cons] at hd
    rcases hd with rfl | hd
    · decide
    · exact isNumCh_digit (intPart_digits h1 d hd)
  | _, _, .float t u x h1 h2 h3, f + 1, p, q, e, hq, _ => by
    refine readValue_num_cut F f _ p q ?_ ?_ e
    · intro d hd; rw [List.mem_append] at hd
      rcases hd with hd | hd
      · exact isNumCh_digit (intPart_digits h1 d hd)
      · exact (fracExp_num h2).1 d hd
    · obtain ⟨c, t', rfl, hc⟩ := intPart_ne h1; exact ⟨c, t' ++ u, rfl, Or.inr hc⟩
  | _, _, .negFloat t u x h1 h2 h3, f + 1, p, q, e, hq, _ => by
    refine readValue_num_cut F f _ p q ?_ ⟨45, t ++ u, rfl, Or.inl rfl⟩ e
    intro d hd; simp only [List.mem_cons, List.mem_append] at hd
    rcases hd with rfl | hd | hd
    · decide
    · exact isNumCh_digit (intPart_digits h1 d hd)
    · exact (fracExp_num h2).1 d hd
  | _, _, .str s t h, f + 1, p, q, e, hq, _ => by
    cases p with
    | nil => rfl
    | cons c p =>
      simp only [List.cons_append, List.cons.injEq] at e; obtain ⟨rfl, e⟩ := e
      simp only [readValue, skipWS_cons (show isWhitespace 34 = false by decide)]
      rw [if_neg (by decide), if_neg (by decide), if_neg (by decide), if_pos trivial]
      rcases append_prefix_cases e.symm with ⟨a', ha, _⟩ | ⟨p', hp, hpq⟩
      · rw [readStringBody_cut h p a' ha]; rfl
      · have : p' = [] := by
          cases p' with
          | nil => rfl
          | cons x p' => simp at hpq; exact absurd hpq.2.2 hq
        subst this
        rw [readStringBody_cut h p [] (by simpa using hp.symm)]; rfl
  | _, _, .arr0 w h, f + 2, p, q, e, hq, _ => by
    cases p with
    | nil => rfl
    | cons c p =>
      simp only [List.cons_append, List.cons.injEq] at e; obtain ⟨rfl, e⟩ := e
      have hp : WS p := by
        rcases append_prefix_cases e.symm with ⟨a', ha, _⟩ | ⟨p', hp, hpq⟩
        · exact ws_prefix h ha
        · cases p' with
          | nil => simpa [hp] using h
          | cons x p' => simp at hpq; exact absurd hpq.2.2 hq
      simp only [readValue, skipWS_cons (show isWhitespace 91 = false by decide)]
      rw [if_neg (by decide), if_neg (by decide), if_neg (by decide), if_neg (by decide), if_neg (by decide),
        if_neg (by decide), if_pos trivial]
      cases f with
      | zero => rename_i h0; simp at h0
      | succ f => simp [readArray, token_all hp, readValue_all hp, readArrayRest_all ws_nil, Res.rest]
  | _, _, .arr l t h, f + 2, p, q, e, hq, hf => by
    cases p with
    | nil => rfl
    | cons c p =>
      simp only [List.cons_append, List.cons.injEq] at e; obtain ⟨rfl, e⟩ := e
      have hp : ∃ a', t = p ++ a' := by
        rcases append_prefix_cases e.symm with ⟨a', ha, _⟩ | ⟨p', hp, hpq⟩
        · exact ⟨a', ha⟩
        · cases p' with
          | nil => exact ⟨[], by simp [hp]⟩
          | cons x p' => simp at hpq; exact absurd hpq.2.2 hq
      obtain ⟨a', ha⟩ := hp
      simp only [readValue, skipWS_cons (show isWhitespace 91 = false by decide)]
      rw [if_neg (by decide), if_neg (by decide), if_neg (by decide), if_neg (by decide), if_neg (by decide),
        if_neg (by decide), if_pos trivial]
      simp only [readArray]
      have ht : token 93 p = none := by
        obtain ⟨w, c, t', hw, ht, h1, h2⟩ := elems_head h
        rw [ht] at ha
        rcases append_prefix_cases ha.symm with ⟨b, hb, _⟩ | ⟨p', hp, hpq⟩
        · exact token_all (ws_prefix hw hb) _
        · rw [hp, token_ws hw]
          cases p' with
          | nil => rfl
          | cons x p' => simp at hpq; rw [hpq.1]; exact token_ne h1 h2 _
      have := readElems_cut h f [] p a' ha (by simp at hf; omega)
      rw [ht]
      simp only
      rcases this with ⟨e, h1⟩ | ⟨v, r, h1, h2⟩
      · rw [h1]; rfl
      · rw [h1]; exact h2
  | _, _, .obj0 w h, f + 2, p, q, e, hq, _ => by
    cases p with
    | nil => rfl
    | cons c p =>
      simp only [List.cons_append, List.cons.injEq] at e; obtain ⟨rfl, e⟩ := e
      have hp : WS p := by
        rcases append_prefix_cases e.symm with ⟨a', ha, _⟩ | ⟨p', hp, hpq⟩
        · exact ws_prefix h ha
        · cases p' with
          | nil => simpa [hp] using h
          | cons x p' => simp at hpq; exact absurd hpq.2.2 hq
      simp only [readValue, skipWS_cons (show isWhitespace 123 = false by decide)]
      rw [if_neg (by decide), if_neg (by decide), if_neg (by decide), if_neg (by decide), if_neg (by decide),
        if_pos trivial]
      cases f with
      | zero => rename_i h0; simp at h0
      | succ f => simp [readObject, token_all hp, readPair_all hp, Res.rest]
  | _, _, .obj m t h, f + 2, p, q, e, hq, hf => by
    cases p with
    | nil => rfl
    | cons c p =>
      simp only [List.cons_append, List.cons.injEq] at e; obtain ⟨rfl, e⟩ := e
      have hp : ∃ a', t = p ++ a' := by
        rcases append_prefix_cases e.symm with ⟨a', ha, _⟩ | ⟨p', hp, hpq⟩
        · exact ⟨a', ha⟩
        · cases p' with
          | nil => exact ⟨[], by simp [hp]⟩
          | cons x p' => simp at hpq; exact absurd hpq.2.2 hq
      obtain ⟨a', ha⟩ := hp
      simp only [readValue, skipWS_cons (show isWhitespace 123 = false by decide)]
      rw [if_neg (by decide), if_neg (by decide), if_neg (by decide), if_neg (by decide), if_neg (by decide),
        if_pos trivial]
      simp only [readObject]
      have ht : token 125 p = none := by
        obtain ⟨w, t', hw, ht⟩ := members_head h
        rw [ht] at ha
        rcases append_prefix_cases ha.symm with ⟨b, hb, _⟩ | ⟨p', hp, hpq⟩
        · exact token_all (ws_prefix hw hb) _
        · rw [hp, token_ws hw]
          cases p' with
          | nil => rfl
          | cons x p' => simp at hpq; rw [hpq.1]; exact token_ne (by decide) (by decide) _
      have := readMembers_cut h f [] p a' ha (by simp at hf; omega)
      rw [ht]
      simp only
      rcases this with ⟨e, h1⟩ | ⟨k, v, r, h1, h2⟩
      · rw [h1]; rfl
      · rw [h1]; exact h2
theorem readElems_cut {F : FloatCodec} : ∀ {l : List Val} {t : Bytes}, Elems F l t →
    ∀ (f : Nat) (acc : List Val) (p q : Bytes), t = p ++ q → 2 * p.length + 2 ≤ f →
    (∃ e, readValue F f p = .err e []) ∨
    ∃ v r, readValue F f p = .ok v r ∧ (readArrayRest F f (acc ++ [v]) r).rest = []
  | _, _, .one v w t w' hw ht hw', f + 1, acc, p, q, e, hf => by
    have H := prefix_cases e.symm; clear e; rcases H with ⟨a, ha, _⟩ | ⟨p, e, rfl⟩
    · right; exact ⟨.null, [], readValue_all (ws_prefix hw ha) F f, by rw [readArrayRest_all ws_nil]; rfl⟩
    rw [readValue_ws hw _ _ _ (by omega)]
    simp only [List.length_append] at hf
    have H := prefix_cases e; clear e; rcases H with ⟨a, ha, hn⟩ | ⟨p, e, rfl⟩
    · have := readValue_cut ht (f + 1) p a ha hn (by omega)
      rcases rest_nil this with ⟨e, he⟩ | ⟨v, he⟩
      · left; exact ⟨e, he⟩
      · right; exact ⟨v, [], he, by rw [readArrayRest_all ws_nil]; rfl⟩
    · have hp := ws_prefix hw' e.symm
      right; refine ⟨v, p, ?_, by rw [readArrayRest_all hp]; rfl⟩
      exact readValue_text ht _ _ (by simp at hf; omega) (numEnd_all hp)
  | _, _, .cons v w t w' l t' hw ht hw' hl, f + 1, acc, p, q, e, hf => by
    have H := prefix_cases e.symm; clear e; rcases H with ⟨a, ha, _⟩ | ⟨p, e, rfl⟩
    · right; exact ⟨.null, [], readValue_all (ws_prefix hw ha) F f, by rw [readArrayRest_all ws_nil]; rfl⟩
    rw [readValue_ws hw _ _ _ (by omega)]
    simp only [List.length_append] at hf
    have H := prefix_cases e; clear e; rcases H with ⟨a, ha, hn⟩ | ⟨p, e, rfl⟩
    · have := readValue_cut ht (f + 1) p a ha hn (by omega)
      rcases rest_nil this with ⟨e, he⟩ | ⟨v, he⟩
      · left; exact ⟨e, he⟩
      · right; exact ⟨v, [], he, by rw [readArrayRest_all ws_nil]; rfl⟩
    · have H := append_cons_prefix e; clear e; rcases H with ⟨a, ha⟩ | ⟨p, e, rfl⟩
      · have hp := ws_prefix hw' ha
        right; refine ⟨v, p, ?_, by rw [readArrayRest_all hp]; rfl⟩
        exact readValue_text ht _ _ (by simp at hf; omega) (numEnd_all hp)
      · right
        refine ⟨v, w' ++ 44 :: p, readValue_text ht _ _ (by simp at hf; omega) (numEnd_ws hw' (by decide) _), ?_⟩
        simp only [readArrayRest, token_ws hw', token_self (show isWhitespace 44 = false by decide),
          token_ne (show isWhitespace 44 = false by decide) (show (44 : UInt8) ≠ 93 by decide)]
        rcases readElems_cut hl f (acc ++ [v]) p q e.symm (by simp at hf; omega) with ⟨e, h1⟩ | ⟨v', r, h1, h2⟩
        · rw [h1]; rfl
        · rw [h1]; exact h2
theorem readMembers_cut {F : FloatCodec} : ∀ {m : List (Bytes × Val)} {t : Bytes}, Members F m t →
    ∀ (f : Nat) (acc : List (Bytes × Val)) (p q : Bytes), t = p ++ q → 2 * p.length + 2 ≤ f →
    (∃ e, readPair F f p = .err e []) ∨
    ∃ k v r, readPair F f p = .ok (k, v) r ∧ (readObjectRest F f (mapSet acc k v) r).rest = []
  | _, _, .one k v w kt w1 w2 t w' hw hk hw1 hw2 ht hw', f + 1, acc, p, q, e, hf => by
    have H := pair_prefix_cases e; clear e; rcases H with ⟨a, hn, ha⟩ | ⟨p', e, rfl⟩
    · have := readPair_cut hw hk hw1 hw2 (fun f p q => readValue_cut ht f p q) (f + 1) p a ha hn hf
      rcases rest_nil this with ⟨e, he⟩ | ⟨kv, he⟩
      · left; exact ⟨e, he⟩
      · right; exact ⟨kv.1, kv.2, [], he, by rw [readObjectRest_all ws_nil]; rfl⟩
    · have hp := ws_prefix hw' e.symm
      right; exact ⟨k, v, p', readPair_text _ hw hk hw1 hw2 ht (numEnd_all hp) (by simp at hf; omega),
        by rw [readObjectRest_all hp]; rfl⟩
  | _, _, .cons k v w kt w1 w2 t w' m t' hw hk hw1 hw2 ht hw' hm, f + 1, acc, p, q, e, hf => by
    have H := pair_prefix_cases e; clear e; rcases H with ⟨a, hn, ha⟩ | ⟨p', e, rfl⟩
    · have := readPair_cut hw hk hw1 hw2 (fun f p q => readValue_cut ht f p q) (f + 1) p a ha hn hf
      rcases rest_nil this with ⟨e, he⟩ | ⟨kv, he⟩
      · left; exact ⟨e, he⟩
      · right; exact ⟨kv.1, kv.2, [], he, by rw [readObjectRest_all ws_nil]; rfl⟩
    · have H := append_cons_prefix e; clear e; rcases H with ⟨a, ha⟩ | ⟨p, e, rfl⟩
      · have hp := ws_prefix hw' ha
        right; exact ⟨k, v, p', readPair_text _ hw hk hw1 hw2 ht (numEnd_all hp) (by simp at hf; omega),
          by rw [readObjectRest_all hp]; rfl⟩
      · right
        refine ⟨k, v, w' ++ 44 :: p, readPair_text _ hw hk hw1 hw2 ht (numEnd_ws hw' (by decide) _) (by simp at hf; omega), ?_⟩
        simp only [readObjectRest, token_ws hw', token_self (show isWhitespace 44 = false by decide),
          token_ne (show isWhitespace 44 = false by decide) (show (44 : UInt8) ≠ 125 by decide)]
        rcases readMembers_cut hm f (mapSet acc k v) p q e.symm (by simp at hf; omega) with ⟨e, h1⟩ | ⟨k', v', r, h1, h2⟩
        · rw [h1]; rfl
        · rw [h1]; exact h2
end

/-! ### Whole bodies -/

theorem readEntry_all (F : FloatCodec) (tl : TopLevel) {w : Bytes} (h : WS w) (i : Int) (n : Nat) :
    (readLoop F tl n ⟨true, i, w⟩).2 ≠ .eof := by
  cases n with
  | zero => simp [readLoop]
  | succ n => simp [readLoop, readEntry, token_all h]

theorem readTop_elems_cut {F : FloatCodec} {l : List Val} {t : Bytes} (h : Elems F l t) (n : Nat) (i : Int) (p q : Bytes)
    (e : t = p ++ q) : (∃ x st, readBody F .array i p = .err x st) ∨
      ∃ x st, readBody F .array i p = .entry x st ∧ (readLoop F .array n st).2 ≠ .eof := by
  induction l generalizing t n i p with
  | nil => cases h
  | cons v l ih =>
    have fin : ∀ p, (readValue F (fuelFor p) p).rest = [] → (∃ x st, readBody F .array i p = .err x st) ∨
        ∃ x st, readBody F .array i p = .entry x st ∧ (readLoop F .array n st).2 ≠ .eof := by
      intro p hp
      rcases rest_nil hp with ⟨e, he⟩ | ⟨v, he⟩
      · left; simp only [readBody, he]; exact ⟨_, _, rfl⟩
      · right; simp only [readBody, he]; exact ⟨_, _, rfl, readEntry_all F _ ws_nil _ n⟩
    have done : ∀ p r, readValue F (fuelFor p) p = .ok v r → (readLoop F .array n ⟨true, i + 1, r⟩).2 ≠ .eof →
        (∃ x st, readBody F .array i p = .err x st) ∨
        ∃ x st, readBody F .array i p = .entry x st ∧ (readLoop F .array n st).2 ≠ .eof := by
      intro p r he hr
      right; simp only [readBody, he]; exact ⟨_, _, rfl, hr⟩
    cases h with
    | one _ w t w' hw ht hw' =>
      have H := prefix_cases e.symm; clear e; rcases H with ⟨a, ha, _⟩ | ⟨p, e, rfl⟩
      · exact fin p (by unfold fuelFor; rw [readValue_all (ws_prefix hw ha)]; rfl)
      have H := prefix_cases e; clear e; rcases H with ⟨a, ha, hn⟩ | ⟨p, e, rfl⟩
      · apply fin
        rw [readValue_ws hw _ _ _ (by unfold fuelFor; omega)]
        exact readValue_cut ht _ p a ha hn (by unfold fuelFor; simp; omega)
      · have hp := ws_prefix hw' e.symm
        apply done _ p
        · rw [readValue_ws hw _ _ _ (by unfold fuelFor; omega)]
          exact readValue_text ht _ _ (by unfold fuelFor; simp; omega) (numEnd_all hp)
        · exact readEntry_all F _ hp _ n
    | cons _ w t w' _ t' hw ht hw' hl =>
      have H := prefix_cases e.symm; clear e; rcases H with ⟨a, ha, _⟩ | ⟨p, e, rfl⟩
      · exact fin p (by unfold fuelFor; rw [readValue_all (ws_prefix hw ha)]; rfl)
      have H := prefix_cases e; clear e; rcases H with ⟨a, ha, hn⟩ | ⟨p, e, rfl⟩
      · apply fin
        rw [readValue_ws hw _ _ _ (by unfold fuelFor; omega)]
        exact readValue_cut ht _ p a ha hn (by unfold fuelFor; simp; omega)
      · have H := append_cons_prefix e; clear e; rcases H with ⟨a, ha⟩ | ⟨p, e, rfl⟩
        · have hp := ws_prefix hw' ha
          apply done _ p
          · rw [readValue_ws hw _ _ _ (by unfold fuelFor; omega)]
            exact readValue_text ht _ _ (by unfold fuelFor; simp; omega) (numEnd_all hp)
          · exact readEntry_all F _ hp _ n
        · apply done _ (w' ++ 44 :: p)
          · rw [readValue_ws hw _ _ _ (by unfold fuelFor; omega)]
            exact readValue_text ht _ _ (by unfold fuelFor; simp; omega) (numEnd_ws hw' (by decide) _)
          · cases n with
            | zero => simp [readLoop]
            | succ n =>
              simp only [readLoop, readEntry, closeCh, token_ws hw', if_true,
                token_self (show isWhitespace 44 = false by decide),
                token_ne (show isWhitespace 44 = false by decide) (show (44 : UInt8) ≠ 93 by decide)]
              rcases ih hl n (i + 1) p e.symm with ⟨x, st, h1⟩ | ⟨x, st, h1, h2⟩
              · rw [h1]; simp
              · rw [h1]; exact h2

theorem readTop_members_cut {F : FloatCodec} {l : List (Bytes × Val)} {t : Bytes} (h : Members F l t) (n : Nat) (i : Int)
    (p q : Bytes) (e : t = p ++ q) : (∃ x st, readBody F .object i p = .err x st) ∨
      ∃ x st, readBody F .object i p = .entry x st ∧ (readLoop F .object n st).2 ≠ .eof := by
  induction l generalizing t n i p with
  | nil => cases h
  | cons kv l ih =>
    obtain ⟨k, v⟩ := kv
    have fin : ∀ p, (readPair F (fuelFor p) p).rest = [] → (∃ x st, readBody F .object i p = .err x st) ∨
        ∃ x st, readBody F .object i p = .entry x st ∧ (readLoop F .object n st).2 ≠ .eof := by
      intro p hp
      rcases rest_nil hp with ⟨e, he⟩ | ⟨v, he⟩
      · left; simp only [readBody, he]; exact ⟨_, _, rfl⟩
      · right; simp only [readBody, he]; exact ⟨_, _, rfl, readEntry_all F _ ws_nil _ n⟩
    have done : ∀ p r, readPair F (fuelFor p) p = .ok (k, v) r → (readLoop F .object n ⟨true, i + 1, r⟩).2 ≠ .eof →
        (∃ x st, readBody F .object i p = .err x st) ∨
        ∃ x st, readBody F .object i p = .entry x st ∧ (readLoop F .object n st).2 ≠ .eof := by
      intro p r he hr
      right; simp only [readBody, he]; exact ⟨_, _, rfl, hr⟩
    cases h with
    | one _ _ w kt w1 w2 t w' hw hk hw1 hw2 ht hw' =>
      have H := pair_prefix_cases e; clear e; rcases H with ⟨a, hn, ha⟩ | ⟨p', e, rfl⟩
      · exact fin p (readPair_cut hw hk hw1 hw2 (fun f p q => readValue_cut ht f p q) _ p a ha hn
          (by unfold fuelFor; omega))
      · have hp := ws_prefix hw' e.symm
        exact done _ p' (readPair_text _ hw hk hw1 hw2 ht (numEnd_all hp) (by unfold fuelFor; simp; omega))
          (readEntry_all F _ hp _ n)
    | cons _ _ w kt w1 w2 t w' _ t' hw hk hw1 hw2 ht hw' hm =>
      have H := pair_prefix_cases e; clear e; rcases H with ⟨a, hn, ha⟩ | ⟨p', e, rfl⟩
      · exact fin p (readPair_cut hw hk hw1 hw2 (fun f p q => readValue_cut ht f p q) _ p a ha hn
          (by unfold fuelFor; omega))
      · have H := append_cons_prefix e; clear e; rcases H with ⟨a, ha⟩ | ⟨p, e, rfl⟩
        · have hp := ws_prefix hw' ha
          exact done _ p' (readPair_text _ hw hk hw1 hw2 ht (numEnd_all hp) (by unfold fuelFor; simp; omega))
            (readEntry_all F _ hp _ n)
        · apply done _ (w' ++ 44 :: p)
            (readPair_text _ hw hk hw1 hw2 ht (numEnd_ws hw' (by decide) _) (by unfold fuelFor; simp; omega))
          cases n with
          | zero => simp [readLoop]
          | succ n =>
            simp only [readLoop, readEntry, closeCh, token_ws hw', if_true,
              token_self (show isWhitespace 44 = false by decide),
              token_ne (show isWhitespace 44 = false by decide) (show (44 : UInt8) ≠ 125 by decide)]
            rcases ih hm n (i + 1) p e.symm with ⟨x, st, h1⟩ | ⟨x, st, h1, h2⟩
            · rw [h1]; simp
            · rw [h1]; exact h2

theorem readBody_all (F : FloatCodec) (tl : TopLevel) {w : Bytes} (h : WS w) (n : Nat) (i : Int) :
    (∃ x st, readBody F tl i w = .err x st) ∨
      ∃ x st, readBody F tl i w = .entry x st ∧ (readLoop F tl n st).2 ≠ .eof := by
  cases tl with
  | array =>
    right
    have : readValue F (fuelFor w) w = .ok .null [] := by unfold fuelFor; exact readValue_all h F _
    simp only [readBody, this]; exact ⟨_, _, rfl, readEntry_all F _ ws_nil _ n⟩
  | object =>
    left
    have : readPair F (fuelFor w) w = .err .string [] := by unfold fuelFor; exact readPair_all h F _
    simp only [readBody, this]; exact ⟨_, _, rfl⟩

/-- A cut container never ends in a clean end-of-file. -/
theorem readAll_cut {F : FloatCodec} {tl : TopLevel} {w t : Bytes} (hw : WS w)
    (hopen : isWhitespace (openCh tl) = false)
    (H0 : ∀ n p q, t = p ++ q → token (closeCh tl) p = none ∧ ((∃ x st, readBody F tl 0 p = .err x st) ∨
      ∃ x st, readBody F tl 0 p = .entry x st ∧ (readLoop F tl n st).2 ≠ .eof))
    (p q : Bytes) (e : w ++ openCh tl :: (t ++ [closeCh tl]) = p ++ q) (hq : q ≠ []) :
    (readAll F tl p).2 ≠ .eof := by
  unfold readAll
  have H := append_cons_prefix e.symm; clear e; rcases H with ⟨a, ha⟩ | ⟨p, e, rfl⟩
  · simp [readLoop, readEntry, token_all (ws_prefix hw ha)]
  · have hp : ∃ a, t = p ++ a := by
      have H := append_cons_prefix e; clear e; rcases H with ⟨a, ha⟩ | ⟨p', e, hp⟩
      · exact ⟨a, ha⟩
      · simp at e; exact absurd e.2 hq
    obtain ⟨a, ha⟩ := hp
    obtain ⟨h1, h2⟩ := H0 (w ++ openCh tl :: p).length p a ha
    simp only [readLoop, readEntry, Bool.false_eq_true, if_false, token_ws hw, token_self hopen, h1]
    rcases h2 with ⟨x, st, h2⟩ | ⟨x, st, h2, h3⟩
    · rw [h2]; simp
    · rw [h2]; exact h3

end Verif.Json
