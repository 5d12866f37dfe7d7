import Verif.Lemmas.JsonBufRest
import Verif.Lemmas.JsonBufTotal
import Verif.Lemmas.JsonOthers
import Verif.Lemmas.JsonTrunc
/- The buffered JSON reader on texts that are cut short. -/
set_option autoImplicit false
namespace Verif.JsonBuf
open Json JsonG

/-- whitespace and letters of the literals: what may remain of a text that is cut short -/
def Junk (s : Bytes) : Prop := ∀ c ∈ s, isWhitespace c = true ∨ c ∈ b!"nultrefas"

theorem Junk.suffix {s t : Bytes} (h : Junk t) (hs : s <:+ t) : Junk s := fun c hc => h c (hs.subset hc)

theorem Junk.append {s t : Bytes} (h : Junk s) (h' : Junk t) : Junk (s ++ t) := by
  intro c hc
  rcases List.mem_append.1 hc with hc | hc
  · exact h c hc
  · exact h' c hc

theorem junk_ws {w : Bytes} (h : WS w) : Junk w := by
  intro c hc
  left
  rcases h c hc with rfl | rfl | rfl | rfl <;> decide

theorem skipWS_split (s : Bytes) : ∃ w, Junk w ∧ s = w ++ skipWS s := by
  refine ⟨s.takeWhile isWhitespace, fun c hc => .inl ?_, ?_⟩
  · exact List.all_eq_true.1 List.all_takeWhile c hc
  · have : skipWS s = s.dropWhile isWhitespace := by
      induction s with
      | nil => rfl
      | cons c s ih =>
        by_cases h : isWhitespace c = true
        · rw [List.dropWhile_cons_of_pos h, ← ih]; rw [skipWS.eq_def]; simp [h]
        · rw [List.dropWhile_cons_of_neg h]; rw [skipWS.eq_def]; simp [h]
    rw [this, List.takeWhile_append_dropWhile]

theorem junk_skip {s p : Bytes} (h : Junk p) (e : skipWS s = skipWS p) : Junk s := by
  obtain ⟨w, hw, hs⟩ := skipWS_split s
  obtain ⟨v, hv, hp⟩ := skipWS_split p
  rw [hs, e]
  refine hw.append (h.suffix ?_)
  conv => rhs; rw [hp]
  exact List.suffix_append _ _

/-- at most `n` bytes are unread, nothing but junk -/
def J (n : Nat) (st : St) : Prop := Good n st ∧ Junk st.rest

theorem J.mono {n m : Nat} {st : St} (h : J n st) (hn : n ≤ m) : J m st := ⟨h.1.mono hn, h.2⟩

/-- `n` bounds what is unread, which is `p` but for leading whitespace -/
def At (n : Nat) (st : St) (p : Bytes) : Prop := ∃ s, Inv st s ∧ s.length ≤ n ∧ skipWS s = skipWS p

/-- nothing but junk remains, unless there is a panic -/
def CutB {α : Type} (n : Nat) : Res α → Prop
  | .ok _ st => J n st
  | .err _ st => J n st
  | .panic => True

theorem CutB.mono {α : Type} {n m : Nat} {x : Res α} (h : CutB n x) (hn : n ≤ m) : CutB m x := by
  cases x with
  | ok a st => exact J.mono h hn
  | err e st => exact J.mono h hn
  | panic => trivial

theorem cutB_of {α : Type} {n : Nat} {x : Res α} {s : Bytes} (h : TotB n x) (hr : x.RestOf s) (hs : Junk s) : CutB n x := by
  cases x with
  | ok a st => exact ⟨h, hs.suffix hr⟩
  | err e st => exact ⟨h.2, hs.suffix hr⟩
  | panic => trivial

section
variable {F : FloatCodec} {E : Env} {f n : Nat} {st : St}

theorem J.value (h : J n st) (hf : 3 * n + 1 ≤ f) : CutB n (readValue F E f st) :=
  cutB_of ((totB_all F E f).1 n st h.1 hf) (readValue_rest F E f st) h.2

theorem J.object (h : J n st) (hf : 3 * n + 3 ≤ f) : CutB n (readObject F E f st) :=
  cutB_of ((totB_all F E f).2.1 n st h.1 hf) (readObject_rest F E f st) h.2

theorem J.objectRest (h : J n st) (hf : 3 * n + 2 ≤ f) (m : List (Bytes × Val)) : CutB n (readObjectRest F E f m st) :=
  cutB_of ((totB_all F E f).2.2.1 n m st h.1 hf) (readObjectRest_rest F E f m st) h.2

theorem J.array (h : J n st) (hf : 3 * n + 2 ≤ f) : CutB n (readArray F E f st) :=
  cutB_of ((totB_all F E f).2.2.2.1 n st h.1 hf) (readArray_rest F E f st) h.2

theorem J.arrayRest (h : J n st) (hf : 3 * n + 1 ≤ f) (l : List Val) : CutB n (readArrayRest F E f l st) :=
  cutB_of ((totB_all F E f).2.2.2.2.1 n l st h.1 hf) (readArrayRest_rest F E f l st) h.2

theorem J.pair (h : J n st) (hf : 3 * n + 2 ≤ f) : CutB n (readPair F E f st) :=
  cutB_of ((totB_all F E f).2.2.2.2.2 n st h.1 hf) (readPair_rest F E f st) h.2

theorem J.peek (h : J n st) : J n (peek st) := ⟨h.1.peek, h.2.suffix (peek_rest st)⟩

theorem token_mem {c : UInt8} {s r : Bytes} (h : Json.token c s = some r) : skipWS s = c :: r := by
  unfold Json.token at h
  cases hk : skipWS s with
  | nil => rw [hk] at h; cases h
  | cons d t =>
    rw [hk] at h
    simp only at h
    split at h
    · rename_i e
      rw [e, Option.some.inj h]
    · cases h

theorem J.token (h : J n st) {c : UInt8} (hc : isWhitespace c = false ∧ c ∉ b!"nultrefas") : ∃ st', token E c st = (false, st') ∧ J n st' := by
  obtain ⟨ok, st', e, h1, h2⟩ := token_good E c h.1
  have hr := token_rest E c st
  rw [e] at hr
  obtain ⟨s, hi, _⟩ := h.1
  obtain ⟨ok', st2, e', _, h3⟩ := token_spec E c hi
  rw [e] at e'
  obtain ⟨rfl, rfl⟩ := Prod.mk.inj e'
  rcases h3 with ⟨_, r, hr', _⟩ | ⟨rfl, _⟩
  · have hs : st.rest = s := hi.rest
    have hj := h.2
    rw [hs] at hj
    obtain ⟨w, _, hw⟩ := skipWS_split s
    rw [token_mem hr'] at hw
    rcases hj c (by rw [hw]; simp) with h' | h'
    · rw [hc.1] at h'; cases h'
    · exact absurd h' hc.2
  · exact ⟨st', e, h1, h.2.suffix hr⟩

theorem at_inv {s : Bytes} (h : Inv st s) : At s.length st s := ⟨s, h, Nat.le_refl _, rfl⟩

theorem At.good {p : Bytes} (h : At n st p) : Good n st := by
  obtain ⟨s, h1, h2, _⟩ := h
  exact ⟨s, h1, h2⟩

theorem At.mono {p : Bytes} {m : Nat} (h : At n st p) (hn : n ≤ m) : At m st p := by
  obtain ⟨s, h1, h2, h3⟩ := h
  exact ⟨s, h1, Nat.le_trans h2 hn, h3⟩

theorem At.exact {p : Bytes} (h : At n st p) : At st.rest.length st p := by
  obtain ⟨s, h1, h2, h3⟩ := h
  have : st.rest = s := h1.rest
  exact ⟨s, h1, by rw [this]; exact Nat.le_refl _, h3⟩

theorem At.ws {w p : Bytes} (h : At n st (w ++ p)) (hw : WS w) : At n st p := by
  obtain ⟨s, h1, h2, h3⟩ := h
  exact ⟨s, h1, h2, by rw [h3, skipWS_ws hw]⟩

theorem At.junk {p : Bytes} (h : At n st p) (hp : Junk p) : J n st := by
  obtain ⟨s, h1, h2, h3⟩ := h
  refine ⟨⟨s, h1, h2⟩, ?_⟩
  have : st.rest = s := h1.rest
  rw [this]
  exact junk_skip hp h3

theorem At.peek {p : Bytes} (h : At n st p) : At n (peek st) p := by
  obtain ⟨s, h1, h2, h3⟩ := h
  exact ⟨s, (peek_inv h1).1, h2, h3⟩

theorem skipWS_length (s : Bytes) : (skipWS s).length ≤ s.length := by
  obtain ⟨w, _, h⟩ := skipWS_split s
  have := congrArg List.length h
  rw [List.length_append] at this
  omega

theorem At.length {p : Bytes} (h : At n st p) : (skipWS p).length ≤ n := by
  obtain ⟨s, h1, h2, h3⟩ := h
  rw [← h3]
  exact Nat.le_trans (skipWS_length s) h2

theorem At.token_some {p r : Bytes} {c : UInt8} (h : At n st p) (ht : Json.token c p = some r) :
    ∃ st', token E c st = (true, st') ∧ At (n - 1) st' r ∧ 1 ≤ n := by
  have hl := h.length
  obtain ⟨s, h1, h2, h3⟩ := h
  have hp := token_mem ht
  rw [hp, List.length_cons] at hl
  rw [← token_skip, ← h3, token_skip] at ht
  obtain ⟨st', e, h4⟩ := JsonBuf.token_some (E := E) h1 ht
  exact ⟨st', e, ⟨r, h4, by omega, rfl⟩, by omega⟩

theorem At.token_none {p : Bytes} {c : UInt8} (h : At n st p) (ht : Json.token c p = none) :
    ∃ st', token E c st = (false, st') ∧ At n st' p := by
  obtain ⟨s, h1, h2, h3⟩ := h
  rw [← token_skip, ← h3, token_skip] at ht
  obtain ⟨st', e, h4⟩ := JsonBuf.token_none (E := E) h1 ht
  exact ⟨st', e, ⟨_, h4, Nat.le_trans (skipWS_length s) h2, by rw [skipWS_idem, h3]⟩⟩

theorem At.next {st' : St} {p r : Bytes} (h : At n st p) (hi : Inv st' r) (hr : st'.rest <:+ st.rest) : At n st' r := by
  obtain ⟨s, h1, h2, _⟩ := h
  have e1 : st.rest = s := h1.rest
  have e2 : st'.rest = r := hi.rest
  rw [e1, e2] at hr
  exact ⟨r, hi, Nat.le_trans hr.length_le h2, rfl⟩

theorem At.value {p r : Bytes} {v : Val} (h : At n st p) (hv : JsonClean.value F f p = some (v, r)) :
    ∃ st', readValue F E f st = .ok v st' ∧ At n st' r := by
  have h0 := h
  obtain ⟨s, h1, h2, h3⟩ := h
  rw [← value_skip, ← h3, value_skip] at hv
  obtain ⟨st', e, h4⟩ := (cleanAll F E f).value h1 hv
  have hr := readValue_rest F E f st
  rw [e] at hr
  exact ⟨st', e, h0.next h4 hr⟩

theorem At.string {p r x : Bytes} (h : At n st p) (hv : JsonClean.string p = some (x, r)) :
    ∃ st', readString E st = .ok x st' ∧ At n st' r := by
  have h0 := h
  obtain ⟨s, h1, h2, h3⟩ := h
  rw [← string_skip, ← h3, string_skip] at hv
  obtain ⟨st', e, h4⟩ := readString_clean E h1 hv
  have hr := readString_rest E st
  rw [e] at hr
  exact ⟨st', e, h0.next h4 hr⟩

theorem At.head {p : Bytes} {c : UInt8} (h : At n st (c :: p)) (hc : isWhitespace c = false) :
    ∃ b st', current E st = (b, st') ∧ b.data.head? = some c ∧ At n st' (c :: p) ∧ Inv st' (c :: p) := by
  obtain ⟨s, h1, h2, h3⟩ := h
  obtain ⟨b, st1, e, g1, g2, g3, g4, g5⟩ := current_spec E h1
  refine ⟨b, st1, e, ?_, ⟨_, g2, Nat.le_trans (skipWS_length s) h2, by rw [skipWS_idem, h3]⟩, by rw [h3, skipWS_cons hc] at g2; exact g2⟩
  rw [g1, head_buf g2 g4, h3, skipWS_cons hc]
  rfl

/-- a string that is not closed is an error with nothing left to read, or a panic -/
theorem scan_unclosed (E : Env) : ∀ (k : Nat) (b : Slice) (i : Nat) (st : St) (T : Bytes), Lp b st T → st.prev ≤ i →
    i ≤ b.data.length + 1 → scanStr (T.drop i) = none →
    scan E k b i st = .panic ∨ (∃ st', scan E k b i st = .err .fuel st') ∨ ∃ st', scan E k b i st = .err .stringClose st' ∧ Inv st' []
  | 0, b, i, st, T, h, hp, hi, hs => .inr (.inl ⟨st, rfl⟩)
  | n + 1, b, i, st, T, h, hp, hi, hs => by
    rw [scan]
    rcases h.step E i hp hi with ⟨st', e, h1, h2, h3, h4, h5⟩ | ⟨b', st', e, h1, h2, h3, h3', h4⟩
    · rw [e]
      exact .inr (.inr ⟨st', rfl, h3⟩)
    · rw [e]
      simp only
      by_cases hiT : i < T.length
      · have hib := h3 hiT
        rw [h1.get hib, List.getElem?_eq_getElem hiT]
        simp only
        rw [List.drop_eq_getElem_cons hiT, scanStr.eq_def] at hs
        simp only at hs
        by_cases hc : T[i] = 92
        · rw [if_pos hc]
          rw [if_pos hc] at hs
          refine scan_unclosed E n b' (i + 2) st' T h1 (by omega) (by omega) ?_
          cases hd : T.drop (i + 1) with
          | nil =>
            rw [← List.drop_drop (i := 1) (j := i + 1), hd]; rfl
          | cons d t =>
            rw [hd] at hs
            rw [← List.drop_drop (i := 1) (j := i + 1), hd]
            simpa using hs
        · rw [if_neg hc]
          rw [if_neg hc] at hs
          by_cases hq : T[i] = 34
          · rw [if_pos hq] at hs; simp at hs
          · rw [if_neg hq]
            rw [if_neg hq] at hs
            exact scan_unclosed E n b' (i + 1) st' T h1 (by omega) (by omega) (by simpa using hs)
      · have : b'.data[i]? = none := by
          rw [List.getElem?_eq_none]
          have := h1.len
          omega
        rw [this]
        exact .inl rfl

theorem At.open {p : Bytes} (h : At n st (34 :: p)) (hp : scanStr p = none) : CutB n (readString E st) := by
  have ht := totB_readString E h.good
  obtain ⟨s, h1, h2, h3⟩ := h
  rw [skipWS_cons (by decide)] at h3
  obtain ⟨b, st1, e, g1, g2, g3, g4, g5⟩ := current_spec E h1
  have hh : b.data.head? = some 34 := by rw [g1, head_buf g2 g4, h3]; rfl
  have hL := lp_current g2 g1 g3
  have key := scan_unclosed E (b.data.length + st1.src.length + 1) b 1 st1 (skipWS s) hL (by omega) (by omega) (by rw [h3]; exact hp)
  unfold readString at ht ⊢
  simp only [e] at ht ⊢
  rw [if_pos hh] at ht ⊢
  rcases key with e | ⟨st', e⟩ | ⟨st', e, hi⟩
  · rw [e]; trivial
  · rw [e] at ht; exact absurd rfl ht.1
  · rw [e]
    refine ⟨⟨[], hi, Nat.zero_le _⟩, ?_⟩
    have : st'.rest = [] := hi.rest
    rw [this]
    intro c hc; cases hc

theorem scanStr_cutText {t : Bytes} (h : StrText t) : ∀ p q : Bytes, t = p ++ q → scanStr p = none := by
  induction h with
  | nil => intro p q e; simp at e; rw [e.1]; rfl
  | plain c h1 h2 h3 _ ih =>
    intro p q e
    cases p with
    | nil => rfl
    | cons d p => simp at e; obtain ⟨rfl, e⟩ := e; rw [scanStr_plain _ h3 h2, ih p q e]; rfl
  | esc e h _ ih =>
    intro p q e
    match p with
    | [] => rfl
    | [d] => simp at e; obtain ⟨rfl, _⟩ := e; rw [scanStr.eq_def]; simp
    | d :: d' :: p => simp at e; obtain ⟨rfl, rfl, e⟩ := e; rw [scanStr_esc, ih p q e]; rfl
  | uni a b c d h1 h2 h3 h4 _ ih =>
    obtain ⟨n1, h1⟩ := Option.isSome_iff_exists.1 h1
    obtain ⟨n2, h2⟩ := Option.isSome_iff_exists.1 h2
    obtain ⟨n3, h3⟩ := Option.isSome_iff_exists.1 h3
    obtain ⟨n4, h4⟩ := Option.isSome_iff_exists.1 h4
    intro p q e
    have P := fun {a : UInt8} {n : Nat} (h : hexVal a = some n) (t : Bytes) =>
      scanStr_plain a (hexVal_range h).1 (hexVal_range h).2.1 t
    match p with
    | [] => rfl
    | [x] => simp at e; obtain ⟨rfl, _⟩ := e; rw [scanStr.eq_def]; simp
    | [x, y] => simp at e; obtain ⟨rfl, rfl, _⟩ := e; rw [scanStr_esc]; rfl
    | [x, y, z] => simp at e; obtain ⟨rfl, rfl, rfl, _⟩ := e; rw [scanStr_esc, P h1]; rfl
    | [x, y, z, u] => simp at e; obtain ⟨rfl, rfl, rfl, rfl, _⟩ := e; rw [scanStr_esc, P h1, P h2]; rfl
    | [x, y, z, u, v] =>
      simp at e; obtain ⟨rfl, rfl, rfl, rfl, rfl, _⟩ := e; rw [scanStr_esc, P h1, P h2, P h3]; rfl
    | x :: y :: z :: u :: v :: w :: p =>
      simp at e; obtain ⟨rfl, rfl, rfl, rfl, rfl, rfl, e⟩ := e
      rw [scanStr_esc, P h1, P h2, P h3, P h4, ih p q e]; rfl

theorem number_cut {p : Bytes} {c : UInt8} (hg : Good n st) (h : Inv st (c :: p)) (hc : isWhitespace c = false) (hp : ∀ d ∈ c :: p, isNumCh d = true) :
    CutB n (readNumber F E st) := by
  have ht := totB_readNumber F E hg
  obtain ⟨st', e, hi, _⟩ := readNumber_spec F E h (skipWS_cons hc p)
  have hd : (c :: p).dropWhile isNumCh = [] := by
    revert hp
    generalize c :: p = s
    intro hp
    induction s with
    | nil => rfl
    | cons d s ih =>
      rw [List.dropWhile_cons_of_pos (hp d (by simp))]
      exact ih fun x hx => hp x (by simp [hx])
  rw [hd] at hi
  have hr : st'.rest = [] := hi.rest
  have hj : J n st' := ⟨⟨[], hi, Nat.zero_le _⟩, by rw [hr]; intro c hc; cases hc⟩
  rw [e]
  split
  · exact hj
  · exact hj

theorem whole_or {p q u : Bytes} {c : UInt8} (e : u ++ [c] = p ++ q) (hq : q ≠ []) : ∃ a, u = p ++ a := by
  rcases append_prefix_cases e.symm with ⟨a, ha, _⟩ | ⟨p', hp, hpq⟩
  · exact ⟨a, ha⟩
  · cases p' with
    | nil => exact ⟨[], by simp [hp]⟩
    | cons x p' =>
      simp at hpq
      exact absurd hpq.2.2 hq

theorem token_cut {u p q : Bytes} {d : UInt8} {w t : Bytes} {c : UInt8} (hw : WS w) (hu : u = w ++ c :: t) (hc : isWhitespace c = false) (hd : c ≠ d)
    (e : u = p ++ q) : Json.token d p = none := by
  rw [hu] at e
  rcases append_prefix_cases e.symm with ⟨b, hb, _⟩ | ⟨p', hp, hpq⟩
  · exact token_all (ws_prefix hw hb) _
  · rw [hp, token_ws hw]
    cases p' with
    | nil => rfl
    | cons x p' => simp at hpq; rw [hpq.1]; exact token_ne hc hd _

/-- a member cut before the end of its value -/
theorem pair_cut {k w w1 w2 t : Bytes} (hw : WS w) (hk : StrText k) (hw1 : WS w1) (hw2 : WS w2)
    (H0 : ∀ (f n : Nat) (st : St) (p q : Bytes), t = p ++ q → q ≠ [] → At n st p → 3 * n + 1 ≤ f → CutB n (readValue F E f st))
    (p q : Bytes) (e : w ++ 34 :: (k ++ 34 :: (w1 ++ 58 :: (w2 ++ t))) = p ++ q) (hq : q ≠ [])
    (h : At n st p) (hf : 3 * n + 2 ≤ f) : CutB n (readPair F E f st) := by
  have H := append_cons_prefix e.symm; clear e; rcases H with ⟨a, ha⟩ | ⟨p, e, rfl⟩
  · exact (h.junk (junk_ws (ws_prefix hw ha))).pair hf
  cases f with
  | zero => omega
  | succ f =>
  rw [readPair]
  have h := h.ws hw
  have H := append_cons_prefix e; clear e; rcases H with ⟨a, ha⟩ | ⟨p, e, rfl⟩
  · have := h.open (E := E) (scanStr_cutText hk _ _ ha)
    generalize readString E st = x at this
    cases x with
    | ok a st =>
      obtain ⟨st', e, hj⟩ := J.token (E := E) (c := 58) this (by decide)
      simp only [e]
      exact hj
    | err e st => exact this
    | panic => trivial
  obtain ⟨st1, e1, h1⟩ := h.string (E := E) (x := Json.unq k) (r := p) (by
    unfold JsonClean.string
    rw [token_self (by decide), Option.bind_some, stringBody_strText hk])
  rw [e1]
  simp only
  have H := append_cons_prefix e; clear e; rcases H with ⟨a, ha⟩ | ⟨p, e, rfl⟩
  · obtain ⟨st', e, hj⟩ := J.token (E := E) (c := 58) (h1.junk (junk_ws (ws_prefix hw1 ha))) (by decide)
    rw [e]
    exact hj
  obtain ⟨st2, e2, h2, hn⟩ := (h1.ws hw1).token_some (E := E) (token_self (c := 58) (by decide) p)
  rw [e2]
  simp only
  have key : CutB (n - 1) (readValue F E f st2) := by
    have H := prefix_cases e; clear e; rcases H with ⟨a, ha, _⟩ | ⟨p', e, rfl⟩
    · exact (h2.junk (junk_ws (ws_prefix hw2 ha))).value (by omega)
    · exact H0 f (n - 1) st2 p' q e.symm hq (h2.ws hw2) (by omega)
  have key := key.mono (Nat.sub_le n 1)
  generalize readValue F E f st2 = x at key
  cases x with
  | ok a st => exact key
  | err e st => exact key
  | panic => trivial

/-- a complete member -/
theorem pair_whole {T : Tree} {k w w1 w2 t x : Bytes} (hw : WS w) (hk : StrText k) (hw1 : WS w1) (hw2 : WS w2) (ht : Spells T t) (hn : Tree.Nums F T)
    (hx : NumEnd x) (h : At n st (w ++ 34 :: (k ++ 34 :: (w1 ++ 58 :: (w2 ++ (t ++ x)))))) (hf : 3 * n + 2 ≤ f) :
    ∃ kv st', readPair F E f st = .ok kv st' ∧ At n st' x := by
  have h := h.ws hw
  have hl := h.length
  rw [skipWS_cons (by decide)] at hl
  simp only [List.length_cons, List.length_append] at hl
  cases f with
  | zero => omega
  | succ f =>
  rw [readPair]
  obtain ⟨st1, e1, h1⟩ := h.string (E := E) (x := Json.unq k) (r := w1 ++ 58 :: (w2 ++ (t ++ x))) (by
    unfold JsonClean.string
    rw [token_self (by decide), Option.bind_some, stringBody_strText hk])
  rw [e1]
  obtain ⟨st2, e2, h2, _⟩ := (h1.ws hw1).token_some (E := E) (token_self (c := 58) (by decide) (w2 ++ (t ++ x)))
  simp only [e2]
  obtain ⟨st3, e3, h3⟩ := (h2.ws hw2).value (F := F) (E := E) (f := f) (value_spells ht hn f x (by omega) hx)
  rw [e3]
  exact ⟨_, st3, rfl, h3.mono (Nat.sub_le n 1)⟩

/-- the value read first and the rest of the array -/
def ElemsB (F : FloatCodec) (E : Env) (f n : Nat) : Res Val → Prop
  | .ok _ st => ∀ l, CutB n (readArrayRest F E f l st)
  | .err _ st => J n st
  | .panic => True

def MembersB (F : FloatCodec) (E : Env) (f n : Nat) : Res (Bytes × Val) → Prop
  | .ok _ st => ∀ m, CutB n (readObjectRest F E f m st)
  | .err _ st => J n st
  | .panic => True

theorem CutB.elems {x : Res Val} (h : CutB n x) (hf : 3 * n + 1 ≤ f) : ElemsB F E f n x := by
  cases x with
  | ok a st => exact fun l => J.arrayRest h hf l
  | err e st => exact h
  | panic => trivial

theorem CutB.members {x : Res (Bytes × Val)} (h : CutB n x) (hf : 3 * n + 2 ≤ f) : MembersB F E f n x := by
  cases x with
  | ok a st => exact fun m => J.objectRest h hf m
  | err e st => exact h
  | panic => trivial

end

theorem cut_head {F : FloatCodec} {E : Env} {f n : Nat} {st : St} {c : UInt8} {p : Bytes} (h : At n st (c :: p)) (hc : c = 91 ∨ c = 123) :
    ∃ st', 1 ≤ n ∧ At (n - 1) st' p ∧ readValue F E (f + 1) st = if c = 91 then readArray F E f st' else readObject F E f st' := by
  have hws : isWhitespace c = false := by rcases hc with rfl | rfl <;> decide
  obtain ⟨b, st1, e1, hh, h1, _⟩ := h.head (E := E) hws
  obtain ⟨st2, e2, h2, hn⟩ := h1.token_some (E := E) (token_self (c := c) hws p)
  refine ⟨st2, hn, h2, ?_⟩
  rw [readValue]
  simp only [e1, hh]
  rcases hc with rfl | rfl
  · rw [if_neg (by decide), if_neg (by decide), if_neg (by decide), if_neg (by decide), if_neg (by decide),
      if_neg (by decide), if_pos rfl, if_pos rfl, e2]
  · rw [if_neg (by decide), if_neg (by decide), if_neg (by decide), if_neg (by decide), if_neg (by decide),
      if_pos rfl, if_neg (by decide), e2]

theorem digit_head {d : UInt8} (h : d = 45 ∨ isDigit d = true) : isWhitespace d = false ∧ d ≠ 110 ∧ d ≠ 116 ∧ d ≠ 102 ∧ d ≠ 34 := by
  rcases h with rfl | h
  · decide
  · refine ⟨notWS_digit h, ?_, ?_, ?_, ?_⟩ <;> rintro rfl <;> revert h <;> decide

theorem junk_prefix {t p q : Bytes} (h : Junk t) (e : t = p ++ q) : Junk p := fun c hc => h c (by rw [e]; exact List.mem_append_left _ hc)

mutual
/-- after a proper prefix of a value nothing but junk remains -/
theorem value_cut {F : FloatCodec} {E : Env} : ∀ {T : Tree} {t : Bytes}, Spells T t → Tree.Nums F T → ∀ (f n : Nat) (st : St) (p q : Bytes),
    t = p ++ q → q ≠ [] → At n st p → 3 * n + 1 ≤ f → CutB n (readValue F E f st)
  | _, _, _, _, f, n, st, [], q, e, hq, h, hf => (h.junk (fun c hc => by cases hc)).value hf
  | _, _, _, _, 0, n, st, p, q, e, hq, h, hf => by omega
  | _, _, .null, _, f + 1, n, st, p, q, e, hq, h, hf => (h.junk (junk_prefix (by unfold Junk; decide) e)).value hf
  | _, _, .true, _, f + 1, n, st, p, q, e, hq, h, hf => (h.junk (junk_prefix (by unfold Junk; decide) e)).value hf
  | _, _, .false, _, f + 1, n, st, p, q, e, hq, h, hf => (h.junk (junk_prefix (by unfold Junk; decide) e)).value hf
  | _, _, .num t ht, _, f + 1, n, st, c :: p, q, e, hq, h, hf => by
    obtain ⟨⟨d, t', rfl, hd⟩, hnum⟩ := numText_facts ht
    simp only [List.cons_append, List.cons.injEq] at e
    obtain ⟨rfl, e⟩ := e
    have hws := digit_head hd
    obtain ⟨b, st1, e1, hh, h1, hi⟩ := h.head (E := E) hws.1
    rw [readValue]
    simp only [e1, hh]
    rw [if_neg hws.2.1, if_neg hws.2.2.1, if_neg hws.2.2.2.1, if_neg hws.2.2.2.2, if_pos hd]
    exact number_cut h1.good hi hws.1 (fun x hx => hnum x (by
      rw [e]
      rcases List.mem_cons.1 hx with rfl | hx
      · exact List.mem_cons_self
      · exact List.mem_cons_of_mem _ (List.mem_append_left _ hx)))
  | _, _, .str t ht, _, f + 1, n, st, c :: p, q, e, hq, h, hf => by
    simp only [List.cons_append, List.cons.injEq] at e
    obtain ⟨rfl, e⟩ := e
    obtain ⟨a, ha⟩ := whole_or e hq
    obtain ⟨b, st1, e1, hh, h1, hi⟩ := h.head (E := E) (by decide)
    rw [readValue]
    simp only [e1, hh]
    rw [if_neg (by decide), if_neg (by decide), if_neg (by decide), if_pos trivial]
    have := h1.open (E := E) (scanStr_cutText ht _ _ ha)
    generalize readString E st1 = x at this
    cases x with
    | ok a st => exact this
    | err e st => exact this
    | panic => trivial
  | _, _, .arr0 w hw, _, f + 1, n, st, c :: p, q, e, hq, h, hf => by
    simp only [List.cons_append, List.cons.injEq] at e
    obtain ⟨rfl, e⟩ := e
    obtain ⟨a, ha⟩ := whole_or e hq
    obtain ⟨st1, hn, h1, e1⟩ := cut_head (F := F) (E := E) (f := f) h (.inl rfl)
    rw [e1, if_pos rfl]
    exact ((h1.junk (junk_ws (ws_prefix hw ha))).array (by omega)).mono (Nat.sub_le n 1)
  | _, _, .obj0 w hw, _, f + 1, n, st, c :: p, q, e, hq, h, hf => by
    simp only [List.cons_append, List.cons.injEq] at e
    obtain ⟨rfl, e⟩ := e
    obtain ⟨a, ha⟩ := whole_or e hq
    obtain ⟨st1, hn, h1, e1⟩ := cut_head (F := F) (E := E) (f := f) h (.inr rfl)
    rw [e1, if_neg (by decide)]
    exact ((h1.junk (junk_ws (ws_prefix hw ha))).object (by omega)).mono (Nat.sub_le n 1)
  | _, _, .arr l t ht, hnum, f + 1, n, st, c :: p, q, e, hq, h, hf => by
    simp only [List.cons_append, List.cons.injEq] at e
    obtain ⟨rfl, e⟩ := e
    obtain ⟨a, ha⟩ := whole_or e hq
    obtain ⟨st1, hn, h1, e1⟩ := cut_head (F := F) (E := E) (f := f) h (.inl rfl)
    rw [e1, if_pos rfl]
    obtain ⟨w, c, t', hw, hh, hc1, hc2⟩ := spellsL_head ht
    obtain ⟨st2, e2, h2⟩ := h1.token_none (E := E) (token_cut hw hh hc1 hc2 ha)
    cases f with
    | zero => omega
    | succ f =>
    rw [readArray, e2]
    simp only
    have key := elems_cut (E := E) ht (by simpa only [Tree.Nums, Tree.All] using hnum) f (n - 1) st2 p a ha h2 (by omega)
    generalize readValue F E f st2 = x at key
    cases x with
    | ok a st => exact CutB.mono (key _) (Nat.sub_le n 1)
    | err e st => exact J.mono key (Nat.sub_le n 1)
    | panic => trivial
  | _, _, .obj m t ht, hnum, f + 1, n, st, c :: p, q, e, hq, h, hf => by
    simp only [List.cons_append, List.cons.injEq] at e
    obtain ⟨rfl, e⟩ := e
    obtain ⟨a, ha⟩ := whole_or e hq
    obtain ⟨st1, hn, h1, e1⟩ := cut_head (F := F) (E := E) (f := f) h (.inr rfl)
    rw [e1, if_neg (by decide)]
    obtain ⟨w, t', hw, hh⟩ := spellsF_head ht
    obtain ⟨st2, e2, h2⟩ := h1.token_none (E := E) (token_cut (d := 125) hw hh (by decide) (by decide) ha)
    cases f with
    | zero => omega
    | succ f =>
    rw [readObject, e2]
    simp only
    have key := members_cut (E := E) ht (by simpa only [Tree.Nums, Tree.All] using hnum) f (n - 1) st2 p a ha h2 (by omega)
    generalize readPair F E f st2 = x at key
    cases x with
    | ok a st => exact CutB.mono (key _) (Nat.sub_le n 1)
    | err e st => exact J.mono key (Nat.sub_le n 1)
    | panic => trivial
theorem elems_cut {F : FloatCodec} {E : Env} : ∀ {l : List Tree} {t : Bytes}, SpellsL l t → NumsL F l → ∀ (f n : Nat) (st : St) (p q : Bytes),
    t = p ++ q → At n st p → 3 * n + 1 ≤ f → ElemsB F E f n (readValue F E f st)
  | _, _, .one T w t w' hw ht hw', hnum, f, n, st, p, q, e, h, hf => by
    rcases prefix_cases e.symm with ⟨a, ha, _⟩ | ⟨p, e', rfl⟩
    · exact ((h.junk (junk_ws (ws_prefix hw ha))).value hf).elems hf
    have h := h.ws hw
    have H := prefix_cases e'; clear e'; rcases H with ⟨a, ha, hne⟩ | ⟨p, e', rfl⟩
    · exact (value_cut (E := E) ht hnum.1 f n st p a ha hne h hf).elems hf
    have hl := h.length
    obtain ⟨c, t', rfl, hc, _⟩ := spells_head ht
    rw [List.cons_append, skipWS_cons hc, List.length_cons, List.length_append] at hl
    have hw2 := ws_prefix hw' e'.symm
    obtain ⟨st', e1, h1⟩ := h.value (F := F) (E := E) (f := f) (value_spells ht hnum.1 f p (by simp; omega) (numEnd_all hw2))
    rw [e1]
    exact fun l => (h1.junk (junk_ws hw2)).arrayRest hf l
  | _, _, .cons T w t w' l t2 hw ht hw' hl', hnum, f, n, st, p, q, e, h, hf => by
    rcases prefix_cases e.symm with ⟨a, ha, _⟩ | ⟨p, e', rfl⟩
    · exact ((h.junk (junk_ws (ws_prefix hw ha))).value hf).elems hf
    have h := h.ws hw
    have H := prefix_cases e'; clear e'; rcases H with ⟨a, ha, hne⟩ | ⟨p, e', rfl⟩
    · exact (value_cut (E := E) ht hnum.1 f n st p a ha hne h hf).elems hf
    have hl := h.length
    obtain ⟨c, t', rfl, hc, _⟩ := spells_head ht
    rw [List.cons_append, skipWS_cons hc, List.length_cons, List.length_append] at hl
    have H := append_cons_prefix e'; clear e'; rcases H with ⟨a, ha⟩ | ⟨p, e', rfl⟩
    · have hw2 := ws_prefix hw' ha
      obtain ⟨st', e1, h1⟩ := h.value (F := F) (E := E) (f := f) (value_spells ht hnum.1 f p (by simp; omega) (numEnd_all hw2))
      rw [e1]
      exact fun l => (h1.junk (junk_ws hw2)).arrayRest hf l
    · obtain ⟨st', e1, h1⟩ := h.value (F := F) (E := E) (f := f) (value_spells ht hnum.1 f _ (by simp; omega) (numEnd_ws hw' (by decide) _))
      rw [e1]
      intro acc
      have h1 := h1.ws hw'
      cases f with
      | zero => omega
      | succ f =>
      obtain ⟨st2, e2, h2⟩ := h1.token_none (E := E) (c := 93) (token_ne (by decide) (by decide) _)
      obtain ⟨st3, e3, h3, hn⟩ := h2.token_some (E := E) (token_self (c := 44) (by decide) p)
      rw [readArrayRest, e2]
      simp only
      rw [e3]
      simp only
      have key := elems_cut (E := E) hl' hnum.2 f (n - 1) st3 p q e'.symm h3 (by omega)
      generalize readValue F E f st3 = x at key
      cases x with
      | ok a st => exact CutB.mono (key _) (Nat.sub_le n 1)
      | err e st => exact J.mono key (Nat.sub_le n 1)
      | panic => trivial
theorem members_cut {F : FloatCodec} {E : Env} : ∀ {m : List (Bytes × Tree)} {t : Bytes}, SpellsF m t → NumsF F m → ∀ (f n : Nat) (st : St) (p q : Bytes),
    t = p ++ q → At n st p → 3 * n + 2 ≤ f → MembersB F E f n (readPair F E f st)
  | _, _, .one k T w w1 w2 t w' hw hk hw1 hw2 ht hw', hnum, f, n, st, p, q, e, h, hf => by
    rcases pair_prefix_cases e with ⟨a, hne, ha⟩ | ⟨p, e', rfl⟩
    · exact (pair_cut hw hk hw1 hw2 (fun f n st p q => value_cut ht hnum.2.1 f n st p q) p a ha hne h hf).members hf
    · have hws := ws_prefix hw' e'.symm
      obtain ⟨kv, st', e1, h1⟩ := pair_whole (F := F) (E := E) hw hk hw1 hw2 ht hnum.2.1 (numEnd_all hws) h hf
      rw [e1]
      exact fun m => (h1.junk (junk_ws hws)).objectRest hf m
  | _, _, .cons k T w w1 w2 t w' m t2 hw hk hw1 hw2 ht hw' hm, hnum, f, n, st, p, q, e, h, hf => by
    rcases pair_prefix_cases e with ⟨a, hne, ha⟩ | ⟨p, e', rfl⟩
    · exact (pair_cut hw hk hw1 hw2 (fun f n st p q => value_cut ht hnum.2.1 f n st p q) p a ha hne h hf).members hf
    have H := append_cons_prefix e'; clear e'; rcases H with ⟨a, ha⟩ | ⟨p, e', rfl⟩
    · have hws := ws_prefix hw' ha
      obtain ⟨kv, st', e1, h1⟩ := pair_whole (F := F) (E := E) hw hk hw1 hw2 ht hnum.2.1 (numEnd_all hws) h hf
      rw [e1]
      exact fun m => (h1.junk (junk_ws hws)).objectRest hf m
    · obtain ⟨kv, st', e1, h1⟩ := pair_whole (F := F) (E := E) hw hk hw1 hw2 ht hnum.2.1 (numEnd_ws hw' (by decide) _) h hf
      rw [e1]
      intro acc
      have h1 := h1.ws hw'
      cases f with
      | zero => omega
      | succ f =>
      obtain ⟨st2, e2, h2⟩ := h1.token_none (E := E) (c := 125) (token_ne (by decide) (by decide) _)
      obtain ⟨st3, e3, h3, hn⟩ := h2.token_some (E := E) (token_self (c := 44) (by decide) p)
      rw [readObjectRest, e2]
      simp only
      rw [e3]
      simp only
      have key := members_cut (E := E) hm hnum.2.2 f (n - 1) st3 p q e'.symm h3 (by omega)
      generalize readPair F E f st3 = x at key
      cases x with
      | ok a st => exact CutB.mono (key _) (Nat.sub_le n 1)
      | err e st => exact J.mono key (Nat.sub_le n 1)
      | panic => trivial
end

/-! ### Bodies -/

/-- reading on from here never reports the end of the body -/
def NoEnd (F : FloatCodec) (E : Env) (tl : TopLevel) : Step → Prop
  | .entry _ r => r.initialized = true ∧ ∀ k, (readLoop F E tl k r).2 ≠ .eof
  | .eof _ => False
  | _ => True

theorem loop_of {F : FloatCodec} {E : Env} {tl : TopLevel} {r : Reader} (h : NoEnd F E tl (readEntry F E tl r)) (k : Nat) : (readLoop F E tl k r).2 ≠ .eof := by
  cases k with
  | zero => simp [readLoop]
  | succ k =>
    rw [readLoop]
    generalize readEntry F E tl r = x at h
    cases x with
    | entry e r => exact h.2 k
    | eof r => cases h
    | err e r => simp
    | panic => simp

theorem J.entry {F : FloatCodec} {E : Env} {tl : TopLevel} {n : Nat} {r : Reader} (h : J n r.st) (hi : r.initialized = true) : NoEnd F E tl (readEntry F E tl r) := by
  have h := h.peek
  obtain ⟨st1, e1, h1⟩ := h.token (E := E) (c := closeCh tl) (by cases tl <;> decide)
  obtain ⟨st2, e2, h2⟩ := h1.token (E := E) (c := 44) (by decide)
  unfold readEntry
  simp only [hi, if_true, e1, e2]
  trivial

theorem CutB.bodyA {F : FloatCodec} {E : Env} {f n : Nat} {st : St} (h : CutB n (readValue F E f st)) (i : Int) : NoEnd F E .array (readBody F E .array f i st) := by
  unfold readBody
  simp only
  generalize readValue F E f st = x at h
  cases x with
  | ok a st => exact ⟨rfl, loop_of (J.entry h rfl)⟩
  | err e st => trivial
  | panic => trivial

theorem CutB.bodyO {F : FloatCodec} {E : Env} {f n : Nat} {st : St} (h : CutB n (readPair F E f st)) (i : Int) : NoEnd F E .object (readBody F E .object f i st) := by
  unfold readBody
  simp only
  generalize readPair F E f st = x at h
  cases x with
  | ok a st => exact ⟨rfl, loop_of (J.entry h rfl)⟩
  | err e st => trivial
  | panic => trivial

/-- a separator leads to the next body -/
theorem entry_comma {F : FloatCodec} {E : Env} {tl : TopLevel} {n : Nat} {r : Reader} {w p : Bytes} (h : At n r.st (w ++ 44 :: p)) (hw : WS w) (hi : r.initialized = true)
    (H : ∀ st, At st.rest.length st p → NoEnd F E tl (readBody F E tl (fuelFor st.rest) r.entriesRead st)) : NoEnd F E tl (readEntry F E tl r) := by
  obtain ⟨st2, e2, h2⟩ := (h.ws hw).peek.token_none (E := E) (c := closeCh tl) (token_ne (by decide) (by cases tl <;> decide) _)
  obtain ⟨st3, e3, h3, hn⟩ := h2.token_some (E := E) (token_self (c := 44) (by decide) p)
  unfold readEntry
  simp only [hi, if_true, e2, e3]
  exact H st3 h3.exact

theorem bodyL_cut {F : FloatCodec} {E : Env} {l : List Tree} {t : Bytes} (hl : SpellsL l t) (hnum : NumsL F l) (f n : Nat) (i : Int) (st : St) (p q : Bytes)
    (e : t = p ++ q) (h : At n st p) (hf : 3 * n + 4 ≤ f) : NoEnd F E .array (readBody F E .array f i st) := by
  induction l generalizing t f n i st p with
  | nil => cases hl
  | cons T l ih =>
    have start : ∀ (w t w' : Bytes), WS w → Spells T t → w ++ (t ++ w') = p ++ q →
        (NoEnd F E .array (readBody F E .array f i st)) ∨ ∃ p', p' ++ q = w' ∧ (NumEnd p' → ∃ v st', readValue F E f st = .ok v st' ∧ At n st' p') := by
      intro w t w' hw ht e
      rcases prefix_cases e.symm with ⟨a, ha, _⟩ | ⟨p, e', rfl⟩
      · exact .inl (((h.junk (junk_ws (ws_prefix hw ha))).value (by omega)).bodyA i)
      have h := h.ws hw
      have H := prefix_cases e'; clear e'; rcases H with ⟨a, ha, hne⟩ | ⟨p, e', rfl⟩
      · exact .inl ((value_cut (E := E) ht hnum.1 f n st p a ha hne h (by omega)).bodyA i)
      have hl := h.length
      obtain ⟨c, t', rfl, hc, _⟩ := spells_head ht
      rw [List.cons_append, skipWS_cons hc, List.length_cons, List.length_append] at hl
      refine .inr ⟨p, e', fun hne => ?_⟩
      obtain ⟨st', e1, h1⟩ := h.value (F := F) (E := E) (f := f) (value_spells ht hnum.1 f p (by simp; omega) hne)
      exact ⟨_, st', e1, h1⟩
    cases hl with
    | one _ w t w' hw ht hw' =>
      rcases start w t w' hw ht e with h | ⟨p', e', H⟩
      · exact h
      · have hws := ws_prefix hw' e'.symm
        obtain ⟨v, st', e1, h1⟩ := H (numEnd_all hws)
        exact CutB.bodyA (n := n) (by rw [e1]; exact h1.junk (junk_ws hws)) i
    | cons _ w t w' _ t2 hw ht hw' hl' =>
      rcases start w t _ hw ht e with h | ⟨p', e', H⟩
      · exact h
      · have H := append_cons_prefix e'; clear e'; rcases H with ⟨a, ha⟩ | ⟨p, e', rfl⟩
        · have hws := ws_prefix hw' ha
          obtain ⟨v, st', e1, h1⟩ := H (numEnd_all hws)
          exact CutB.bodyA (n := n) (by rw [e1]; exact h1.junk (junk_ws hws)) i
        · obtain ⟨v, st', e1, h1⟩ := H (numEnd_ws hw' (by decide) _)
          unfold readBody
          simp only [e1]
          refine ⟨rfl, loop_of (entry_comma h1 hw' rfl fun st hs => ?_)⟩
          exact ih hl' hnum.2 _ _ _ _ p e'.symm hs (Nat.le_refl _)

theorem bodyF_cut {F : FloatCodec} {E : Env} {m : List (Bytes × Tree)} {t : Bytes} (hm : SpellsF m t) (hnum : NumsF F m) (f n : Nat) (i : Int) (st : St) (p q : Bytes)
    (e : t = p ++ q) (h : At n st p) (hf : 3 * n + 4 ≤ f) : NoEnd F E .object (readBody F E .object f i st) := by
  induction m generalizing t f n i st p with
  | nil => cases hm
  | cons kT m ih =>
    cases hm with
    | one k T w w1 w2 t w' hw hk hw1 hw2 ht hw' =>
      rcases pair_prefix_cases e with ⟨a, hne, ha⟩ | ⟨p, e', rfl⟩
      · exact (pair_cut hw hk hw1 hw2 (fun f n st p q => value_cut ht hnum.2.1 f n st p q) p a ha hne h (by omega)).bodyO i
      · have hws := ws_prefix hw' e'.symm
        obtain ⟨kv, st', e1, h1⟩ := pair_whole (F := F) (E := E) (f := f) hw hk hw1 hw2 ht hnum.2.1 (numEnd_all hws) h (by omega)
        exact CutB.bodyO (n := n) (by rw [e1]; exact h1.junk (junk_ws hws)) i
    | cons k T w w1 w2 t w' _ t2 hw hk hw1 hw2 ht hw' hm' =>
      rcases pair_prefix_cases e with ⟨a, hne, ha⟩ | ⟨p, e', rfl⟩
      · exact (pair_cut hw hk hw1 hw2 (fun f n st p q => value_cut ht hnum.2.1 f n st p q) p a ha hne h (by omega)).bodyO i
      have H := append_cons_prefix e'; clear e'; rcases H with ⟨a, ha⟩ | ⟨p, e', rfl⟩
      · have hws := ws_prefix hw' ha
        obtain ⟨kv, st', e1, h1⟩ := pair_whole (F := F) (E := E) (f := f) hw hk hw1 hw2 ht hnum.2.1 (numEnd_all hws) h (by omega)
        exact CutB.bodyO (n := n) (by rw [e1]; exact h1.junk (junk_ws hws)) i
      · obtain ⟨kv, st', e1, h1⟩ := pair_whole (F := F) (E := E) (f := f) hw hk hw1 hw2 ht hnum.2.1 (numEnd_ws hw' (by decide) _) h (by omega)
        unfold readBody
        simp only [e1]
        refine ⟨rfl, loop_of (entry_comma h1 hw' rfl fun st hs => ?_)⟩
        exact ih hm' hnum.2.2 _ _ _ _ p e'.symm hs (Nat.le_refl _)

/-- the first entry of a body of which `p` is left after the opening bracket -/
theorem readAll_open {F : FloatCodec} {E : Env} {tl : TopLevel} (size : Nat) (reads : List Nat) {w t p q : Bytes} (hw : WS w)
    (e : w ++ openCh tl :: (t ++ [closeCh tl]) = p ++ q) (hq : q ≠ [])
    (H : ∀ p a, t = p ++ a → Json.token (closeCh tl) p = none ∧
      ∀ f n st, At n st p → 3 * n + 4 ≤ f → NoEnd F E tl (readBody F E tl f 0 st)) : (readAll F E tl size reads p).2 ≠ .eof := by
  have hat := (at_inv (new_inv size reads p)).peek
  unfold readAll
  refine loop_of ?_ _
  rcases append_cons_prefix e.symm with ⟨a, ha⟩ | ⟨p, e', rfl⟩
  · obtain ⟨st1, e1, h1⟩ := hat.token_none (E := E) (c := openCh tl) (token_all (ws_prefix hw ha) _)
    unfold readEntry
    simp only [Bool.false_eq_true, if_false, e1]
    trivial
  · obtain ⟨a, ha⟩ := whole_or e'.symm hq
    obtain ⟨h1, h2⟩ := H p a ha
    obtain ⟨st1, e1, g1, _⟩ := (hat.ws hw).token_some (E := E) (token_self (c := openCh tl) (by cases tl <;> decide) p)
    obtain ⟨st2, e2, g2⟩ := g1.exact.token_none (E := E) h1
    unfold readEntry
    simp only [Bool.false_eq_true, if_false, e1, e2]
    exact h2 _ _ st2 g2 (Nat.le_refl _)

theorem readAll_cutL (F : FloatCodec) (E : Env) (size : Nat) (reads : List Nat) {l : List Tree} {w t : Bytes} (hw : WS w) (h : Spells (.arr l) t)
    (hn : NumsL F l) (p q : Bytes) (e : w ++ t = p ++ q) (hq : q ≠ []) : (readAll F E .array size reads p).2 ≠ .eof := by
  cases h with
  | arr0 w' hw' =>
    refine readAll_open size reads hw e hq fun p a ha => ?_
    have hp := ws_prefix hw' ha
    exact ⟨token_all hp _, fun f n st h hf => ((h.junk (junk_ws hp)).value (by omega)).bodyA 0⟩
  | arr _ t ht =>
    refine readAll_open size reads hw e hq fun p a ha => ?_
    obtain ⟨w, c, t', hw, hh, hc1, hc2⟩ := spellsL_head ht
    exact ⟨token_cut hw hh hc1 hc2 ha, fun f n st h hf => bodyL_cut ht hn f n 0 st p a ha h hf⟩

theorem readAll_cutF (F : FloatCodec) (E : Env) (size : Nat) (reads : List Nat) {m : List (Bytes × Tree)} {w t : Bytes} (hw : WS w) (h : Spells (.obj m) t)
    (hn : NumsF F m) (p q : Bytes) (e : w ++ t = p ++ q) (hq : q ≠ []) : (readAll F E .object size reads p).2 ≠ .eof := by
  cases h with
  | obj0 w' hw' =>
    refine readAll_open size reads hw e hq fun p a ha => ?_
    have hp := ws_prefix hw' ha
    exact ⟨token_all hp _, fun f n st h hf => ((h.junk (junk_ws hp)).pair (by omega)).bodyO 0⟩
  | obj _ t ht =>
    refine readAll_open size reads hw e hq fun p a ha => ?_
    obtain ⟨w, t', hw, hh⟩ := spellsF_head ht
    exact ⟨token_cut hw hh (by decide) (by decide) ha, fun f n st h hf => bodyF_cut ht hn f n 0 st p a ha h hf⟩

end Verif.JsonBuf
