import Verif.Lemmas.JsonBuf
/- The buffered JSON reader against reading the text at once. -/
set_option autoImplicit false
namespace Verif.JsonBuf
open Json

theorem unq_clean (after : Nat) (x : Bytes) (h : JsonClean.escapesWhole x = true) : unq after x = some (Json.unq x) := by
  fun_induction JsonClean.escapesWhole x
  case case7 e t h1 h2 ih => rw [unq.eq_def, Json.unq.eq_def]; simp [h1, h2, ih h]
  case case8 c t h1 ih => rw [unq.eq_def, Json.unq.eq_def]; simp [h1, ih h]
  all_goals simp_all [unq, Json.unq]

theorem unq_room (after : Nat) (ha : 4 ≤ after) (x : Bytes) : unq after x = some (Json.unq x) := by
  fun_induction Json.unq x
  case case7 e t h1 h2 ih => rw [unq.eq_def]; simp [h1, h2, ih]
  case case8 c t h1 ih => rw [unq.eq_def]; simp [h1, ih]
  case case4 t ht =>
    match t with
    | [] | [_] => simp [unq]; omega
    | a :: b :: t => exact absurd rfl (ht a b t)
  case case6 t ht _ =>
    match t with
    | [] | [_] | [_, _] | [_, _, _] => simp [unq]; omega
    | a :: b :: c :: d :: t => exact absurd rfl (ht a b c d t)
  all_goals simp_all [unq]

theorem scan_spec (E : Env) : ∀ (n : Nat) (b : Slice) (i : Nat) (st : St) (T p inner r : Bytes), Lp b st T → st.prev ≤ i →
    i ≤ b.data.length + 1 → T.length < n + i → scanStr (T.drop i) = some (inner, r) → T.take i = 34 :: p →
    ∃ after st', scan E n b i st = (match unq after (p ++ inner) with | none => .panic | some x => .ok x st') ∧ Inv st' r ∧
      (Whole st → Whole st' ∧ b.spare ≤ after)
  | 0, b, i, st, T, p, inner, r, h, hp, hi, hn, hs, ht => by
    rw [List.drop_eq_nil_of_le (by omega), scanStr] at hs
    exact absurd hs (by simp)
  | n + 1, b, i, st, T, p, inner, r, h, hp, hi, hn, hs, ht => by
    have hiT : i < T.length := by
      apply Nat.lt_of_not_le
      intro hle
      rw [List.drop_eq_nil_of_le hle, scanStr] at hs
      exact absurd hs (by simp)
    rw [scan]
    rcases h.step E i hp hi with ⟨st', e, h1, h2, h3, h4, h5⟩ | ⟨b', st', e, h1, h2, h3, h3', h4⟩
    · omega
    · rw [e]
      have hib := h3 hiT
      simp only
      rw [h1.get hib, List.getElem?_eq_getElem hiT]
      simp only
      have hw : Whole st → Whole st' := fun hw => by rw [(h4 hw.src).2]; exact hw
      have hbs : Whole st → b' = b := fun hw => (h4 hw.src).1
      rw [List.drop_eq_getElem_cons hiT, scanStr.eq_def] at hs
      simp only at hs
      have hp0 : 0 < i := by
        rcases Nat.eq_zero_or_pos i with h0 | h0
        · subst h0; simp at ht
        · exact h0
      by_cases hc : T[i] = 92
      · rw [if_pos hc]
        rw [if_pos hc] at hs
        cases hd : T.drop (i + 1) with
        | nil => rw [hd] at hs; simp at hs
        | cons d t =>
          rw [hd] at hs
          simp only at hs
          cases hs2 : scanStr t with
          | none => rw [hs2] at hs; simp at hs
          | some q =>
            rw [hs2] at hs
            simp only [Option.map_some, Option.some.injEq, Prod.mk.injEq] at hs
            obtain ⟨rfl, rfl⟩ := hs
            have hi1 : i + 1 < T.length := by
              apply Nat.lt_of_not_le; intro hle; rw [List.drop_eq_nil_of_le hle] at hd; simp at hd
            have hd2 : T.drop (i + 2) = t := by
              rw [← List.drop_drop (i := 1) (j := i + 1), hd]; rfl
            have hd1 : T[i + 1] = d := by
              rw [List.drop_eq_getElem_cons hi1] at hd; exact (List.cons.inj hd).1
            obtain ⟨after, st2, r1, r2, r3⟩ := scan_spec E n b' (i + 2) st' T (p ++ [T[i], d]) q.1 q.2 h1 (by omega) (by omega) (by omega)
              (by rw [hd2, hs2]) (by
                rw [List.take_succ_eq_append_getElem hi1, List.take_succ_eq_append_getElem hiT, ht, hd1]; simp)
            refine ⟨after, st2, ?_, r2, fun hs => ?_⟩
            · rw [r1]; simp
            · have := r3 (hw hs); rw [hbs hs] at this; exact this
      · rw [if_neg hc]
        rw [if_neg hc] at hs
        by_cases hq : T[i] = 34
        · rw [if_pos hq]
          rw [if_pos hq] at hs
          simp only [Option.some.injEq, Prod.mk.injEq] at hs
          obtain ⟨rfl, rfl⟩ := hs
          have hin : (b'.data.take i).drop 1 = p ++ [] := by
            rw [h1.take (Nat.le_of_lt hib), ht]; simp
          have hd := h1.discard (j := i + 1) (by omega) (by omega)
          refine ⟨b'.data.length - i + b'.spare, _, ?_, hd.1, fun hs => ⟨h1.discard_whole (hw hs) (by omega) (by omega), ?_⟩⟩
          · rw [hin]; cases unq (b'.data.length - i + b'.spare) (p ++ []) <;> rfl
          · rw [hbs hs]; omega
        · rw [if_neg hq]
          rw [if_neg hq] at hs
          cases hs2 : scanStr (T.drop (i + 1)) with
          | none => rw [hs2] at hs; simp at hs
          | some q =>
            rw [hs2] at hs
            simp only [Option.map_some, Option.some.injEq, Prod.mk.injEq] at hs
            obtain ⟨rfl, rfl⟩ := hs
            obtain ⟨after, st2, r1, r2, r3⟩ := scan_spec E n b' (i + 1) st' T (p ++ [T[i]]) q.1 q.2 h1 (by omega) (by omega) (by omega)
              (by rw [hs2]) (by rw [List.take_succ_eq_append_getElem hiT, ht]; simp)
            refine ⟨after, st2, ?_, r2, fun hs => ?_⟩
            · rw [r1]; simp
            · have := r3 (hw hs); rw [hbs hs] at this; exact this

/-- with everything in the buffer, a missing quote is noticed -/
theorem scan_open (E : Env) : ∀ (n : Nat) (b : Slice) (i : Nat) (st : St) (T : Bytes), Lp b st T → st.prev ≤ i →
    i ≤ b.data.length + 1 → T.length + 1 < n + i → scanStr (T.drop i) = none → Whole st →
    ∃ st', scan E n b i st = .err .stringClose st' ∧ Inv st' [] ∧ Whole st'
  | 0, b, i, st, T, h, hp, hi, hn, hs, hw => by
    have := h.text; rw [hw.src, List.append_nil] at this
    rw [this] at hi; omega
  | n + 1, b, i, st, T, h, hp, hi, hn, hs, hw => by
    have hbT := h.text; rw [hw.src, List.append_nil] at hbT
    rw [scan]
    rcases h.step E i hp hi with ⟨st', e, h1, h2, h3, h4, h5⟩ | ⟨b', st', e, h1, h2, h3, h3', h4⟩
    · rw [e]
      exact ⟨st', rfl, h3, h5 hw⟩
    · rw [e]
      obtain ⟨rfl, rfl⟩ := h4 hw.src
      have hib : i < b'.data.length := by
        by_cases hc : b'.data.length ≤ i
        · rw [if_pos hc] at e
          obtain ⟨o, s2, e1, -, -, -, e4⟩ := extend_spec E b'.data h.inv
          rcases e4 with ⟨-, rfl, -⟩ | ⟨e5, -⟩
          · rw [e1] at e; simp at e
          · exact absurd hw.src e5
        · omega
      have hiT : i < T.length := by rw [← hbT]; exact hib
      simp only
      rw [h1.get hib, List.getElem?_eq_getElem hiT]
      simp only
      rw [List.drop_eq_getElem_cons hiT, scanStr.eq_def] at hs
      simp only at hs
      by_cases hc : T[i] = 92
      · rw [if_pos hc]
        rw [if_pos hc] at hs
        refine scan_open E n b' (i + 2) st' T h1 (by omega) (by omega) (by omega) ?_ hw
        cases hd : T.drop (i + 1) with
        | nil =>
          rw [← List.drop_drop (i := 1) (j := i + 1), hd]; rfl
        | cons d t =>
          rw [hd] at hs
          rw [← List.drop_drop (i := 1) (j := i + 1), hd]
          simpa using hs
      · rw [if_neg hc]
        rw [if_neg hc] at hs
        by_cases hq : T[i] = 34
        · rw [if_pos hq] at hs; simp at hs
        · rw [if_neg hq]
          rw [if_neg hq] at hs
          exact scan_open E n b' (i + 1) st' T h1 (by omega) (by omega) (by omega) (by simpa using hs) hw

/-- the results agree, and so does the unread text -/
def Sim {α : Type} (x : Res α) (y : Json.Res α) : Prop :=
  match x, y with
  | .ok a st, .ok b r => a = b ∧ Inv st r ∧ Whole st
  | .err e st, .err e' r => e = e' ∧ Inv st r ∧ Whole st
  | _, _ => False

theorem lp_current {b : Slice} {st : St} {s : Bytes} (h : Inv st s) (hb : b.data = st.buf) (hp : st.prev = 0) : Lp b st s :=
  ⟨⟨[], by simpa using hb, by simpa using hp⟩, by rw [hb]; exact h.rest, h.size, h.eof⟩

theorem readString_clean (E : Env) {st : St} {s x r : Bytes} (h : Inv st s) (hs : JsonClean.string s = some (x, r)) :
    ∃ st', readString E st = .ok x st' ∧ Inv st' r := by
  obtain ⟨b, st1, e, h1, h2, h3, h4, h5⟩ := current_spec E h
  unfold readString
  simp only [e]
  rw [h1, head_buf h2 h4]
  unfold JsonClean.string Json.token at hs
  cases hk : skipWS s with
  | nil => rw [hk] at hs; simp at hs
  | cons c t =>
    rw [hk] at hs
    simp only at hs
    by_cases hc : c = 34
    · subst hc
      rw [if_pos rfl, Option.bind_some] at hs
      rw [List.head?_cons, if_pos rfl]
      unfold JsonClean.stringBody at hs
      cases hq : scanStr t with
      | none => rw [hq] at hs; simp at hs
      | some q =>
        rw [hq, Option.bind_some] at hs
        simp only at hs
        by_cases hw : JsonClean.escapesWhole q.1 = true
        · rw [if_pos hw] at hs
          simp only [Option.some.injEq, Prod.mk.injEq] at hs
          have hL := lp_current h2 h1 h3
          have hne := h4 (by rw [hk]; simp)
          have hpos := List.length_pos_iff.mpr hne
          have hlen : (skipWS s).length = st1.buf.length + st1.src.length := by rw [← h2.rest, List.length_append]
          obtain ⟨after, st2, r1, r2, -⟩ := scan_spec E (st1.buf.length + st1.src.length + 1) b 1 st1 (skipWS s) [] q.1 q.2 hL (by omega) (by omega) (by omega)
            (by rw [hk]; exact hq) (by rw [hk]; rfl)
          refine ⟨st2, ?_, by rw [← hs.2]; exact r2⟩
          rw [r1, List.nil_append, unq_clean after q.1 hw, hs.1]
        · rw [if_neg hw] at hs; simp at hs
    · rw [if_neg hc] at hs; simp at hs

theorem readString_whole (E : Env) {st : St} {s : Bytes} (h : Inv st s) (hw : Whole st) : Sim (readString E st) (Json.readString s) := by
  obtain ⟨b, st1, e, h1, h2, h3, h4, h5⟩ := current_spec E h
  have hw1 := h5 hw
  unfold readString Json.readString
  simp only [e]
  rw [h1, head_buf h2 h4]
  cases hk : skipWS s with
  | nil =>
    simp only [List.head?_nil]
    exact ⟨rfl, hk ▸ h2, hw1.1⟩
  | cons c t =>
    simp only [List.head?_cons, Option.some.injEq]
    by_cases hc : c = 34
    · subst hc
      rw [if_pos rfl, if_pos rfl]
      unfold readStringBody
      have hL := lp_current h2 h1 h3
      have hne := h4 (by rw [hk]; simp)
      have hpos := List.length_pos_iff.mpr hne
      have hlen : (skipWS s).length = st1.buf.length + st1.src.length := by rw [← h2.rest, List.length_append]
      cases hq : scanStr t with
      | none =>
        obtain ⟨st2, r1, r2, r3⟩ := scan_open E (st1.buf.length + st1.src.length + 1) b 1 st1 (skipWS s) hL (by omega) (by omega) (by omega)
          (by rw [hk]; exact hq) hw1.1
        rw [r1]
        exact ⟨rfl, r2, r3⟩
      | some q =>
        obtain ⟨after, st2, r1, r2, r3⟩ := scan_spec E (st1.buf.length + st1.src.length + 1) b 1 st1 (skipWS s) [] q.1 q.2 hL (by omega) (by omega) (by omega)
          (by rw [hk]; exact hq) (by rw [hk]; rfl)
        have := r3 hw1.1
        rw [r1, List.nil_append, unq_room after (by omega) q.1]
        exact ⟨rfl, r2, this.1⟩
    · rw [if_neg hc, if_neg hc]
      exact ⟨rfl, hk ▸ h2, hw1.1⟩

theorem readLit_clean (E : Env) (tok : Bytes) (v v' : Val) (e : Err) {st : St} {s r : Bytes} (h : Inv st s) (hs : skipWS s = s)
    (ht : tok.length ≤ 5) (hl : JsonClean.lit tok v s = some (v', r)) : ∃ st', readLit E tok v e st = .ok v' st' ∧ Inv st' r := by
  obtain ⟨b, st1, e1, h1, h2, h3, h4, h5⟩ := current_spec E h
  rw [hs] at h2 h4
  unfold JsonClean.lit at hl
  by_cases htok : s.take tok.length = tok
  · rw [if_pos htok] at hl
    simp only [Option.some.injEq, Prod.mk.injEq] at hl
    obtain ⟨rfl, rfl⟩ := hl
    have hlen : tok.length ≤ s.length := by
      have := congrArg List.length htok
      rw [List.length_take] at this; omega
    unfold readLit
    simp only [e1]
    have hL := lp_current h2 h1 h3
    have key : ∀ (b2 : Slice) (st2 : St), Lp b2 st2 s → st2.prev ≤ tok.length → tok.length ≤ b2.data.length →
        ∃ st', (if tok.length ≤ b2.data.length ∧ b2.data.take tok.length = tok then Res.ok v (discard (tok.length - st2.prev) st2)
          else .err e st2) = .ok v st' ∧ Inv st' (s.drop tok.length) := by
      intro b2 st2 hL2 hp2 hb2
      rw [if_pos ⟨hb2, by rw [hL2.take hb2]; exact htok⟩]
      have := (hL2.discard hp2 hb2).1
      exact ⟨_, rfl, this.rest, this.size, this.eof⟩
    by_cases hc : b.data.length < tok.length
    · rw [if_pos hc]
      obtain ⟨o, st2, e2, g1, g2, g3, g4⟩ := extend_spec E b.data h2
      have hsl : s.length = b.data.length + st1.src.length := by rw [← hL.text, List.length_append]
      rcases g4 with ⟨s1, s2, -⟩ | ⟨s1, rfl, s3⟩
      · rw [s1, List.length_nil] at hsl; omega
      · rw [e2]
        refine key _ st2 ⟨⟨b.data, rfl, by rw [g2, h3, h1, Nat.zero_add]⟩, ?_, g1.size, g1.eof⟩ (by rw [g2, h3, ← h1]; omega) (by simp only [List.length_append]; omega)
        change b.data ++ st2.buf ++ st2.src = s
        rw [List.append_assoc, g1.rest]; exact hL.text
    · rw [if_neg hc]
      exact key b st1 hL (by omega) (by omega)
  · rw [if_neg htok] at hl; simp at hl

theorem readLit_whole (E : Env) (tok : Bytes) (v : Val) (e : Err) {st : St} {s : Bytes} (h : Inv st s) (hs : skipWS s = s)
    (hw : Whole st) : Sim (readLit E tok v e st) (Json.readLit tok v e s) := by
  obtain ⟨b, st1, e1, h1, h2, h3, h4, h5⟩ := current_spec E h
  rw [hs] at h2 h4
  have hL := lp_current h2 h1 h3
  have hw1 := (h5 hw).1
  have hb : b.data = s := by have := hL.text; rw [hw1.src, List.append_nil] at this; exact this
  unfold readLit Json.readLit
  simp only [e1]
  rw [hb]
  by_cases hc : s.length < tok.length
  · rw [if_pos hc, if_pos hc]
    obtain ⟨o, st2, e2, g1, g2, g3, g4⟩ := extend_spec E s h2
    rcases g4 with ⟨s1, rfl, s3, s4⟩ | ⟨s1, rfl, s3⟩
    · rw [e2]
      exact ⟨rfl, by rw [← s1]; exact g1, g3 hw1⟩
    · exact absurd hw1.src s1
  · rw [if_neg hc, if_neg hc]
    simp only [hb]
    by_cases htok : s.take tok.length = tok
    · rw [if_pos htok, if_pos ⟨by omega, htok⟩]
      have := (hL.discard (j := tok.length) (by omega) (by rw [hb]; omega)).1
      have hwd := hL.discard_whole hw1 (j := tok.length) (by omega) (by rw [hb]; omega)
      exact ⟨rfl, ⟨this.rest, this.size, this.eof⟩, ⟨hwd.src, hwd.room⟩⟩
    · rw [if_neg htok, if_neg (fun h => htok h.2)]
      exact ⟨rfl, h2, hw1⟩

theorem readNumber_spec (F : FloatCodec) (E : Env) {st : St} {s : Bytes} (h : Inv st s) (hs : skipWS s = s) :
    ∃ st', readNumber F E st = (match convNumber F (s.takeWhile isNumCh) [] with | .ok v _ => .ok v st' | .err e _ => .err e st') ∧
      Inv st' (s.dropWhile isNumCh) ∧ (Whole st → Whole st') := by
  obtain ⟨b, st1, e1, h1, h2, h3, h4, h5⟩ := current_spec E h
  rw [hs] at h2 h4
  have hL := lp_current h2 h1 h3
  have hsl : s.length = b.data.length + st1.src.length := by rw [← hL.text, List.length_append]
  obtain ⟨b2, k, st2, e2, g1, g2, g3, g4⟩ := span_spec E isNumCh (b.data.length + st1.src.length + 1) b 0 st1 s hL (by omega) (by omega) (by omega)
  rw [Nat.zero_add, List.drop_zero] at g1
  unfold readNumber
  simp only [e1, e2]
  rw [g2, g1, take_takeWhile]
  refine ⟨_, rfl, ?_⟩
  have hd : s.drop k = s.dropWhile isNumCh := by rw [g1]; exact drop_takeWhile s
  rw [← g1, ← hd]
  rcases g4 with ⟨q1, q2, q3, q4, q5⟩ | ⟨q1, q2, q3, q4⟩
  · have hb := List.append_eq_nil_iff.mp q3.rest
    refine ⟨⟨?_, q3.size, q3.eof⟩, fun hw => ?_⟩
    · simp only [discard, hb.1, List.drop_nil, List.nil_append, hb.2, q1, List.drop_length]
    · have := q5 (h5 hw).1
      refine ⟨this.src, ?_⟩
      have := this.room
      simp only [discard, hb.1, List.drop_nil, List.length_nil, q1, q4] at this ⊢
      omega
  · exact ⟨(q1.discard q2 (Nat.le_of_lt q3)).1, fun hw => q1.discard_whole (q4 (h5 hw).1) q2 (Nat.le_of_lt q3)⟩

end Verif.JsonBuf
