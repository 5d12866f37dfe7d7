import Verif.Model.JsonBuf
import Verif.Spec.JsonClean
import Verif.Lemmas.JsonTotal
/- The buffered JSON reader: what the buffer operations do to the unread text. -/
set_option autoImplicit false
namespace Verif.JsonBuf
open Json

/-- `s` is the unread text -/
structure Inv (st : St) (s : Bytes) : Prop where
  rest : st.buf ++ st.src = s
  size : 16 ≤ st.size
  eof : st.eof = true → st.src = []

/-- everything is in the buffer, with room behind -/
structure Whole (st : St) : Prop where
  src : st.src = []
  room : st.pos + st.buf.length + 4 ≤ st.size

theorem fill_inv {st : St} {s : Bytes} (h : Inv st s) (hc : st.buf.length < st.size) :
    Inv (fill st) s ∧ (fill st).prev = st.prev ∧ (fill st).size = st.size ∧
      (st.src = [] → (fill st).eof = true ∧ (fill st).buf = st.buf) ∧ (st.src ≠ [] → (fill st).src.length < st.src.length ∧
        ∃ t, (fill st).buf = st.buf ++ t) := by
  unfold fill
  by_cases he : st.src = []
  · rw [if_pos he]
    exact ⟨⟨h.rest, h.size, fun _ => he⟩, rfl, rfl, fun _ => ⟨rfl, rfl⟩, fun h => absurd he h⟩
  · rw [if_neg he]
    have hp : 0 < st.portion := by
      unfold St.portion; split
      · omega
      · omega
    refine ⟨⟨?_, h.size, fun h' => absurd (h.eof h') he⟩, rfl, rfl, fun h => absurd h he, fun _ => ⟨?_, _, rfl⟩⟩
    · change st.buf ++ st.src.take _ ++ st.src.drop _ = s
      rw [List.append_assoc, List.take_append_drop]; exact h.rest
    · change (st.src.drop _).length < _
      have : 0 < st.src.length := List.length_pos_iff.mpr he
      rw [List.length_drop]; omega

theorem fillLoop_inv : ∀ (n : Nat) {st : St} {s : Bytes}, Inv st s → st.src.length < n →
    Inv (fillLoop n st) s ∧ (fillLoop n st).prev = st.prev ∧ (fillLoop n st).size = st.size ∧
      min 16 s.length ≤ (fillLoop n st).buf.length
  | 0, _, _, _, hn => by omega
  | n + 1, st, s, h, hn => by
    rw [fillLoop]
    by_cases hc : st.buf.length < blockSize ∧ st.buf.length < st.size ∧ st.eof = false
    · rw [if_pos hc]
      have hf := fill_inv h hc.2.1
      by_cases he : st.src = []
      · have h1 := hf.2.2.2.1 he
        have : fillLoop n (fill st) = fill st := by
          cases n with
          | zero => rfl
          | succ n => rw [fillLoop, if_neg (by rw [h1.1]; simp)]
        rw [this]
        refine ⟨hf.1, hf.2.1, hf.2.2.1, ?_⟩
        have := h.rest; rw [he, List.append_nil] at this
        rw [h1.2, this]; omega
      · have h1 := hf.2.2.2.2 he
        have := fillLoop_inv n hf.1 (by omega)
        exact ⟨this.1, this.2.1.trans hf.2.1, this.2.2.1.trans hf.2.2.1, this.2.2.2⟩
    · rw [if_neg hc]
      refine ⟨h, rfl, rfl, ?_⟩
      have hs := h.size
      by_cases h1 : st.buf.length < blockSize
      · by_cases h2 : st.buf.length < st.size
        · have h3 : st.eof = true := by
            rw [← Bool.not_eq_false]; intro h3; exact hc ⟨h1, h2, h3⟩
          have := h.rest; rw [h.eof h3, List.append_nil] at this
          rw [this]; omega
        · omega
      · unfold blockSize at h1; omega

theorem peek_inv {st : St} {s : Bytes} (h : Inv st s) :
    Inv (peek st) s ∧ (peek st).prev = st.prev ∧ (peek st).size = st.size ∧ min 16 s.length ≤ (peek st).buf.length := by
  have := fillLoop_inv (st.src.length + 1) h (by omega)
  unfold peek
  simp only
  split
  · exact ⟨⟨this.1.rest, this.1.size, fun h => by simp at h⟩, this.2⟩
  · exact this

theorem fillLoop_whole : ∀ (n : Nat) {st : St}, Whole st → Whole (fillLoop n st)
  | 0, _, h => h
  | n + 1, st, h => by
    rw [fillLoop]
    split
    · refine fillLoop_whole n ?_
      unfold fill; rw [if_pos h.src]
      exact ⟨h.src, by have := h.room; simp only; omega⟩
    · exact h

theorem peek_whole {st : St} (h : Whole st) : Whole (peek st) := by
  have := fillLoop_whole (st.src.length + 1) h
  unfold peek; simp only
  split
  · exact ⟨this.src, this.room⟩
  · exact this

theorem discard_whole {st : St} (h : Whole st) {n : Nat} (hn : n ≤ st.buf.length) : Whole (discard n st) :=
  ⟨h.src, by have := h.room; simp only [discard, List.length_drop]; omega⟩

theorem extend_spec (E : Env) (orig : Bytes) {st : St} {s : Bytes} (h : Inv st s) :
    ∃ o st', extend E orig st = (o, st') ∧ Inv st' st.src ∧ st'.prev = st.prev + st.buf.length ∧ (Whole st → Whole st') ∧
      ((st.src = [] ∧ o = none ∧ st'.buf = [] ∧ st'.src = []) ∨
        (st.src ≠ [] ∧ o = some ⟨orig ++ st'.buf, E.spare (orig ++ st'.buf)⟩ ∧ min 16 st.src.length ≤ st'.buf.length)) := by
  have h1 : Inv (discard st.buf.length { st with prev := st.prev + st.buf.length }) st.src :=
    ⟨by simp [discard], h.size, h.eof⟩
  have h2 := peek_inv h1
  have hw : Whole st → Whole (peek (discard st.buf.length { st with prev := st.prev + st.buf.length })) := by
    intro hw
    exact peek_whole (discard_whole (st := { st with prev := st.prev + st.buf.length }) ⟨hw.src, hw.room⟩ (Nat.le_refl _))
  unfold extend
  simp only
  generalize hq : peek (discard st.buf.length { st with prev := st.prev + st.buf.length }) = q at h2 hw
  refine ⟨if 0 < q.buf.length then some ⟨orig ++ q.buf, E.spare (orig ++ q.buf)⟩ else none, q, ?_, h2.1, h2.2.1, hw, ?_⟩
  · split <;> rfl
  · by_cases he : st.src = []
    · left
      have := h2.1.rest; rw [he, List.append_eq_nil_iff] at this
      exact ⟨he, by rw [if_neg (by rw [this.1]; simp)], this.1, this.2⟩
    · right
      have := List.length_pos_iff.mpr he
      exact ⟨he, by rw [if_pos (by omega)], h2.2.2.2⟩

/-- a slice in the middle of a loop: the text up to what is in the buffer -/
structure Lp (b : Slice) (st : St) (T : Bytes) : Prop where
  data : ∃ old, b.data = old ++ st.buf ∧ st.prev = old.length
  text : b.data ++ st.src = T
  size : 16 ≤ st.size
  eof : st.eof = true → st.src = []

theorem Lp.inv {b : Slice} {st : St} {T : Bytes} (h : Lp b st T) : Inv st (st.buf ++ st.src) := ⟨rfl, h.size, h.eof⟩

theorem Lp.prev_le {b : Slice} {st : St} {T : Bytes} (h : Lp b st T) : st.prev ≤ b.data.length := by
  obtain ⟨old, h1, h2⟩ := h.data
  rw [h1, h2, List.length_append]; omega

theorem Lp.len {b : Slice} {st : St} {T : Bytes} (h : Lp b st T) : b.data.length ≤ T.length := by
  rw [← h.text, List.length_append]; omega

theorem Lp.get {b : Slice} {st : St} {T : Bytes} (h : Lp b st T) {i : Nat} (hi : i < b.data.length) : b.data[i]? = T[i]? := by
  rw [← h.text, List.getElem?_append_left hi]

theorem Lp.take {b : Slice} {st : St} {T : Bytes} (h : Lp b st T) {i : Nat} (hi : i ≤ b.data.length) : b.data.take i = T.take i := by
  rw [← h.text, List.take_append_of_le_length hi]

theorem Lp.discard {b : Slice} {st : St} {T : Bytes} (h : Lp b st T) {j : Nat} (h1 : st.prev ≤ j) (h2 : j ≤ b.data.length) :
    Inv { discard (j - st.prev) st with prev := 0 } (T.drop j) ∧ b.data.drop j = st.buf.drop (j - st.prev) := by
  obtain ⟨old, e1, e2⟩ := h.data
  have hd : b.data.drop j = st.buf.drop (j - st.prev) := by
    rw [e1, List.drop_append, List.drop_eq_nil_of_le (by omega), List.nil_append, e2]
  refine ⟨⟨?_, h.size, h.eof⟩, hd⟩
  change st.buf.drop _ ++ st.src = _
  rw [← hd, ← h.text, List.drop_append_of_le_length h2]

theorem Lp.discard_whole {b : Slice} {st : St} {T : Bytes} (h : Lp b st T) (hw : Whole st) {j : Nat} (h1 : st.prev ≤ j)
    (h2 : j ≤ b.data.length) : Whole { JsonBuf.discard (j - st.prev) st with prev := 0 } := by
  obtain ⟨old, e1, e2⟩ := h.data
  have := JsonBuf.discard_whole hw (n := j - st.prev) (by rw [e1, List.length_append] at h2; omega)
  exact ⟨this.src, this.room⟩

/-- one turn of a loop: make the slice reach index `i` -/
theorem Lp.step (E : Env) {b : Slice} {st : St} {T : Bytes} (h : Lp b st T) (i : Nat) (hp : st.prev ≤ i) (hi : i ≤ b.data.length + 1) :
    (∃ st', (if b.data.length ≤ i then extend E b.data st else (some b, st)) = (none, st') ∧ b.data = T ∧ T.length ≤ i ∧
      Inv st' [] ∧ st'.prev = T.length ∧ (Whole st → Whole st')) ∨
    (∃ b' st', (if b.data.length ≤ i then extend E b.data st else (some b, st)) = (some b', st') ∧ Lp b' st' T ∧ st'.prev ≤ i ∧
      (i < T.length → i < b'.data.length) ∧ (i ≤ b.data.length → i < b'.data.length) ∧ (st.src = [] → b' = b ∧ st' = st)) := by
  by_cases hc : b.data.length ≤ i
  · rw [if_pos hc]
    obtain ⟨o, st', e, h1, h2, h3, h4⟩ := extend_spec E b.data h.inv
    obtain ⟨old, e1, e2⟩ := h.data
    have hprev : st'.prev = b.data.length := by rw [h2, e1, List.length_append, e2]
    rcases h4 with ⟨s1, rfl, s3, s4⟩ | ⟨s1, rfl, s3⟩
    · left
      have hT : b.data = T := by rw [← h.text, s1, List.append_nil]
      refine ⟨st', e, hT, by rw [← hT]; exact hc, ?_, by rw [hprev, hT], h3⟩
      rw [s1] at h1; exact h1
    · right
      have hpos := List.length_pos_iff.mpr s1
      have hlen : T.length = b.data.length + st.src.length := by rw [← h.text, List.length_append]
      refine ⟨_, st', e, ⟨⟨b.data, rfl, hprev⟩, ?_, h1.size, h1.eof⟩, by omega, ?_, ?_, fun h => absurd h s1⟩
      · change b.data ++ st'.buf ++ st'.src = T
        rw [List.append_assoc, h1.rest]; exact h.text
      · intro hT; simp only [List.length_append]; omega
      · intro hT; simp only [List.length_append]; omega
  · rw [if_neg hc]
    right
    exact ⟨b, st, rfl, h, hp, fun _ => by omega, fun _ => by omega, fun _ => ⟨rfl, rfl⟩⟩

theorem span_spec (E : Env) (p : UInt8 → Bool) : ∀ (n : Nat) (b : Slice) (i : Nat) (st : St) (T : Bytes), Lp b st T → st.prev ≤ i →
    i ≤ b.data.length → T.length < n + i →
    ∃ b' k st', span E p n b i st = (b', k, st') ∧ k = i + ((T.drop i).takeWhile p).length ∧ b'.data.take k = T.take k ∧
      (st.src = [] → b' = b) ∧
      ((k = T.length ∧ b'.data = T ∧ Inv st' [] ∧ st'.prev = T.length ∧ (Whole st → Whole st')) ∨
        (Lp b' st' T ∧ st'.prev ≤ k ∧ k < b'.data.length ∧ (Whole st → Whole st')))
  | 0, b, i, st, T, h, hp, hi, hn => by have := h.len; omega
  | n + 1, b, i, st, T, h, hp, hi, hn => by
    rw [span]
    rcases h.step E i hp (by omega) with ⟨st', e, h1, h2, h3, h4, h5⟩ | ⟨b', st', e, h1, h2, h3, h3', h4⟩
    · rw [e]
      have : i = T.length := by have := h.len; omega
      refine ⟨b, i, st', rfl, ?_, ?_, fun _ => rfl, Or.inl ⟨this, h1, h3, h4, h5⟩⟩
      · rw [this, List.drop_length]; rfl
      · rw [h1]
    · rw [e]
      have hib := h3' hi
      have hiT : i < T.length := by have := h1.len; omega
      simp only
      rw [h1.get hib, List.getElem?_eq_getElem hiT]
      simp only
      have hw : Whole st → Whole st' := fun hw => by rw [(h4 hw.src).2]; exact hw
      by_cases hpc : p T[i] = true
      · rw [if_pos hpc]
        obtain ⟨b2, k, st2, r1, r2, r3, r4, r5⟩ := span_spec E p n b' (i + 1) st' T h1 (by omega) (by omega) (by omega)
        refine ⟨b2, k, st2, r1, ?_, r3, ?_, ?_⟩
        · rw [r2, List.drop_eq_getElem_cons hiT, List.takeWhile_cons_of_pos hpc, List.length_cons]; omega
        · intro hs
          have := h4 hs
          rw [r4 (by rw [this.2]; exact hs), this.1]
        · rcases r5 with ⟨q1, q2, q3, q4, q5⟩ | ⟨q1, q2, q3, q4⟩
          · exact Or.inl ⟨q1, q2, q3, q4, fun hs => q5 (hw hs)⟩
          · exact Or.inr ⟨q1, q2, q3, fun hs => q4 (hw hs)⟩
      · rw [if_neg hpc]
        refine ⟨b', i, st', rfl, ?_, h1.take (by omega), fun hs => (h4 hs).1, Or.inr ⟨h1, h2, hib, hw⟩⟩
        rw [List.drop_eq_getElem_cons hiT, List.takeWhile_cons_of_neg (by simpa using hpc)]; rfl

theorem drop_takeWhile {p : UInt8 → Bool} (T : Bytes) : T.drop (T.takeWhile p).length = T.dropWhile p := by
  have := List.takeWhile_append_dropWhile (p := p) (l := T)
  conv => lhs; arg 2; rw [← this]
  rw [List.drop_left]

theorem take_takeWhile {p : UInt8 → Bool} (T : Bytes) : T.take (T.takeWhile p).length = T.takeWhile p := by
  have := List.takeWhile_append_dropWhile (p := p) (l := T)
  conv => lhs; arg 2; rw [← this]
  rw [List.take_left]

theorem current_spec (E : Env) {st : St} {s : Bytes} (h : Inv st s) :
    ∃ b st', current E st = (b, st') ∧ b.data = st'.buf ∧ Inv st' (skipWS s) ∧ st'.prev = 0 ∧ (skipWS s ≠ [] → st'.buf ≠ []) ∧
      (Whole st → Whole st' ∧ 4 ≤ b.spare) := by
  have hL : Lp ⟨st.buf, st.size - st.pos - st.buf.length⟩ { st with prev := 0 } s :=
    ⟨⟨[], rfl, rfl⟩, h.rest, h.size, h.eof⟩
  have hlen : s.length = st.buf.length + st.src.length := by rw [← h.rest, List.length_append]
  obtain ⟨b, k, st', e, h1, h2, h3, h4⟩ := span_spec E isWhitespace (st.buf.length + st.src.length + 1) _ 0 _ s hL
    (Nat.le_refl _) (Nat.zero_le _) (by omega)
  have hW : Whole st → Whole { st with prev := 0 } := fun h => ⟨h.src, h.room⟩
  have hsp : Whole st → 4 ≤ b.spare := by
    intro hw
    rw [h3 hw.src]
    have := hw.room
    simp only; omega
  rw [Nat.zero_add, List.drop_zero] at h1
  unfold current
  simp only [e]
  have hdrop : s.drop k = skipWS s := by rw [h1]; exact drop_takeWhile s
  by_cases hk : 0 < k
  · rw [if_pos hk]
    refine ⟨_, _, rfl, ?_⟩
    rcases h4 with ⟨q1, q2, q3, q4, q5⟩ | ⟨q1, q2, q3, q4⟩
    · have hb : st'.buf = [] := (List.append_eq_nil_iff.mp q3.rest).1
      have hs0 : skipWS s = [] := by rw [← hdrop, q1, List.drop_length]
      refine ⟨?_, ⟨?_, q3.size, q3.eof⟩, rfl, fun hn => absurd hs0 hn, fun hw => ⟨⟨(q5 (hW hw)).src, ?_⟩, hsp hw⟩⟩
      · simp only [discard, q1, q2, hb, List.drop_length, List.drop_nil]
      · simp only [discard, hb, List.drop_nil, List.nil_append, hs0]
        exact (List.append_eq_nil_iff.mp q3.rest).2
      · have := (q5 (hW hw)).room
        simp only [discard, hb, List.drop_nil, List.length_nil, q1, q4] at this ⊢
        omega
    · have hd := q1.discard q2 (Nat.le_of_lt q3)
      refine ⟨hd.2, by rw [← hdrop]; exact hd.1, rfl, fun _ => ?_, fun hw => ⟨q1.discard_whole (q4 (hW hw)) q2 (Nat.le_of_lt q3), hsp hw⟩⟩
      simp only [discard]
      rw [← hd.2]
      intro h0
      have := congrArg List.length h0
      rw [List.length_drop, List.length_nil] at this; omega
  · have hk0 : k = 0 := by omega
    subst hk0
    rw [if_neg hk]
    refine ⟨_, _, rfl, ?_⟩
    rw [List.drop_zero] at hdrop
    rcases h4 with ⟨q1, q2, q3, q4, q5⟩ | ⟨q1, q2, q3, q4⟩
    · have hb : st'.buf = [] := (List.append_eq_nil_iff.mp q3.rest).1
      have hs0 : s = [] := List.length_eq_zero_iff.mp q1.symm
      refine ⟨by rw [q2, hs0, hb], ?_, by rw [q4, ← q1], fun hn => absurd (hdrop ▸ hs0) hn, fun hw => ⟨q5 (hW hw), hsp hw⟩⟩
      rw [← hdrop, hs0]; exact q3
    · obtain ⟨old, e1, e2⟩ := q1.data
      have ho : old = [] := List.length_eq_zero_iff.mp (by omega)
      subst ho
      rw [List.nil_append] at e1
      refine ⟨e1, ⟨?_, q1.size, q1.eof⟩, by omega, fun _ => ?_, fun hw => ⟨q4 (hW hw), hsp hw⟩⟩
      · rw [← e1, q1.text, ← hdrop]
      · rw [← e1]; intro h0; rw [h0] at q3; simp at q3

/-- `current` when the first character is known to be no whitespace -/
theorem skipWS_cons_eq {s : Bytes} {c : UInt8} {t : Bytes} (h : skipWS s = c :: t) : skipWS (c :: t) = c :: t := by
  rw [← h]; exact skipWS_idem s

theorem head_buf {st : St} {s : Bytes} (h : Inv st s) (hne : s ≠ [] → st.buf ≠ []) : st.buf.head? = s.head? := by
  cases hb : st.buf with
  | nil =>
    by_cases hs : s = []
    · rw [hs]
    · exact absurd hb (hne hs)
  | cons c t => rw [← h.rest, hb]; rfl

theorem token_spec (E : Env) (ch : UInt8) {st : St} {s : Bytes} (h : Inv st s) :
    ∃ ok st', token E ch st = (ok, st') ∧ (Whole st → Whole st') ∧
      ((ok = true ∧ ∃ r, Json.token ch s = some r ∧ Inv st' r) ∨ (ok = false ∧ Json.token ch s = none ∧ Inv st' (skipWS s))) := by
  obtain ⟨b, st', e, h1, h2, h3, h4, h5⟩ := current_spec E h
  have hh := head_buf h2 h4
  unfold token
  simp only [e, h1, hh]
  cases hs : skipWS s with
  | nil =>
    refine ⟨false, st', by simp, fun hw => (h5 hw).1, Or.inr ⟨rfl, ?_, hs ▸ h2⟩⟩
    simp [Json.token, hs]
  | cons c t =>
    simp only [List.head?_cons, Option.some.injEq]
    by_cases hc : c = ch
    · rw [if_pos hc]
      refine ⟨true, discard 1 st', rfl, fun hw => ?_, Or.inl ⟨rfl, t, ?_, ?_, h2.size, h2.eof⟩⟩
      · refine discard_whole (h5 hw).1 ?_
        have := h4 (by rw [hs]; simp)
        exact List.length_pos_iff.mpr this
      · simp [Json.token, hs, hc]
      · have hr := h2.rest
        cases hb : st'.buf with
        | nil => exact absurd hb (h4 (by rw [hs]; simp))
        | cons d u =>
          rw [hb, hs, List.cons_append] at hr
          have := (List.cons.inj hr).2
          simp only [discard, hb, List.drop_succ_cons, List.drop_zero]; exact this
    · rw [if_neg hc]
      refine ⟨false, st', rfl, fun hw => (h5 hw).1, Or.inr ⟨rfl, ?_, hs ▸ h2⟩⟩
      simp [Json.token, hs, hc]

end Verif.JsonBuf
