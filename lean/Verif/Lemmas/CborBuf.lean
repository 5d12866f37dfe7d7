import Verif.Model.CborBuf
import Verif.Lemmas.Cbor
/-
The CBOR reader on its buffer against the CBOR reader on a list of bytes.
-/
set_option autoImplicit false
namespace Verif.CborBuf

/-- what is still to be read -/
def St.pend (st : St) : Bytes := st.held ++ st.src

/-- what holds of a buffer at any time -/
structure Inv (st : St) : Prop where
  rw : st.r ≤ st.w
  wm : st.w ≤ st.mem.length
  size : st.mem.length = 4096
  eof : st.eof = true → st.src = []

theorem held_length {st : St} (h : Inv st) : st.held.length = st.w - st.r := by
  have := h.rw; have := h.wm
  simp [St.held]; omega

theorem held_le {st : St} (h : Inv st) : st.held.length ≤ 4096 := by
  have := held_length h; have := h.wm; have := h.size; omega

/-- the bytes held are where `r` points -/
theorem held_mem {st : St} (h : Inv st) (n : Nat) (hn : n ≤ st.held.length) :
    (st.mem.drop st.r).take n = st.held.take n := by
  have := held_length h; have := h.rw; have := h.wm
  simp only [St.held]
  rw [List.drop_take, List.take_take, Nat.min_eq_left (by omega)]

theorem inv_advance {st : St} (h : Inv st) (n : Nat) (hn : n ≤ st.held.length) : Inv { st with r := st.r + n } := by
  have := held_length h; have := h.rw; have := h.wm
  exact ⟨by simp only; omega, h.wm, h.size, h.eof⟩

theorem held_advance (st : St) (n : Nat) : ({ st with r := st.r + n } : St).held = st.held.drop n := by
  simp [St.held, List.drop_drop]

theorem pend_advance (st : St) (n : Nat) (hn : n ≤ st.held.length) : ({ st with r := st.r + n } : St).pend = st.pend.drop n := by
  simp only [St.pend, held_advance, List.drop_append]
  rw [show n - st.held.length = 0 by omega, List.drop_zero]

theorem inv_noeof {st : St} (h : Inv st) : Inv { st with eof := false } := ⟨h.rw, h.wm, h.size, by simp⟩

theorem portion_pos {st : St} (hl : st.held.length < st.mem.length) : 0 < st.portion := by
  unfold St.portion
  split <;> omega

theorem portion_le (st : St) : st.portion ≤ st.mem.length - st.held.length := by
  unfold St.portion
  split <;> omega

theorem fill_held (st : St) : (fill st).held = st.held ++ st.src.take st.portion := by
  unfold fill
  split
  · rename_i hs
    simp [St.held, hs]
  · simp only [St.held, List.drop_zero]
    rw [List.take_append_of_le_length (by simp), List.take_of_length_le (by simp)]

theorem fill_inv {st : St} (h : Inv st) : Inv (fill st) := by
  have hl := held_le h
  have := held_length h; have := h.rw; have := h.wm; have hz := h.size
  have hp := portion_le st
  unfold fill
  split
  · rename_i hs
    exact ⟨Nat.zero_le _, by simp, by simp only [List.length_append, List.length_drop]; omega, fun _ => hs⟩
  · refine ⟨Nat.zero_le _, by simp, by simp; omega, ?_⟩
    intro he
    rw [h.eof he]; simp

theorem fill_pend (st : St) : (fill st).pend = st.pend := by
  have hh := fill_held st
  simp only [St.pend, hh, List.append_assoc]
  congr 1
  unfold fill
  split
  · rename_i hs; simp [hs]
  · simp

/-- a fill delivers something or sets the error -/
theorem fill_progress {st : St} (hl : st.held.length < st.mem.length) :
    ((fill st).eof = true ∧ (fill st).src = [] ∧ st.src = []) ∨
      (fill st).src.length < st.src.length ∧ st.held.length < (fill st).held.length := by
  have hp := portion_pos hl
  by_cases hs : st.src = []
  · left; simp [fill, hs]
  · right
    have hlen : 0 < st.src.length := List.length_pos_iff.mpr hs
    constructor
    · simp [fill, hs]; omega
    · rw [fill_held st]; simp; omega

theorem fillLoop_inv (n : Nat) : ∀ (f : Nat) {st : St}, Inv st → Inv (fillLoop n f st) ∧ (fillLoop n f st).pend = st.pend
  | 0, _, h => ⟨h, rfl⟩
  | f + 1, st, h => by
    unfold fillLoop
    split
    · obtain ⟨a, b⟩ := fillLoop_inv n f (fill_inv h)
      exact ⟨a, b.trans (fill_pend st)⟩
    · exact ⟨h, rfl⟩

/-- after the loop there is enough, or the buffer is full, or the source is empty -/
theorem fillLoop_end (n : Nat) : ∀ (f : Nat) {st : St}, Inv st → st.src.length < f →
    n ≤ (fillLoop n f st).held.length ∨ (fillLoop n f st).held.length = 4096 ∨ (fillLoop n f st).src = []
  | 0, _, _, hf => absurd hf (Nat.not_lt_zero _)
  | f + 1, st, h, hf => by
    unfold fillLoop
    split
    · rename_i hc
      rcases fill_progress hc.2.1 with ⟨e, hs, _⟩ | ⟨hl, _⟩
      · cases f with
        | zero => exact .inr (.inr hs)
        | succ f =>
          unfold fillLoop
          rw [if_neg (by rw [e]; simp)]
          exact .inr (.inr hs)
      · exact fillLoop_end n f (fill_inv h) (by omega)
    · rename_i hc
      by_cases h1 : n ≤ st.held.length
      · exact .inl h1
      · by_cases h2 : st.held.length = 4096
        · exact .inr (.inl h2)
        · have := held_le h; have := h.size
          refine .inr (.inr (h.eof ?_))
          cases he : st.eof with
          | true => rfl
          | false => exact absurd ⟨by omega, by omega, he⟩ hc

theorem readByte_sim {st : St} (h : Inv st) :
    match st.pend with
    | [] => ∃ st' : St, readByte st = .err .eof st'
    | b :: s => ∃ st' : St, readByte st = .ok b st' ∧ Inv st' ∧ st'.pend = s := by
  unfold readByte
  generalize hst : (if st.r = st.w ∧ st.eof = false then fill st else st) = st1
  have h1 : Inv st1 ∧ st1.pend = st.pend := by
    subst hst; split
    · exact ⟨fill_inv h, fill_pend st⟩
    · exact ⟨h, rfl⟩
  have h2 : st1.held = [] → st1.src = [] := by
    intro he
    subst hst
    split at he
    · rename_i hc
      have hl : st.held.length < st.mem.length := by
        have := held_length h; have := h.size; omega
      rcases fill_progress hl with ⟨_, hs, _⟩ | ⟨_, hl⟩
      · rw [if_pos hc]; exact hs
      · rw [he] at hl; simp at hl
    · rename_i hc
      rw [if_neg hc]
      have := held_length h
      rw [he] at this
      have hrw := h.rw
      simp at this
      apply h.eof
      cases hev : st.eof with
      | true => rfl
      | false => exact absurd ⟨by omega, hev⟩ hc
  rw [← h1.2]
  cases hh : st1.held with
  | nil => simp [St.pend, hh, h2 hh]
  | cons b t =>
    have hp : st1.pend = b :: (t ++ st1.src) := by simp [St.pend, hh]
    rw [hp]
    simp only [hh]
    refine ⟨_, rfl, inv_advance h1.1 1 (by simp [hh]), ?_⟩
    rw [pend_advance st1 1 (by simp [hh]), hp]; rfl

theorem readBytes_sim (n : Int) {st : St} (h : Inv st) :
    match Cbor.readBytes n st.pend with
    | .err e => ∃ st' : St, readBytes n st = .err e st'
    | .ok d rest => ∃ (off : Nat) (st' : St), readBytes n st = .ok (off, n.toNat) st' ∧ Inv st' ∧ st'.pend = rest ∧
        (st'.mem.drop off).take n.toNat = d := by
  unfold Cbor.readBytes readBytes
  by_cases hn : n < 0
  · simp [hn]
  · simp only [if_neg hn]
    obtain ⟨hi, hp⟩ := fillLoop_inv n.toNat (st.src.length + 1) h
    have he := fillLoop_end n.toNat (st.src.length + 1) h (Nat.lt_succ_self _)
    generalize fillLoop n.toNat (st.src.length + 1) st = st1 at hi hp he
    have hz := hi.size
    have hlen : st.pend.length = st1.held.length + st1.src.length := by rw [← hp]; simp [St.pend]
    by_cases hb : Cbor.bufSize < n
    · rw [if_pos hb]
      simp only [Cbor.bufSize] at hb
      refine ⟨st1, ?_⟩
      rw [if_pos (by omega)]
    · rw [if_neg hb]
      simp only [Cbor.bufSize] at hb
      rw [if_neg (show ¬ st1.mem.length < n.toNat by omega)]
      by_cases hs : (st.pend.length : Int) < n
      · rw [if_pos hs]
        exact ⟨{ st1 with eof := false }, by rw [if_pos (by omega)]⟩
      · rw [if_neg hs]
        have hen : n.toNat ≤ st1.held.length := by
          rcases he with he | he | he
          · exact he
          · omega
          · rw [he] at hlen; simp at hlen; omega
        refine ⟨st1.r, { st1 with r := st1.r + n.toNat }, by rw [if_neg (by omega)], inv_advance hi _ hen, ?_, ?_⟩
        · rw [pend_advance st1 _ hen, hp]
        · have := held_mem hi n.toNat hen
          simp only at this ⊢
          rw [this, ← hp]
          simp only [St.pend]
          rw [List.take_append_of_le_length hen]

theorem readBreak_sim {st : St} (h : Inv st) :
    Inv (readBreak st).2 ∧
    match Cbor.readBreak st.pend with
    | some r => (readBreak st).1 = true ∧ (readBreak st).2.pend = r
    | none => (readBreak st).1 = false ∧ (readBreak st).2.pend = st.pend := by
  unfold readBreak
  obtain ⟨hi, hp⟩ := fillLoop_inv 1 (st.src.length + 1) h
  have he := fillLoop_end 1 (st.src.length + 1) h (Nat.lt_succ_self _)
  generalize fillLoop 1 (st.src.length + 1) st = st1 at hi hp he
  rw [← hp]
  cases hh : st1.held with
  | nil =>
    have hs : st1.src = [] := by rw [hh] at he; simpa using he
    simp only [hh]
    refine ⟨inv_noeof hi, ?_⟩
    simp [St.pend, hh, hs, Cbor.readBreak]
    simpa [St.held] using hh
  | cons b t =>
    have hpd : st1.pend = b :: (t ++ st1.src) := by simp [St.pend, hh]
    rw [hpd]
    simp only [Cbor.readBreak, hh]
    by_cases hb : b = 0xff
    · simp only [if_pos hb]
      refine ⟨inv_advance hi 1 (by simp [hh]), trivial, ?_⟩
      rw [pend_advance st1 1 (by simp [hh]), hpd]; rfl
    · simp only [if_neg hb]
      exact ⟨hi, trivial, hpd⟩

/-! ### Values -/

mutual
/-- `v` is what a returned value stands for, where a place in the buffer stands for a byte string as `P` says -/
def Agree (P : Nat → Nat → Bytes → Prop) : RVal → Val → Prop
  | .null, .null => True
  | .bool a, .bool b => a = b
  | .int a, .int b => a = b
  | .f64 a, .f64 b => a = b
  | .str a, .str b => a = b
  | .own a, .bytes b => a = b
  | .slice off len, .bytes b => P off len b
  | .arr a, .arr b => AgreeL P a b
  | .obj a, .obj b => AgreeF P a b
  | _, _ => False
def AgreeL (P : Nat → Nat → Bytes → Prop) : List RVal → List Val → Prop
  | [], [] => True
  | a :: s, b :: t => Agree P a b ∧ AgreeL P s t
  | _, _ => False
def AgreeF (P : Nat → Nat → Bytes → Prop) : List (Bytes × RVal) → List (Bytes × Val) → Prop
  | [], [] => True
  | (k, a) :: s, (l, b) :: t => k = l ∧ Agree P a b ∧ AgreeF P s t
  | _, _ => False
end

theorem agreeF_mapSet (P : Nat → Nat → Bytes → Prop) (k : Bytes) {a : RVal} {b : Val} (h : Agree P a b) :
    ∀ {m : List (Bytes × RVal)} {n : List (Bytes × Val)}, AgreeF P m n → AgreeF P (mapSet m k a) (mapSet n k b)
  | [], [], _ => by simp [mapSet, AgreeF, h]
  | [], _ :: _, hm => hm.elim
  | _ :: _, [], hm => hm.elim
  | (i, x) :: s, (j, y) :: t, hm => by
    simp only [AgreeF] at hm
    obtain ⟨rfl, h1, h2⟩ := hm
    simp only [mapSet]
    repeat' split
    · simp only [AgreeF]
      exact ⟨trivial, h, h2⟩
    · simp only [AgreeF]
      exact ⟨trivial, h, trivial, h1, h2⟩
    · simp only [AgreeF]
      exact ⟨trivial, h1, agreeF_mapSet P k h h2⟩

/-- what a kind `K` of states, a kind `E` of states after errors and a meaning of places must satisfy to be kept by the reader -/
structure Keeps (K E : St → Prop) (P : Nat → Nat → Bytes → Prop) : Prop where
  inv : ∀ {st : St}, K st → Inv st
  byte : ∀ {st st' : St} {b : UInt8}, K st → readByte st = .ok b st' → K st'
  bytes : ∀ {st st' : St} {n : Int} {off len : Nat}, K st → readBytes n st = .ok (off, len) st' →
    K st' ∧ P off len ((st'.mem.drop off).take len)
  brk : ∀ {st : St}, K st → K (readBreak st).2
  stop : ∀ {st : St}, K st → E st
  byteErr : ∀ {st st' : St} {e : Cbor.Err}, K st → readByte st = .err e st' → E st'
  bytesErr : ∀ {st st' : St} {n : Int} {e : Cbor.Err}, K st → readBytes n st = .err e st' → E st'

/-- two results are the same, up to `R` -/
def Sim (K E : St → Prop) {α β : Type} (R : α → β → Prop) : Res α → Cbor.Res β → Prop
  | .ok a st, .ok b r => R a b ∧ K st ∧ st.pend = r
  | .err e st, .err e' => e = e' ∧ E st
  | _, _ => False

section
variable {K E : St → Prop} {P : Nat → Nat → Bytes → Prop}

theorem Sim.map {α β γ δ : Type} {R : α → β → Prop} {S : γ → δ → Prop} {f : α → γ} {g : β → δ}
    {x : Res α} {y : Cbor.Res β} (h : Sim K E R x y) (hf : ∀ (a : α) (b : β), R a b → S (f a) (g b)) :
    Sim K E S (x.map f) (y.map g) := by
  cases x <;> cases y
  · exact ⟨hf _ _ h.1, h.2⟩
  · exact h.elim
  · exact h.elim
  · exact h

theorem Sim.cases {α β : Type} {R : α → β → Prop} {x : Res α} {y : Cbor.Res β} (h : Sim K E R x y) :
    (∃ (e : Cbor.Err) (st : St), x = .err e st ∧ y = .err e ∧ E st) ∨
      ∃ (a : α) (b : β) (st : St), x = .ok a st ∧ y = .ok b st.pend ∧ R a b ∧ K st := by
  cases x <;> cases y
  · obtain ⟨h1, h2, rfl⟩ := h
    exact .inr ⟨_, _, _, rfl, rfl, h1, h2⟩
  · exact h.elim
  · exact h.elim
  · obtain ⟨rfl, h⟩ := h; exact .inl ⟨_, _, rfl, rfl, h⟩

/-- reading one byte off a list -/
def byteOf : Bytes → Cbor.Res UInt8
  | [] => .err .eof
  | b :: s => .ok b s

theorem sim_byte (hk : Keeps K E P) {st : St} (h : K st) : Sim K E Eq (readByte st) (byteOf st.pend) := by
  have := readByte_sim (hk.inv h)
  cases hp : st.pend with
  | nil => rw [hp] at this; obtain ⟨st', e⟩ := this; rw [e]; exact ⟨rfl, hk.byteErr h e⟩
  | cons b s =>
    rw [hp] at this
    obtain ⟨st', e, _, e'⟩ := this
    rw [e]; exact ⟨rfl, hk.byte h e, e'⟩

theorem sim_bytes (hk : Keeps K E P) (n : Int) {st : St} (h : K st) :
    Sim K E (fun p d => P p.1 p.2 d) (readBytes n st) (Cbor.readBytes n st.pend) := by
  have := readBytes_sim n (hk.inv h)
  cases hp : Cbor.readBytes n st.pend with
  | err e => rw [hp] at this; obtain ⟨st', e⟩ := this; rw [e]; exact ⟨rfl, hk.bytesErr h e⟩
  | ok d r =>
    rw [hp] at this
    obtain ⟨off, st', e, _, e', ed⟩ := this
    obtain ⟨k1, k2⟩ := hk.bytes h e
    rw [e, ← ed]; exact ⟨k2, k1, e'⟩

theorem sim_copy (hk : Keeps K E P) (n : Int) {st : St} (h : K st) :
    Sim K E Eq (readCopy n st) (Cbor.readBytes n st.pend) := by
  have := readBytes_sim n (hk.inv h)
  unfold readCopy
  cases hp : Cbor.readBytes n st.pend with
  | err e => rw [hp] at this; obtain ⟨st', e⟩ := this; rw [e]; exact ⟨rfl, hk.bytesErr h e⟩
  | ok d r =>
    rw [hp] at this
    obtain ⟨off, st', e, _, e', ed⟩ := this
    rw [e, ← ed]; exact ⟨rfl, (hk.bytes h e).1, e'⟩

theorem sim_int (hk : Keeps K E P) (n : Int) {st : St} (h : K st) :
    Sim K E Eq (readIntBytes n st) (Cbor.readIntBytes n st.pend) := by
  have := (sim_copy hk n h).map (S := Eq) (f := fun d => toInt64 (beNat d)) (g := fun d => toInt64 (beNat d))
    (fun a b e => by rw [e])
  unfold readIntBytes Cbor.readIntBytes
  cases hp : Cbor.readBytes n st.pend <;> rw [hp] at this <;> exact this

theorem sim_float (hk : Keeps K E P) (n : Int) {st : St} (h : K st) :
    Sim K E Eq (readFloatBytes n st) (Cbor.readFloatBytes n st.pend) := by
  have := (sim_copy hk n h).map (S := Eq) (f := fun d => UInt64.ofNat (beNat d)) (g := fun d => UInt64.ofNat (beNat d))
    (fun a b e => by rw [e])
  unfold readFloatBytes Cbor.readFloatBytes
  cases hp : Cbor.readBytes n st.pend <;> rw [hp] at this <;> exact this

theorem sim_len (hk : Keeps K E P) (b : UInt8) {st : St} (h : K st) :
    Sim K E Eq (getVarLenInt b st) (Cbor.getVarLenInt b st.pend) := by
  unfold getVarLenInt Cbor.getVarLenInt
  simp only
  repeat' split
  · exact ⟨rfl, h, rfl⟩
  · exact sim_int hk _ h
  · exact sim_int hk _ h
  · exact sim_int hk _ h
  · exact sim_int hk _ h
  · exact ⟨rfl, hk.stop h⟩

theorem sim_prefixed (hk : Keeps K E P) (b : UInt8) {st : St} (h : K st) :
    Sim K E (fun p d => P p.1 p.2 d) (readLengthPrefixedBytes b st) (Cbor.readLengthPrefixedBytes b st.pend) := by
  unfold readLengthPrefixedBytes Cbor.readLengthPrefixedBytes
  rcases (sim_len hk b h).cases with ⟨e, st', e1, e2, he⟩ | ⟨a, n, st', e1, e2, rfl, k⟩
  · rw [e1, e2]; exact ⟨rfl, he⟩
  · rw [e1, e2]; exact sim_bytes hk a k

theorem sim_prefixedCopy (hk : Keeps K E P) (b : UInt8) {st : St} (h : K st) :
    Sim K E Eq (readLengthPrefixedCopy b st) (Cbor.readLengthPrefixedBytes b st.pend) := by
  unfold readLengthPrefixedCopy Cbor.readLengthPrefixedBytes
  rcases (sim_len hk b h).cases with ⟨e, st', e1, e2, he⟩ | ⟨a, n, st', e1, e2, rfl, k⟩
  · rw [e1, e2]; exact ⟨rfl, he⟩
  · rw [e1, e2]; exact sim_copy hk a k

theorem sim_key (hk : Keeps K E P) {st : St} (h : K st) : Sim K E Eq (readStringKey st) (Cbor.readStringKey st.pend) := by
  have hb := sim_byte hk h
  unfold readStringKey
  cases hr : readByte st with
  | err e st' =>
    rw [hr] at hb
    cases hp : st.pend with
    | nil => rw [hp] at hb; exact hb
    | cons b s => rw [hp] at hb; exact hb.elim
  | ok b st' =>
    rw [hr] at hb
    cases hp : st.pend with
    | nil => rw [hp] at hb; exact hb.elim
    | cons b' s =>
      rw [hp] at hb
      obtain ⟨rfl, k, rfl⟩ := hb
      simp only [Cbor.readStringKey]
      split
      · exact ⟨rfl, hk.stop k⟩
      · exact sim_prefixedCopy hk b k

theorem sim_break (hk : Keeps K E P) {st : St} (h : K st) :
    K (readBreak st).2 ∧ (match Cbor.readBreak st.pend with
      | some r => (readBreak st).1 = true ∧ (readBreak st).2.pend = r
      | none => (readBreak st).1 = false ∧ (readBreak st).2.pend = st.pend) :=
  ⟨hk.brk h, (readBreak_sim (hk.inv h)).2⟩

theorem sim_chunks (hk : Keeps K E P) : ∀ (f : Nat) {st : St}, K st →
    Sim K E Eq (readChunks f st) (Cbor.readChunks f st.pend)
  | 0, _, h => ⟨rfl, hk.stop h⟩
  | f + 1, st, h => by
    unfold readChunks
    obtain ⟨hb1, hb2⟩ := sim_break hk h
    generalize readBreak st = q at hb1 hb2
    obtain ⟨q1, q2⟩ := q
    cases hp : st.pend with
    | nil =>
      rw [hp] at hb2
      obtain ⟨e1, e2⟩ := hb2
      simp only at e1 e2 hb1
      subst e1
      have hy := sim_byte hk hb1
      rw [e2] at hy
      cases hr : readByte q2 with
      | ok b s => rw [hr] at hy; exact hy.elim
      | err e s => rw [hr] at hy; simp only [hr]; exact hy
    | cons b s =>
      rw [hp] at hb2
      simp only [Cbor.readChunks]
      cases hq : Cbor.readBreak (b :: s) with
      | some r =>
        rw [hq] at hb2
        obtain ⟨e1, e2⟩ := hb2
        simp only at e1 e2 hb1
        subst e1
        exact ⟨rfl, hb1, e2⟩
      | none =>
        rw [hq] at hb2
        obtain ⟨e1, e2⟩ := hb2
        simp only at e1 e2 hb1
        subst e1
        have hy := sim_byte hk hb1
        rw [e2] at hy
        cases hr : readByte q2 with
        | err e s => rw [hr] at hy; exact hy.elim
        | ok b' st' =>
          rw [hr] at hy
          obtain ⟨rfl, k, rfl⟩ := hy
          simp only [hr]
          have hc := sim_prefixedCopy hk b' k
          cases hx : readLengthPrefixedCopy b' st' with
          | err e s =>
            rw [hx] at hc
            cases hz : Cbor.readLengthPrefixedBytes b' st'.pend with
            | ok d r => rw [hz] at hc; exact hc.elim
            | err e' => rw [hz] at hc; exact hc
          | ok d st2 =>
            rw [hx] at hc
            cases hz : Cbor.readLengthPrefixedBytes b' st'.pend with
            | err e' => rw [hz] at hc; exact hc.elim
            | ok d' r =>
              rw [hz] at hc
              obtain ⟨rfl, k2, rfl⟩ := hc
              have ih := (sim_chunks hk f k2).map (S := Eq) (f := fun x => d ++ x) (g := fun x => d ++ x) (fun a b e => by rw [e])
              simp only
              cases hw : Cbor.readChunks f st2.pend <;> rw [hw] at ih <;> exact ih

theorem sim_optBreak (hk : Keeps K E P) (len : Int) {st : St} (h : K st) :
    (∃ (st' : St), (if len = -1 then readBreak st else (false, st)) = (true, st') ∧
        (if len = -1 then Cbor.readBreak st.pend else none) = some st'.pend ∧ K st') ∨
      ∃ (st' : St), (if len = -1 then readBreak st else (false, st)) = (false, st') ∧
        (if len = -1 then Cbor.readBreak st.pend else none) = none ∧ K st' ∧ st'.pend = st.pend := by
  by_cases hl : len = -1
  · simp only [if_pos hl]
    obtain ⟨hb1, hb2⟩ := sim_break hk h
    generalize readBreak st = q at hb1 hb2
    obtain ⟨q1, q2⟩ := q
    cases hq : Cbor.readBreak st.pend with
    | some r =>
      rw [hq] at hb2
      obtain ⟨e1, e2⟩ := hb2
      simp only at e1 e2 hb1
      subst e1 e2
      exact .inl ⟨_, rfl, rfl, hb1⟩
    | none =>
      rw [hq] at hb2
      obtain ⟨e1, e2⟩ := hb2
      simp only at e1 e2 hb1
      subst e1
      exact .inr ⟨_, rfl, rfl, hb1, e2⟩
  · simp only [if_neg hl]
    exact .inr ⟨_, rfl, trivial, h, rfl⟩

theorem sim_ite {α β : Type} {R : α → β → Prop} {c : Prop} [Decidable c] {x x' : Res α} {y y' : Cbor.Res β}
    (h : c → Sim K E R x y) (h' : ¬ c → Sim K E R x' y') : Sim K E R (if c then x else x') (if c then y else y') := by
  split
  · exact h ‹_›
  · exact h' ‹_›

theorem sim_all (hk : Keeps K E P) : ∀ f : Nat,
    (∀ {st : St}, K st → Sim K E (Agree P) (readValue f st) (Cbor.readValue f st.pend)) ∧
    (∀ {st : St} (len : Int), K st → Sim K E (AgreeL P) (readArray f len st) (Cbor.readArray f len st.pend)) ∧
    (∀ {st : St} (len : Int) (acc : List (Bytes × RVal)) (acc' : List (Bytes × Val)), AgreeF P acc acc' → K st →
      Sim K E (AgreeF P) (readMap f len acc st) (Cbor.readMap f len acc' st.pend))
  | 0 => ⟨fun h => ⟨rfl, hk.stop h⟩, fun _ h => ⟨rfl, hk.stop h⟩, fun _ _ _ _ h => ⟨rfl, hk.stop h⟩⟩
  | f + 1 => by
    obtain ⟨ihv, iha, ihm⟩ := sim_all hk f
    refine ⟨?_, ?_, ?_⟩
    · intro st h
      unfold readValue
      rcases (sim_byte hk h).cases with ⟨e, st', e1, e2, he⟩ | ⟨b, b', st', e1, e2, rfl, k⟩
      · rw [e1]
        cases hp : st.pend with
        | nil => rw [hp] at e2; cases e2; exact ⟨rfl, he⟩
        | cons b s => rw [hp] at e2; cases e2
      · rw [e1]
        cases hp : st.pend with
        | nil => rw [hp] at e2; cases e2
        | cons b s =>
          rw [hp] at e2
          simp only [byteOf, Cbor.Res.ok.injEq] at e2
          obtain ⟨rfl, rfl⟩ := e2
          simp only [Cbor.readValue]
          refine sim_ite (fun _ => (sim_len hk _ k).map fun _ _ e => e) fun _ => ?_
          refine sim_ite (fun _ => ⟨rfl, k, rfl⟩) fun _ => ?_
          refine sim_ite (fun _ => ⟨trivial, k, rfl⟩) fun _ => ?_
          refine sim_ite (fun _ => ⟨rfl, k, rfl⟩) fun _ => ?_
          refine sim_ite (fun _ => ⟨rfl, k, rfl⟩) fun _ => ?_
          refine sim_ite (fun _ => (sim_float hk _ k).map fun _ _ e => e) fun _ => ?_
          refine sim_ite (fun _ => (sim_float hk _ k).map fun _ _ e => e) fun _ => ?_
          refine sim_ite (fun _ => (sim_float hk _ k).map fun _ _ e => e) fun _ => ?_
          refine sim_ite (fun _ => (sim_chunks hk f k).map fun _ _ e => e) fun _ => ?_
          refine sim_ite (fun _ => (sim_chunks hk f k).map fun _ _ e => e) fun _ => ?_
          refine sim_ite (fun _ => (iha _ k).map fun _ _ e => e) fun _ => ?_
          refine sim_ite (fun _ => (ihm _ [] [] trivial k).map fun _ _ e => e) fun _ => ?_
          refine sim_ite (fun _ => (sim_prefixedCopy hk _ k).map fun _ _ e => e) fun _ => ?_
          refine sim_ite (fun _ => (sim_prefixed hk _ k).map fun _ _ e => e) fun _ => ?_
          refine sim_ite (fun _ => ?_) fun _ => ?_
          · rcases (sim_len hk b k).cases with ⟨e, st2, e1, e2, he⟩ | ⟨a, n, st2, e1, e2, rfl, k2⟩
            · rw [e1, e2]; exact ⟨rfl, he⟩
            · rw [e1, e2]
              exact sim_ite (fun _ => ⟨rfl, hk.stop k2⟩) fun _ => (iha _ k2).map fun _ _ e => e
          refine sim_ite (fun _ => ?_) fun _ => ?_
          · rcases (sim_len hk b k).cases with ⟨e, st2, e1, e2, he⟩ | ⟨a, n, st2, e1, e2, rfl, k2⟩
            · rw [e1, e2]; exact ⟨rfl, he⟩
            · rw [e1, e2]
              exact (ihm _ [] [] trivial k2).map fun _ _ e => e
          refine sim_ite (fun _ => ⟨trivial, k, rfl⟩) fun _ => ?_
          refine sim_ite (fun _ => ⟨trivial, k, rfl⟩) fun _ => ⟨rfl, hk.stop k⟩
    · intro st len h
      unfold readArray Cbor.readArray
      refine sim_ite (fun _ => ⟨trivial, h, rfl⟩) fun _ => ?_
      rcases sim_optBreak hk len h with ⟨st', e1, e2, k⟩ | ⟨st', e1, e2, k, ep⟩
      · rw [e1, e2]; exact ⟨trivial, k, rfl⟩
      · rw [e1, e2, ← ep]
        simp only
        rcases (ihv k).cases with ⟨e, st2, e1, e2, he⟩ | ⟨a, v, st2, e1, e2, hv, k2⟩
        · rw [e1, e2]; exact ⟨rfl, he⟩
        · rw [e1, e2]
          simp only
          rcases (iha (if 0 < len then len - 1 else len) k2).cases with ⟨e, st3, e1, e2, he⟩ | ⟨l, l', st3, e1, e2, hl, k3⟩
          · rw [e1, e2]; exact ⟨rfl, he⟩
          · rw [e1, e2]; exact ⟨⟨hv, hl⟩, k3, rfl⟩
    · intro st len acc acc' hacc h
      unfold readMap Cbor.readMap
      refine sim_ite (fun _ => ⟨hacc, h, rfl⟩) fun _ => ?_
      rcases sim_optBreak hk len h with ⟨st', e1, e2, k⟩ | ⟨st', e1, e2, k, ep⟩
      · rw [e1, e2]; exact ⟨hacc, k, rfl⟩
      · rw [e1, e2, ← ep]
        simp only
        rcases (sim_key hk k).cases with ⟨e, st2, e1, e2, he⟩ | ⟨key, _, st2, e1, e2, rfl, k2⟩
        · rw [e1, e2]; exact ⟨rfl, he⟩
        · rw [e1, e2]
          simp only
          rcases (ihv k2).cases with ⟨e, st3, e1, e2, he⟩ | ⟨a, v, st3, e1, e2, hv, k3⟩
          · rw [e1, e2]; exact ⟨rfl, he⟩
          · rw [e1, e2]
            exact ihm _ _ _ (agreeF_mapSet P key hv hacc) k3

theorem sim_value (hk : Keeps K E P) {st : St} (h : K st) :
    Sim K E (Agree P) (readValue (fuel st) st) (Cbor.readValue (Cbor.fuelFor st.pend) st.pend) := (sim_all hk _).1 h

/-- the header, if the first byte has been read -/
theorem sim_top (hk : Keeps K E P) {st : St} (h : Sim K E Eq (readByte st) (byteOf st.pend)) :
    Sim K E Eq (readTopLevel st) (Cbor.readTopLevel st.pend) := by
  unfold readTopLevel
  rcases h.cases with ⟨e, st', e1, e2, he⟩ | ⟨b, b', st', e1, e2, rfl, k⟩
  · rw [e1]
    cases hp : st.pend with
    | nil => rw [hp] at e2; cases e2; exact ⟨rfl, he⟩
    | cons b s => rw [hp] at e2; cases e2
  · rw [e1]
    cases hp : st.pend with
    | nil => rw [hp] at e2; cases e2
    | cons b s =>
      rw [hp] at e2
      simp only [byteOf, Cbor.Res.ok.injEq] at e2
      obtain ⟨rfl, rfl⟩ := e2
      simp only [Cbor.readTopLevel]
      refine sim_ite (fun _ => ⟨rfl, hk.stop k⟩) fun _ => ?_
      refine sim_ite (fun _ => ⟨rfl, k, rfl⟩) fun _ => ?_
      rcases (sim_len hk b k).cases with ⟨e, st2, e1, e2, he⟩ | ⟨a, n, st2, e1, e2, rfl, k2⟩
      · rw [e1, e2]; exact ⟨rfl, he⟩
      · rw [e1, e2]; exact ⟨rfl, k2, rfl⟩

/-- an entry as returned and the entry it stands for -/
def AgreeE (P : Nat → Nat → Bytes → Prop) (a : REntry) (b : Entry) : Prop :=
  a.index = b.index ∧ a.key = b.key ∧ Agree P a.value b.value

/-- the reader on its buffer and the reader on a list, in the same place -/
structure Same (K : St → Prop) (r : Reader) (r' : Cbor.Reader) : Prop where
  rows : r.rowsRead = r'.rowsRead
  len : r.length = r'.length
  inp : r.st.pend = r'.inp
  ok : K r.st

/-- the outcome of reading an entry is the same -/
def SimE (K E : St → Prop) (P : Nat → Nat → Bytes → Prop) : Except Cbor.Err REntry × Reader → Except Cbor.Err (Entry × Cbor.Reader) → Prop
  | (.ok e, r), .ok (e', r') => AgreeE P e e' ∧ Same K r r' ∧ 0 < r.rowsRead
  | (.error e, r), .error e' => e = e' ∧ E r.st
  | _, _ => False

theorem sim_body (hk : Keeps K E P) (tl : TopLevel) {r : Reader} {r' : Cbor.Reader} (h : Same K r r') :
    SimE K E P (readBody tl r) (Cbor.readBody tl r') := by
  obtain ⟨h1, h2, h3, h4⟩ := h
  unfold readBody Cbor.readBody
  rw [← h2, ← h3, ← h1]
  rcases sim_optBreak hk r.length h4 with ⟨st', e1, e2, k⟩ | ⟨st', e1, e2, k, ep⟩
  · rw [e1, e2]; exact ⟨rfl, hk.stop k⟩
  · rw [e1, e2, ← ep]
    cases tl with
    | array =>
      simp only
      rcases (sim_value hk k).cases with ⟨e, st2, e1, e2, he⟩ | ⟨a, v, st2, e1, e2, hv, k2⟩
      · rw [e1, e2]; exact ⟨rfl, he⟩
      · rw [e1, e2]; exact ⟨⟨rfl, rfl, hv⟩, ⟨rfl, rfl, rfl, k2⟩, Nat.succ_pos _⟩
    | object =>
      simp only
      rcases (sim_key hk k).cases with ⟨e, st2, e1, e2, he⟩ | ⟨key, _, st2, e1, e2, rfl, k2⟩
      · rw [e1, e2]; exact ⟨rfl, he⟩
      · rw [e1, e2]
        simp only
        rcases (sim_value hk k2).cases with ⟨e, st3, e1, e2, he⟩ | ⟨a, v, st3, e1, e2, hv, k3⟩
        · rw [e1, e2]; exact ⟨rfl, he⟩
        · rw [e1, e2]; exact ⟨⟨rfl, rfl, hv⟩, ⟨rfl, rfl, rfl, k3⟩, Nat.succ_pos _⟩

theorem sim_entry (hk : Keeps K E P) (tl : TopLevel) {r : Reader} {r' : Cbor.Reader} (h1 : r.rowsRead = r'.rowsRead)
    (h2 : r.length = r'.length) (h3 : r.st.pend = r'.inp)
    (h4 : (r.rowsRead = 0 ∧ Sim K E Eq (readByte r.st) (byteOf r.st.pend)) ∨ (r.rowsRead ≠ 0 ∧ K r.st)) :
    SimE K E P (readEntry tl r) (Cbor.readEntry tl r') := by
  unfold readEntry Cbor.readEntry start Cbor.start
  rw [← h1]
  rcases h4 with ⟨h0, hb⟩ | ⟨h0, k⟩
  · rw [if_pos h0, if_pos h0, ← h3]
    rcases (sim_top hk hb).cases with ⟨e, st', e1, e2, he⟩ | ⟨⟨t, n⟩, _, st', e1, e2, rfl, k⟩
    · rw [e1, e2]; exact ⟨rfl, he⟩
    · rw [e1, e2]
      by_cases ht : t ≠ Cbor.topByte tl
      · simp only [if_pos ht]; exact ⟨rfl, hk.stop k⟩
      · simp only [if_neg ht]
        exact sim_body hk tl ⟨rfl, rfl, rfl, k⟩
  · rw [if_neg h0, if_neg h0]
    exact sim_body hk tl ⟨h1, h2, h3, k⟩
end

end Verif.CborBuf
