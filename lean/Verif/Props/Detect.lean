import Verif.Model.Detect
import Verif.Model.Cbor
import Verif.Props.Csv
import Verif.Props.Tabular
/-
C34–C36, C59, C60: detecting the structure of a body.
-/
set_option autoImplicit false
namespace Verif.Detect
open Names Streams

/-! ## C35 – JSON -/

/-- white space between JSON tokens -/
def ws (c : UInt8) : Bool := c = 32 || c = 9 || c = 10 || c = 13

/-- what kind of JSON text it is, by the first byte that is no white space -/
def jsonTop (text : Bytes) : Except Err Schema :=
  match text.find? fun c => !ws c with
  | some 91 => .ok [(b!"type", .str b!"array")]
  | some 123 => .ok [(b!"type", .str b!"object")]
  | _ => .error .invalidJSON

theorem look_spec (s : Bytes) :
    (look s).result = if s.all ws then none else some (jsonTop s) := by
  induction s with
  | nil => rfl
  | cons c s ih =>
    rw [look]
    by_cases h1 : c = 91
    · subst h1; rfl
    · rw [if_neg h1]
      by_cases h2 : c = 123
      · subst h2; rfl
      · rw [if_neg h2]
        by_cases h3 : c = 32 ∨ c = 9 ∨ c = 10 ∨ c = 13
        · have hw : ws c = true := by simpa [ws, or_assoc] using h3
          rw [if_pos h3, ih]
          simp [jsonTop, hw]
        · have hw : ws c = false := by
            rw [← Bool.not_eq_true]; intro h; exact h3 (by simpa [ws, or_assoc] using h)
          rw [if_neg h3]
          simp only [List.all_cons, hw, Bool.false_and, Bool.false_eq_true, if_false, Look.result, jsonTop, List.find?_cons, Bool.not_false]
          split
          · simp_all
          · simp_all
          · rfl

theorem jsonTop_ws {a : Bytes} (h : a.all ws = true) (b : Bytes) : jsonTop (a ++ b) = jsonTop b := by
  have : a.find? (fun c => !ws c) = none := by
    rw [List.find?_eq_none]
    intro c hc
    simpa using List.all_eq_true.mp h c hc
  simp [jsonTop, List.find?_append, this]

theorem jsonTop_visible {a : Bytes} (h : a.all ws = false) (b : Bytes) : jsonTop (a ++ b) = jsonTop a := by
  have : ∃ c, a.find? (fun c => !ws c) = some c := by
    rw [← Option.isSome_iff_exists, List.find?_isSome]
    rw [← Bool.not_eq_true, List.all_eq_true] at h
    simpa using h
  obtain ⟨c, hc⟩ := this
  simp [jsonTop, List.find?_append, hc]

theorem jsonTop_blank {a : Bytes} (h : a.all ws = true) : jsonTop a = .error .invalidJSON := by
  have := jsonTop_ws h []
  rw [List.append_nil] at this
  rw [this]; rfl

/-- from a buffer of white space on, the rest of the text decides -/
theorem jsonLoop_ws (last : Bytes) (cs : List Bytes) (buf : Bytes) (n : Nat) (hb : buf.all ws = true) :
    (jsonLoop last .eof buf n cs).res = jsonTop (cs.flatten ++ last) := by
  have ho : ∀ c, (look (overwrite buf c)).result = if c.all ws then none else some (jsonTop c) := by
    intro c
    have hd : (buf.drop c.length).all ws = true := by
      rw [List.all_eq_true] at hb ⊢
      exact fun x hx => hb x (List.mem_of_mem_drop hx)
    rw [look_spec, overwrite, List.all_append, hd, Bool.and_true]
    split
    · rfl
    · rename_i h
      rw [jsonTop_visible (by simpa using h)]
  induction cs generalizing buf n with
  | nil =>
    rw [jsonLoop, jsonEnd, if_pos rfl, List.flatten_nil, List.nil_append]
    split
    · rename_i e; rw [e]; rfl
    · simp only [ho]
      split
      · rename_i h; rw [jsonTop_blank h]; rfl
      · rfl
  | cons c cs ih =>
    have hd : (buf.drop c.length).all ws = true := by
      rw [List.all_eq_true] at hb ⊢
      exact fun x hx => hb x (List.mem_of_mem_drop hx)
    rw [jsonLoop]
    cases hc : c.all ws with
    | true =>
      simp only [ho, hc, if_true]
      have hb' : (overwrite buf c).all ws = true := by rw [overwrite, List.all_append, hc, hd]; rfl
      rw [ih _ _ hb' (fun d => by
        have hd : ((overwrite buf c).drop d.length).all ws = true := by
          rw [List.all_eq_true] at hb' ⊢
          exact fun x hx => hb' x (List.mem_of_mem_drop hx)
        rw [look_spec, overwrite, List.all_append, hd, Bool.and_true]
        split
        · rfl
        · rename_i h
          rw [jsonTop_visible (by simpa using h)])]
      rw [List.flatten_cons, List.append_assoc, jsonTop_ws hc]
    | false =>
      simp only [ho, hc, Bool.false_eq_true, if_false]
      rw [List.flatten_cons, List.append_assoc, jsonTop_visible hc]

/-- the first read delivers less than 100 bytes, all of them white space, and does not report the end -/
def ShortBlank (s : Src) : Prop := ∃ c cs, s.chunks = c :: cs ∧ c.length < 100 ∧ c.all ws = true

theorem zeros_visible {k : Nat} (h : 0 < k) : jsonTop (List.replicate k 0) = .error .invalidJSON ∧ (List.replicate k (0 : UInt8)).all ws = false := by
  obtain ⟨k, rfl⟩ : ∃ j, k = j + 1 := ⟨k - 1, by omega⟩
  exact ⟨rfl, rfl⟩

/-- **C35**: detection goes by the first visible byte of the text, except that a short first read of white space only makes every
text invalid -/
theorem C35_closed_form (s : Src) (he : s.err = .eof) :
    (ShortBlank s → (jsonSchema s).res = .error .invalidJSON) ∧ (¬ ShortBlank s → (jsonSchema s).res = jsonTop s.text) := by
  obtain ⟨chunks, last, err⟩ := s
  simp only at he
  subst he
  have hov : ∀ c : Bytes, overwrite (List.replicate 100 0) c = c ++ List.replicate (100 - c.length) 0 := by
    intro c; rw [overwrite, List.drop_replicate]
  unfold jsonSchema Src.text
  cases chunks with
  | nil =>
    refine ⟨by rintro ⟨c, cs, h, _⟩; simp at h, fun _ => ?_⟩
    simp only [jsonLoop, jsonEnd, if_true, List.flatten_nil, List.nil_append]
    split
    · rename_i e; rw [e]; rfl
    · simp only [look_spec, hov]
      by_cases hc : last.all ws = true
      · rw [jsonTop_blank hc, jsonTop_ws hc]
        by_cases hl : 0 < 100 - last.length
        · rw [(zeros_visible hl).1]; split <;> rfl
        · have : 100 - last.length = 0 := by omega
          rw [this]; split <;> rfl
      · rw [jsonTop_visible (by simpa using hc), if_neg (by rw [List.all_append]; simp [hc])]
        rfl
  | cons c cs =>
    rw [jsonLoop]
    simp only [look_spec, hov]
    constructor
    · rintro ⟨c', cs', e, hl, hc⟩
      simp only [List.cons.injEq] at e
      obtain ⟨rfl, rfl⟩ := e
      have hz := zeros_visible (k := 100 - c.length) (by omega)
      rw [List.all_append, hz.2, Bool.and_false]
      simp only [Bool.false_eq_true, if_false]
      rw [jsonTop_ws hc, hz.1]
    · intro hn
      cases hc : c.all ws with
      | false =>
        rw [List.all_append, hc, Bool.false_and]
        simp only [Bool.false_eq_true, if_false]
        rw [jsonTop_visible hc, List.flatten_cons, List.append_assoc, jsonTop_visible hc]
      | true =>
        have hl : ¬ c.length < 100 := fun hl => hn ⟨c, cs, rfl, hl, hc⟩
        have hz : 100 - c.length = 0 := by omega
        rw [hz, List.replicate_zero, List.append_nil, hc]
        simp only [if_true]
        rw [jsonLoop_ws last cs c _ hc, List.flatten_cons, List.append_assoc, jsonTop_ws hc]

/-- **C35**: so the way in which bytes arrive does not matter as long as the first read fills the buffer or meets a visible byte -/
theorem C35_arrival (s s' : Src) (he : s.err = .eof) (he' : s'.err = .eof) (ht : s.text = s'.text) (hs : ¬ ShortBlank s) (hs' : ¬ ShortBlank s') :
    (jsonSchema s).res = (jsonSchema s').res := by
  rw [(C35_closed_form s he).2 hs, (C35_closed_form s' he').2 hs', ht]

/-- **C35** in general is false: the same text, arriving otherwise, is refused -/
theorem C35_arrival_matters : ∃ s s' : Src, s.err = .eof ∧ s'.err = .eof ∧ s.text = s'.text ∧ (jsonSchema s).res = .ok baseArray ∧
    (jsonSchema s').res = .error .invalidJSON :=
  ⟨{ chunks := [b!" [1]"] }, { chunks := [b!" ", b!"[1]"] }, rfl, rfl, rfl, rfl, rfl⟩

/-- **C35**: a source that fails is an error unless a visible byte comes first -/
theorem C35_failing (s : Src) (he : s.err ≠ .eof) (h : s.chunks.flatten.all ws = true) : ∃ e, (jsonSchema s).res = .error e := by
  obtain ⟨chunks, last, err⟩ := s
  simp only at he h
  have hzero : ∀ buf : Bytes, (∀ b ∈ buf, ws b = true ∨ b = 0) → jsonTop buf = .error .invalidJSON := by
    intro buf hb
    unfold jsonTop
    cases hf : buf.find? fun c => !ws c with
    | none => rfl
    | some c =>
      have h1 := List.find?_some hf
      rcases hb c (List.mem_of_find?_eq_some hf) with h2 | h2
      · rw [h2] at h1; simp at h1
      · subst h2; rfl
  suffices H : ∀ (cs : List Bytes) (buf : Bytes) (n : Nat), cs.flatten.all ws = true → (∀ b ∈ buf, ws b = true ∨ b = 0) →
      ∃ e, (jsonLoop last err buf n cs).res = .error e from
    H chunks _ 0 h (fun b hb => .inr (List.eq_of_mem_replicate hb))
  intro cs
  induction cs with
  | nil => intro buf n _ _; exact ⟨.readFailed, by rw [jsonLoop, jsonEnd, if_neg he]⟩
  | cons c cs ih =>
    intro buf n hc hb
    rw [List.flatten_cons, List.all_append, Bool.and_eq_true] at hc
    have hb' : ∀ b ∈ overwrite buf c, ws b = true ∨ b = 0 := by
      intro b hm
      rw [overwrite, List.mem_append] at hm
      rcases hm with hm | hm
      · exact .inl (List.all_eq_true.mp hc.1 b hm)
      · exact hb b (List.mem_of_mem_drop hm)
    rw [jsonLoop, look_spec]
    cases ha : (overwrite buf c).all ws with
    | true => simp only [if_true]; exact ih _ _ hc.2 hb'
    | false =>
      simp only [Bool.false_eq_true, if_false]
      exact ⟨_, hzero _ hb'⟩

theorem jsonLoop_bytes (last : Bytes) (err : RErr) (cs : List Bytes) (buf : Bytes) (n : Nat) :
    ∃ pre, cs.flatten ++ last = pre ++ (jsonLoop last err buf n cs).rest.text ∧ (jsonLoop last err buf n cs).n = n + pre.length ∧
      (jsonLoop last err buf n cs).rest.err = err := by
  induction cs generalizing buf n with
  | nil =>
    refine ⟨last, ?_⟩
    rw [jsonLoop, jsonEnd]
    split
    · split
      · rename_i e; simp [Src.text, e]
      · simp [Src.text]
    · simp [Src.text]
  | cons c cs ih =>
    rw [jsonLoop]
    cases hr : (look (overwrite buf c)).result with
    | some r => exact ⟨c, by simp [Src.text], rfl, rfl⟩
    | none =>
      obtain ⟨pre, h1, h2, h3⟩ := ih (overwrite buf c) (n + c.length)
      refine ⟨c ++ pre, ?_, ?_, h3⟩
      · rw [List.flatten_cons, List.append_assoc, h1, List.append_assoc]
      · rw [h2, List.length_append]; omega

/-- **C35**: the number reported is the number of bytes taken from the source -/
theorem C35_bytes (s : Src) : ∃ pre, s.text = pre ++ (jsonSchema s).rest.text ∧ (jsonSchema s).n = pre.length ∧ (jsonSchema s).rest.err = s.err := by
  obtain ⟨pre, h1, h2, h3⟩ := jsonLoop_bytes s.last s.err s.chunks (List.replicate 100 0) 0
  exact ⟨pre, h1, by rw [jsonSchema, h2]; omega, h3⟩

/-! ## C36 – CBOR -/

theorem firstByte_spec (k : Nat) (s : Src) :
    (∃ b t, s.text = b :: t ∧ (firstByte k s).1 = .ok b) ∨ (s.text = [] ∧ (firstByte k s).1 = .error s.err) ∨
      (∃ e, (firstByte k s).1 = .error (.other e)) ∧ k < s.chunks.length ∧ (s.chunks.take (k + 1)).flatten = [] := by
  obtain ⟨chunks, last, err⟩ := s
  induction chunks generalizing k with
  | nil =>
    rw [firstByte.eq_def]
    cases last with
    | nil => right; left; exact ⟨rfl, rfl⟩
    | cons b t => left; exact ⟨b, t, rfl, rfl⟩
  | cons c cs ih =>
    cases c with
    | cons b t => left; exact ⟨b, t ++ (cs.flatten ++ last), by simp [Src.text], by rw [firstByte.eq_def]⟩
    | nil =>
      cases k with
      | zero => right; right; exact ⟨⟨_, by rw [firstByte.eq_def]⟩, by simp, by simp⟩
      | succ k =>
        have e : firstByte (k + 1) ⟨[] :: cs, last, err⟩ = firstByte k ⟨cs, last, err⟩ := by rw [firstByte.eq_def]
        rw [e]
        rcases ih k with ⟨b, t, h1, h2⟩ | ⟨h1, h2⟩ | ⟨h1, h2, h3⟩
        · left; exact ⟨b, t, by simpa [Src.text] using h1, h2⟩
        · right; left; exact ⟨by simpa [Src.text] using h1, h2⟩
        · right; right; exact ⟨h1, by simpa using h2, by simpa using h3⟩

/-- a source that does not deliver nothing a hundred times in a row -/
def Lively (s : Src) : Prop := s.chunks.length < 100 ∨ (s.chunks.take 100).flatten ≠ []

/-- the schema for a kind of body -/
def schemaOf : TopLevel → Schema
  | .array => [(b!"type", .str b!"array")]
  | .object => [(b!"type", .str b!"object")]

theorem cborTop_spec (b : UInt8) (tl : TopLevel) : cborTop b = .ok (schemaOf tl) ↔ b &&& 0xe0 = Cbor.topByte tl := by
  revert b
  suffices H : ∀ n < 256, cborTop (UInt8.ofNat n) = .ok (schemaOf tl) ↔ UInt8.ofNat n &&& 0xe0 = Cbor.topByte tl from by
    intro b
    have := H b.toNat b.toNat_lt
    rwa [UInt8.ofNat_toNat] at this
  cases tl <;> decide +kernel

/-- **C36**: detection goes by the major type of the first byte, however the bytes arrive -/
theorem C36_detect (s : Src) (hl : Lively s) (tl : TopLevel) :
    (cborSchema s).res = .ok (schemaOf tl) ↔ ∃ b t, s.text = b :: t ∧ b &&& 0xe0 = Cbor.topByte tl := by
  have hz : ∀ e : Except RErr UInt8 × Src, e.1 = .error .eof ∨ (∃ x, e.1 = .error (.other x)) → ∀ r : Schema,
      (match e with
        | (.ok bd, rest) => ({ res := cborTop bd, n := 1, rest := rest } : Out)
        | (.error .eof, rest) => { res := cborTop 0, n := 1, rest := rest }
        | (.error (.other _), rest) => { res := .error .readFailed, n := 1, rest := rest }).res ≠ .ok r := by
    rintro ⟨e, rest⟩ h r
    rcases h with h | ⟨x, h⟩ <;> simp only at h <;> subst h
    · intro h; exact absurd h (by simp [cborTop])
    · simp
  unfold cborSchema
  rcases firstByte_spec 99 s with ⟨b, t, h1, h2⟩ | ⟨h1, h2⟩ | ⟨⟨e, h2⟩, h3, h4⟩
  · rw [h1]
    generalize firstByte 99 s = fb at h2 ⊢
    obtain ⟨fb, rest⟩ := fb
    simp only at h2
    subst h2
    simp only [cborTop_spec, List.cons.injEq]
    constructor
    · exact fun h => ⟨b, t, ⟨rfl, rfl⟩, h⟩
    · rintro ⟨b', t', ⟨rfl, rfl⟩, h⟩; exact h
  · rw [h1]
    constructor
    · intro h
      refine absurd h (hz _ ?_ _)
      rw [h2]
      cases s.err with
      | eof => exact .inl rfl
      | other x => exact .inr ⟨x, rfl⟩
    · rintro ⟨b, t, h, _⟩; simp at h
  · rcases hl with hl | hl
    · omega
    · exact absurd h4 hl

/-- the number of bytes of the length after the first byte -/
def lengthBytes (b : UInt8) : Option Nat :=
  let i := b &&& 0x1f
  if i < 24 ∨ i = 31 then some 0 else if i = 24 then some 1 else if i = 25 then some 2 else if i = 26 then some 4 else if i = 27 then some 8 else none

theorem readIntBytes_ok (k : Nat) (hk : k ≤ 8) (t : Bytes) : (∃ n r, Cbor.readIntBytes k t = .ok n r) ↔ k ≤ t.length := by
  unfold Cbor.readIntBytes Cbor.readBytes Cbor.bufSize
  rw [if_neg (by omega), if_neg (by omega)]
  split
  · rename_i h
    split at h
    · cases h
    · exact ⟨fun _ => by omega, fun _ => ⟨_, _, rfl⟩⟩
  · rename_i h
    split at h
    · simp; omega
    · cases h

theorem readTopLevel_ok (text : Bytes) (x : UInt8) : (∃ n r, Cbor.readTopLevel text = .ok (x, n) r) ↔
    ∃ b t, text = b :: t ∧ b &&& 0xe0 = x ∧ (x = 0x80 ∨ x = 0xa0) ∧ ∃ k, lengthBytes b = some k ∧ k ≤ t.length := by
  cases text with
  | nil => simp [Cbor.readTopLevel]
  | cons b t =>
    have hred : (∃ b' t', b :: t = b' :: t' ∧ b' &&& 0xe0 = x ∧ (x = 0x80 ∨ x = 0xa0) ∧ ∃ k, lengthBytes b' = some k ∧ k ≤ t'.length) ↔
        b &&& 0xe0 = x ∧ (x = 0x80 ∨ x = 0xa0) ∧ ∃ k, lengthBytes b = some k ∧ k ≤ t.length := by
      constructor
      · rintro ⟨b', t', e, h⟩
        simp only [List.cons.injEq] at e
        obtain ⟨rfl, rfl⟩ := e
        exact h
      · exact fun h => ⟨b, t, rfl, h⟩
    rw [hred]
    unfold Cbor.readTopLevel
    simp only
    by_cases h1 : b &&& 0xe0 ≠ 0x80 ∧ b &&& 0xe0 ≠ 0xa0
    · rw [if_pos h1]
      simp only [reduceCtorEq, exists_false, false_iff]
      rintro ⟨rfl, h, _⟩
      rcases h with h | h
      · exact h1.1 h
      · exact h1.2 h
    · rw [if_neg h1]
      have hor : b &&& 0xe0 = 0x80 ∨ b &&& 0xe0 = 0xa0 := by
        by_cases h : b &&& 0xe0 = 0x80
        · exact .inl h
        · exact .inr (Classical.byContradiction fun h' => h1 ⟨h, h'⟩)
      have hrest : (∃ k, lengthBytes b = some k ∧ k ≤ t.length) ↔ (b &&& 0x1f = 0x1f ∨ ∃ n r, Cbor.getVarLenInt b t = .ok n r) := by
        unfold lengthBytes Cbor.getVarLenInt
        simp only
        by_cases i1 : b &&& 0x1f < 24
        · have i1' : b &&& 0x1f < 0x18 := i1
          rw [if_pos (.inl i1), if_pos i1']
          simp
        · have i1' : ¬ b &&& 0x1f < 0x18 := i1
          rw [if_neg i1']
          by_cases i2 : b &&& 0x1f = 31
          · rw [if_pos (.inr i2)]
            have i2' : b &&& 0x1f = 0x1f := i2
            simp [i2']
          · have i2' : ¬ b &&& 0x1f = 0x1f := i2
            rw [if_neg (by rintro (h | h); exact i1 h; exact i2 h)]
            simp only [i2', false_or]
            have hk : ∀ (k : Nat), k ≤ 8 → ((∃ j, some k = some j ∧ j ≤ t.length) ↔ ∃ n r, Cbor.readIntBytes k t = .ok n r) := by
              intro k hk
              rw [readIntBytes_ok k hk]
              simp
            by_cases i3 : b &&& 0x1f = 24
            · have i3' : b &&& 0x1f = 0x18 := i3
              rw [if_pos i3, if_pos i3']; exact hk 1 (by omega)
            · have i3' : ¬ b &&& 0x1f = 0x18 := i3
              rw [if_neg i3, if_neg i3']
              by_cases i4 : b &&& 0x1f = 25
              · have i4' : b &&& 0x1f = 0x19 := i4
                rw [if_pos i4, if_pos i4']; exact hk 2 (by omega)
              · have i4' : ¬ b &&& 0x1f = 0x19 := i4
                rw [if_neg i4, if_neg i4']
                by_cases i5 : b &&& 0x1f = 26
                · have i5' : b &&& 0x1f = 0x1a := i5
                  rw [if_pos i5, if_pos i5']; exact hk 4 (by omega)
                · have i5' : ¬ b &&& 0x1f = 0x1a := i5
                  rw [if_neg i5, if_neg i5']
                  by_cases i6 : b &&& 0x1f = 27
                  · have i6' : b &&& 0x1f = 0x1b := i6
                    rw [if_pos i6, if_pos i6']; exact hk 8 (by omega)
                  · have i6' : ¬ b &&& 0x1f = 0x1b := i6
                    rw [if_neg i6, if_neg i6']
                    simp
      rw [hrest]
      by_cases h2 : b &&& 0x1f = 0x1f
      · rw [if_pos h2]
        simp only [Cbor.Res.ok.injEq, Prod.mk.injEq, h2, true_or, and_true]
        constructor
        · rintro ⟨n, r, ⟨rfl, _⟩, _⟩; exact ⟨rfl, hor⟩
        · rintro ⟨rfl, _⟩; exact ⟨-1, t, ⟨rfl, rfl⟩, rfl⟩
      · rw [if_neg h2]
        simp only [h2, false_or]
        cases hg : Cbor.getVarLenInt b t with
        | err e => simp
        | ok n r =>
          simp only [Cbor.Res.ok.injEq, Prod.mk.injEq]
          constructor
          · rintro ⟨n', r', ⟨rfl, _⟩, _⟩; exact ⟨rfl, hor, n, r, rfl, rfl⟩
          · rintro ⟨rfl, _, _⟩; exact ⟨n, r, ⟨rfl, rfl⟩, rfl⟩

/-- **C36**: the CBOR reader opens a body exactly if detection reports its kind and the length after the first byte is there -/
theorem C36_reader (s : Src) (hl : Lively s) (tl : TopLevel) :
    (∃ r, Cbor.start tl { inp := s.text } = .ok r) ↔
      (cborSchema s).res = .ok (schemaOf tl) ∧ ∃ b t k, s.text = b :: t ∧ lengthBytes b = some k ∧ k ≤ t.length := by
  have h1 : (∃ r, Cbor.start tl { inp := s.text } = .ok r) ↔ ∃ n r, Cbor.readTopLevel s.text = .ok (Cbor.topByte tl, n) r := by
    unfold Cbor.start
    simp only [if_true]
    cases hr : Cbor.readTopLevel s.text with
    | err e => simp
    | ok p rest =>
      obtain ⟨x, n⟩ := p
      simp only [Cbor.Res.ok.injEq, Prod.mk.injEq]
      by_cases hx : x = Cbor.topByte tl
      · simp [hx]
      · simp [hx]
  rw [h1, readTopLevel_ok, C36_detect s hl]
  have htl : Cbor.topByte tl = 0x80 ∨ Cbor.topByte tl = 0xa0 := by cases tl <;> simp [Cbor.topByte]
  constructor
  · rintro ⟨b, t, e, h, _, k, hk, hk'⟩; exact ⟨⟨b, t, e, h⟩, b, t, k, e, hk, hk'⟩
  · rintro ⟨⟨b, t, e, h⟩, b', t', k, e', hk, hk'⟩
    rw [e] at e'
    simp only [List.cons.injEq] at e'
    obtain ⟨rfl, rfl⟩ := e'
    exact ⟨b, t, e, h, htl, k, hk, hk'⟩

/-- **C36**: so a body that the reader opens is detected as what it is -/
theorem C36_opened (s : Src) (hl : Lively s) (tl : TopLevel) (r : Cbor.Reader) (h : Cbor.start tl { inp := s.text } = .ok r) :
    (cborSchema s).res = .ok (schemaOf tl) := ((C36_reader s hl tl).1 ⟨r, h⟩).1

/-- **C36**, the other direction, is false: a reserved length is detected as an array although no reader opens it -/
theorem C36_reserved : ∃ s : Src, (cborSchema s).res = .ok (schemaOf .array) ∧ ∀ tl r, Cbor.start tl { inp := s.text } ≠ .ok r := by
  refine ⟨{ chunks := [[0x9c]] }, rfl, fun tl r => ?_⟩
  have h : Cbor.readTopLevel [0x9c] = .err (.badVarLen 0x1c) := by decide +kernel
  have e : ({ chunks := [[0x9c]] } : Src).text = [0x9c] := rfl
  simp [Cbor.start, e, h]

/-! ## C34 – completing a structure -/

theorem firstByte_rest (k : Nat) (s : Src) : ∃ pre, s.text = pre ++ (firstByte k s).2.text ∧ (firstByte k s).2.err = s.err := by
  obtain ⟨chunks, last, err⟩ := s
  induction chunks generalizing k with
  | nil => rw [firstByte.eq_def]; exact ⟨last, by simp [Src.text], rfl⟩
  | cons c cs ih =>
    rw [firstByte.eq_def]
    cases c with
    | cons b t => exact ⟨b :: t, by simp [Src.text], rfl⟩
    | nil =>
      cases k with
      | zero => exact ⟨[], by simp [Src.text], rfl⟩
      | succ k =>
        obtain ⟨pre, h1, h2⟩ := ih k
        exact ⟨pre, by simpa [Src.text] using h1, h2⟩

theorem cborSchema_rest (s : Src) : ∃ pre, s.text = pre ++ (cborSchema s).rest.text ∧ (cborSchema s).rest.err = s.err := by
  obtain ⟨pre, h1, h2⟩ := firstByte_rest 99 s
  have : (cborSchema s).rest = (firstByte 99 s).2 := by
    unfold cborSchema
    split <;> rename_i h <;> rw [h]
  rw [this]
  exact ⟨pre, h1, h2⟩

theorem skip_rest (s : Src) (k : Nat) : ∃ pre, s.text = pre ++ (s.skip k).text ∧ (s.skip k).err = s.err := by
  unfold Src.skip
  split
  · refine ⟨(s.chunks.take k).flatten, ?_, rfl⟩
    have := List.take_append_drop k s.chunks
    simp only [Src.text]
    rw [← List.append_assoc, ← List.flatten_append, this]
  · exact ⟨s.text, by simp [Src.text], rfl⟩

/-- detection takes a part from the beginning of the source -/
theorem fromReader_rest (E : Env) (df : DataFormat) (comp : Compression) (s : Src) :
    ∃ pre, s.text = pre ++ (fromReader E df comp s).2.text ∧ (fromReader E df comp s).2.err = s.err := by
  cases df with
  | cbor => exact cborSchema_rest s
  | json => obtain ⟨pre, h1, _, h3⟩ := C35_bytes s; exact ⟨pre, h1, h3⟩
  | csv => exact skip_rest s _
  | _ => exact ⟨[], rfl, rfl⟩

theorem glue_text {s rest : Src} {pre : Bytes} (h : s.text = pre ++ rest.text) : (glue s rest).text = s.text := by
  have : s.text.take (s.text.length - rest.text.length) = pre := by
    rw [h, List.length_append, Nat.add_sub_cancel, List.take_left']
    rfl
  unfold glue
  rw [this]
  simp only [Src.text] at h ⊢
  rw [h]
  simp

/-- **C34**: after a successful detection the body has the same name and delivers the same bytes from the beginning, and ends in the
same way -/
theorem C34_body (E : Env) (st st' : Option Doc.Structure) (b : Body) (body' : Option Body)
    (h : structure_ E st (some b) = (none, st', body')) :
    ∃ b', body' = some b' ∧ b'.name = b.name ∧ b'.src.text = b.src.text ∧ b'.src.err = b.src.err := by
  unfold structure_ at h
  split at h
  · simp only [Prod.mk.injEq, true_and] at h
    exact ⟨b, h.2.symm, rfl, rfl, rfl⟩
  · simp only at h
    split at h
    · simp at h
    · rename_i df comp hn
      obtain ⟨pre, h1, h2⟩ := fromReader_rest E df comp b.src
      generalize fromReader E df comp b.src = fr at h h1 h2
      obtain ⟨r, rest⟩ := fr
      cases r with
      | error e => simp at h
      | ok guess =>
        simp only [Prod.mk.injEq, true_and] at h
        exact ⟨_, h.2.symm, rfl, glue_text h1, h2⟩

/-- **C34**: detection only fills what is missing: format, compression, format configuration and schema each stay if they were set,
and every other field stays -/
theorem C34_kept (E : Env) (st0 : Doc.Structure) (body body' : Option Body) (st' : Option Doc.Structure) (x : Option Failure)
    (h : structure_ E (some st0) body = (x, st', body')) :
    ∃ st1, st' = some st1 ∧
      (∃ f c k s, st1 = { st0 with format := f, compression := c, formatConfig := k, schema := s }) ∧
      (st0.format ≠ [] → st1.format = st0.format) ∧ (st0.compression ≠ [] → st1.compression = st0.compression) ∧
      (st0.formatConfig.isSome → st1.formatConfig = st0.formatConfig) ∧ (st0.schema.isSome → st1.schema = st0.schema) := by
  have same : ∃ st1, some st0 = some st1 ∧
      (∃ f c k s, st1 = { st0 with format := f, compression := c, formatConfig := k, schema := s }) ∧
      (st0.format ≠ [] → st1.format = st0.format) ∧ (st0.compression ≠ [] → st1.compression = st0.compression) ∧
      (st0.formatConfig.isSome → st1.formatConfig = st0.formatConfig) ∧ (st0.schema.isSome → st1.schema = st0.schema) :=
    ⟨st0, rfl, ⟨_, _, _, _, rfl⟩, fun _ => rfl, fun _ => rfl, fun _ => rfl, fun _ => rfl⟩
  unfold structure_ at h
  split at h
  · simp only [Prod.mk.injEq] at h; rw [← h.2.1]; exact same
  · split at h
    · simp only [Prod.mk.injEq] at h; rw [← h.2.1]; exact same
    · split at h
      · simp only [Prod.mk.injEq] at h; rw [← h.2.1]; exact same
      · split at h
        · simp only [Prod.mk.injEq] at h; rw [← h.2.1]; exact same
        · rename_i guess rest _
          simp only [Prod.mk.injEq] at h
          rw [← h.2.1]
          refine ⟨_, rfl, ?_⟩
          obtain ⟨checksum, compression, depth, encoding, errCount, entries, format, formatConfig, length, path, qri, schema, strict⟩ := st0
          simp only [fill, Option.getD_some]
          cases format <;> cases compression <;> cases formatConfig <;> cases schema <;>
            simp only [reduceCtorEq, if_true, if_false, true_and, false_and, ne_eq, not_true_eq_false, not_false_eq_true, false_implies,
              Option.isSome_none, Option.isSome_some, Bool.false_eq_true, and_true, true_implies] <;>
            (repeat' split) <;> simp_all

/-- what detection fills in is what it found: format and compression of the file name, and the schema of the body -/
def Filled (st guess st1 : Doc.Structure) : Prop :=
  (st.format = [] → st1.format = guess.format) ∧ (st.compression = [] → st1.compression = guess.compression) ∧
  (st.schema = none → st1.schema = guess.schema) ∧
  (st.formatConfig = none → st1.formatConfig = if st1.format = guess.format then guess.formatConfig else none)

/-- **C34**: what a successful detection fills in -/
theorem C34_filled (E : Env) (st0 : Doc.Structure) (b : Body) (body' : Option Body) (st' : Option Doc.Structure)
    (hc : complete (some st0) = false) (h : structure_ E (some st0) (some b) = (none, st', body')) :
    ∃ df comp guess st1, formatFromFilename b.name = some (df, comp) ∧ (fromReader E df comp b.src).1 = .ok guess ∧ st' = some st1 ∧
      Filled st0 guess st1 := by
  unfold structure_ at h
  rw [if_neg (by rw [hc]; simp)] at h
  simp only at h
  split at h
  · simp at h
  · rename_i df comp hn
    split at h
    · simp at h
    · rename_i guess rest hf
      simp only [Prod.mk.injEq, true_and] at h
      refine ⟨df, comp, guess, _, hn, by rw [hf], h.1.symm, ?_⟩
      obtain ⟨checksum, compression, depth, encoding, errCount, entries, format, formatConfig, length, path, qri, schema, strict⟩ := st0
      simp only [Filled, fill, Option.getD_some]
      cases format <;> cases compression <;> cases formatConfig <;> cases schema <;>
        simp only [reduceCtorEq, if_true, if_false, true_and, false_and, false_implies, and_true, true_implies] <;>
        (repeat' split) <;> simp_all

theorem fill_none (g : Doc.Structure) : fill none g = g := by
  obtain ⟨checksum, compression, depth, encoding, errCount, entries, format, formatConfig, length, path, qri, schema, strict⟩ := g
  simp only [fill, Option.getD_none]
  repeat' split
  all_goals rfl

theorem guess_fields {E : Env} {df : DataFormat} {comp : Compression} {s : Src} {g : Doc.Structure} (hg : (fromReader E df comp s).1 = .ok g) :
    g.format = df.string ∧ g.compression = comp.string ∧ g.schema.isSome ∧ df ≠ .unknown := by
  unfold fromReader at hg
  cases df <;> simp only [Except.map] at hg <;> (try split at hg) <;> cases hg <;> exact ⟨rfl, rfl, rfl, by simp⟩

/-- **C34**: without a structure, the detected one is taken as it is -/
theorem C34_new (E : Env) (b : Body) (body' : Option Body) (st' : Option Doc.Structure)
    (h : structure_ E none (some b) = (none, st', body')) :
    ∃ df comp guess, formatFromFilename b.name = some (df, comp) ∧ (fromReader E df comp b.src).1 = .ok guess ∧ st' = some guess ∧
      guess.format = df.string ∧ guess.compression = comp.string := by
  unfold structure_ at h
  simp only [complete, Bool.false_eq_true, if_false] at h
  split at h
  · simp at h
  · rename_i df comp hn
    split at h
    · simp at h
    · rename_i guess rest hf
      have hg := guess_fields (g := guess) (by rw [hf])
      simp only [Prod.mk.injEq, true_and] at h
      refine ⟨df, comp, guess, hn, by rw [hf], ?_, hg.1, hg.2.1⟩
      rw [← h.1]
      rw [fill_none]

/-- **C34**: what is detected, by format: JSON by the first visible byte, CBOR by the first byte, newline-delimited JSON and spreadsheets
are arrays, CSV by its rows (C59); nothing else is detected -/
theorem C34_by_format (E : Env) (df : DataFormat) (comp : Compression) (s : Src) (g : Doc.Structure) (he : s.err = .eof) (h : (fromReader E df comp s).1 = .ok g) :
    (df = .json ∧ g.formatConfig = none ∧ ∃ sch, g.schema = some sch ∧ jsonTop s.text = .ok sch) ∨
    (df = .cbor ∧ g.formatConfig = none ∧ (Lively s → ∃ b t tl, s.text = b :: t ∧ b &&& 0xe0 = Cbor.topByte tl ∧ g.schema = some (schemaOf tl))) ∨
    ((df = .ndjson ∨ df = .xlsx) ∧ g.formatConfig = none ∧ g.schema = some (schemaOf .array)) ∨
    (df = .csv ∧ ∃ sch config, csvSchema E.L E.varName (E.repaired s) = (.ok sch, config) ∧ g.schema = some sch ∧ g.formatConfig = some config) := by
  unfold fromReader at h
  cases df with
  | unknown => cases h
  | xml => cases h
  | ndjson => cases h; exact .inr (.inr (.inl ⟨.inl rfl, rfl, rfl⟩))
  | xlsx => cases h; exact .inr (.inr (.inl ⟨.inr rfl, rfl, rfl⟩))
  | json =>
    left
    simp only [Except.map] at h
    split at h
    · cases h
    · rename_i sch hs
      cases h
      refine ⟨rfl, rfl, sch, rfl, ?_⟩
      obtain ⟨h1, h2⟩ := C35_closed_form s he
      by_cases hb : ShortBlank s
      · rw [h1 hb] at hs; cases hs
      · rw [← h2 hb]; exact hs
  | cbor =>
    right; left
    simp only [Except.map] at h
    split at h
    · cases h
    · rename_i sch hs
      cases h
      refine ⟨rfl, rfl, fun hl => ?_⟩
      have htl : ∃ tl, sch = schemaOf tl := by
        unfold cborSchema at hs
        have hc : ∀ bd, cborTop bd = .ok sch → ∃ tl, sch = schemaOf tl := by
          intro bd hb
          unfold cborTop at hb
          split at hb
          · cases hb; exact ⟨.array, rfl⟩
          · split at hb
            · cases hb; exact ⟨.object, rfl⟩
            · cases hb
        split at hs
        · rename_i bd rest _; exact hc bd hs
        · exact hc 0 hs
        · cases hs
      obtain ⟨tl, rfl⟩ := htl
      obtain ⟨b, t, h1, h2⟩ := (C36_detect s hl tl).mp hs
      exact ⟨b, t, tl, h1, h2, rfl⟩
  | csv =>
    right; right; right
    simp only [he, if_true, Except.map] at h
    split at h
    · cases h
    · rename_i sch hs
      cases h
      exact ⟨rfl, sch, _, Prod.ext hs rfl, rfl, rfl⟩

/-- **C34**: after a successful detection format and schema are there -/
theorem C34_readable (E : Env) (st st' : Option Doc.Structure) (body body' : Option Body) (h : structure_ E st body = (none, st', body')) :
    ∃ st1, st' = some st1 ∧ st1.format ≠ [] ∧ st1.schema.isSome := by
  by_cases hc : complete st = true
  · unfold structure_ at h
    rw [if_pos hc] at h
    simp only [Prod.mk.injEq, true_and] at h
    rw [← h.1]
    cases st with
    | none => simp [complete] at hc
    | some st =>
      simp only [complete, Bool.and_eq_true, decide_eq_true_eq] at hc
      exact ⟨st, rfl, hc.1.1, hc.1.2⟩
  · cases body with
    | none => unfold structure_ at h; rw [if_neg hc] at h; simp at h
    | some b =>
      have hne : ∀ df : DataFormat, df ≠ .unknown → df.string ≠ [] := by intro df hd; cases df <;> simp_all [DataFormat.string]
      cases st with
      | none =>
        obtain ⟨df, comp, guess, _, hg, e, h1, _⟩ := C34_new E b body' st' h
        obtain ⟨_, _, h2, h3⟩ := guess_fields hg
        exact ⟨guess, e, by rw [h1]; exact hne df h3, h2⟩
      | some st0 =>
        obtain ⟨df, comp, guess, st1, _, hg, e, hf⟩ := C34_filled E st0 b body' st' (by simpa using hc) h
        obtain ⟨st2, e2, _, k1, _, _, k4⟩ := C34_kept E st0 (some b) body' st' none h
        rw [e] at e2
        cases e2
        obtain ⟨h1, _, h2, h3⟩ := guess_fields hg
        refine ⟨st1, e, ?_, ?_⟩
        · by_cases hn : st0.format = []
          · rw [hf.1 hn, h1]; exact hne df h3
          · rw [k1 hn]; exact hn
        · cases hs : st0.schema with
          | none => rw [hf.2.2.1 hs]; exact h2
          | some sc => rw [k4 (by rw [hs]; rfl), hs]; rfl

/-- **C34**: a complete structure is left alone and the body is not looked at -/
theorem C34_complete (E : Env) (st0 : Doc.Structure) (body : Option Body) (h1 : st0.format ≠ []) (h2 : st0.schema.isSome)
    (h3 : st0.formatConfig.isSome ∨ (st0.format ≠ b!"csv" ∧ st0.format ≠ b!"xlsx")) :
    structure_ E (some st0) body = (none, some st0, body) := by
  unfold structure_
  rw [if_pos]
  simp only [complete, needsFormatConfig, Bool.and_eq_true, decide_eq_true_eq, h1, h2, ne_eq, not_false_eq_true, and_self, true_and]
  rcases h3 with h3 | ⟨h3, h4⟩
  · cases h : st0.formatConfig with
    | none => rw [h] at h3; simp at h3
    | some c => simp
  · simp [DataFormat.string, h3, h4]

/-- **C34**: only a complete structure does without a body -/
theorem C34_no_body (E : Env) (st : Option Doc.Structure) :
    (∃ st', structure_ E st none = (none, st', none)) ↔ ∃ st0, st = some st0 ∧ st0.format ≠ [] ∧ st0.schema.isSome ∧
      (st0.formatConfig.isSome ∨ (st0.format ≠ b!"csv" ∧ st0.format ≠ b!"xlsx")) := by
  constructor
  · rintro ⟨st', h⟩
    unfold structure_ at h
    split at h
    · rename_i hc
      cases st with
      | none => simp [complete] at hc
      | some st0 =>
        simp only [complete, Bool.and_eq_true, decide_eq_true_eq, needsFormatConfig, Bool.not_eq_true', Bool.and_eq_false_iff, Bool.or_eq_false_iff,
          decide_eq_false_iff_not] at hc
        obtain ⟨⟨c1, c2⟩, c3⟩ := hc
        refine ⟨st0, rfl, c1, c2, ?_⟩
        rcases c3 with c3 | c3
        · exact Or.inr ⟨c3.2, c3.1⟩
        · left
          cases hf : st0.formatConfig with
          | none => rw [hf] at c3; cases c3
          | some c => rfl
    · simp at h
  · rintro ⟨st0, rfl, h1, h2, h3⟩
    exact ⟨_, C34_complete E st0 none h1 h2 h3⟩

example (E : Env) : (structure_ E (some { format := b!"xlsx", schema := some [] }) none).1 = some .noBody := by rfl

/-- **C34**: when detection fails the structure is unchanged; of the body, whatever was read is lost -/
theorem C34_failed (E : Env) (st st' : Option Doc.Structure) (body body' : Option Body) (x : Failure) (h : structure_ E st body = (some x, st', body')) :
    st' = st ∧ (body = none ∧ body' = none ∧ x = .noBody ∨ ∃ b b' pre, body = some b ∧ body' = some b' ∧ b'.name = b.name ∧ b'.size = b.size ∧
      b.src.text = pre ++ b'.src.text ∧ (x = .badName → pre = [] ∧ b' = b)) := by
  unfold structure_ at h
  split at h
  · simp at h
  · split at h
    · simp only [Prod.mk.injEq, Option.some.injEq] at h
      exact ⟨h.2.1.symm, .inl ⟨rfl, h.2.2.symm, h.1.symm⟩⟩
    · rename_i b
      split at h
      · simp only [Prod.mk.injEq, Option.some.injEq] at h
        exact ⟨h.2.1.symm, .inr ⟨b, b, [], rfl, h.2.2.symm, rfl, rfl, rfl, fun _ => ⟨rfl, rfl⟩⟩⟩
      · rename_i df comp hn
        obtain ⟨pre, h1, h2⟩ := fromReader_rest E df comp b.src
        split at h
        · rename_i e rest hf
          simp only [Prod.mk.injEq, Option.some.injEq] at h
          rw [hf] at h1
          refine ⟨h.2.1.symm, .inr ⟨b, _, pre, rfl, h.2.2.symm, rfl, rfl, h1, ?_⟩⟩
          intro hx
          rw [hx] at h
          simp at h
        · simp at h

/-- a failure for which nothing depends on the environment -/
theorem C34_failure_loses_bytes (E : Env) : ∃ (b b' : Body), structure_ E none (some b) = (some (.detect .invalidJSON), none, some b') ∧
    b.src.text = b!"nothing" ∧ b'.src.text = [] :=
  ⟨{ name := b!"body.json", src := { chunks := [b!"nothing"] } }, { name := b!"body.json", src := { chunks := [] } }, rfl, rfl, rfl⟩

/-- **C34**: detection fails exactly if something is missing and there is no body, or its name says no format, or its contents are
not understood -/
theorem C34_fails_iff (E : Env) (st : Option Doc.Structure) (body : Option Body) :
    (∃ x, (structure_ E st body).1 = some x) ↔
      complete st = false ∧ ∀ b df comp, body = some b → formatFromFilename b.name = some (df, comp) → ∃ e, (fromReader E df comp b.src).1 = .error e := by
  unfold structure_
  split
  · rename_i h; simp [h]
  · rename_i h
    have hc : complete st = false := by simpa using h
    simp only [hc, true_and]
    split
    · simp
    · rename_i b
      split
      · rename_i hn
        simp only [Option.some.injEq, exists_eq', true_iff]
        rintro b' df comp rfl h'
        rw [hn] at h'
        cases h'
      · rename_i df comp hn
        have hred : (∀ b' df' comp', some b = some b' → formatFromFilename b'.name = some (df', comp') → ∃ e, (fromReader E df' comp' b'.src).1 = .error e) ↔
            ∃ e, (fromReader E df comp b.src).1 = .error e := by
          constructor
          · exact fun h => h b df comp rfl hn
          · rintro h' b' df' comp' e hn'
            simp only [Option.some.injEq] at e
            subst e
            rw [hn] at hn'
            simp only [Option.some.injEq, Prod.mk.injEq] at hn'
            obtain ⟨rfl, rfl⟩ := hn'
            exact h'
        rw [hred]
        generalize fromReader E df comp b.src = fr
        obtain ⟨r, rest⟩ := fr
        cases r <;> simp

/-- a text whose first byte begins no JSON container is refused, however it arrives -/
theorem jsonSchema_refuses (s : Src) {x : UInt8} {t : Bytes} (ht : s.text = x :: t) (hx : ws x = false) (h1 : x ≠ 91) (h2 : x ≠ 123) :
    ∃ e, (jsonSchema s).res = .error e := by
  have hbad : ∀ (a b : Bytes), jsonTop (x :: a ++ b) = .error .invalidJSON := by
    intro a b
    simp only [jsonTop, List.cons_append, List.find?_cons, hx, Bool.not_false]
    split
    · rename_i h; simp only [Option.some.injEq] at h; exact absurd h h1
    · rename_i h; simp only [Option.some.injEq] at h; exact absurd h h2
    · rfl
  by_cases he : s.err = .eof
  · by_cases hs : ShortBlank s
    · exact ⟨_, (C35_closed_form s he).1 hs⟩
    · rw [(C35_closed_form s he).2 hs, ht]
      exact ⟨_, by simpa using hbad t []⟩
  · obtain ⟨chunks, last, err⟩ := s
    simp only at he
    simp only [Src.text] at ht
    unfold jsonSchema
    simp only
    cases chunks with
    | nil => exact ⟨.readFailed, by rw [jsonLoop, jsonEnd, if_neg he]⟩
    | cons c cs =>
      rw [jsonLoop, look_spec]
      cases c with
      | nil => exact ⟨.invalidJSON, rfl⟩
      | cons y c =>
        obtain rfl : y = x := by simpa using (List.cons.inj ht).1
        have ha : (overwrite (List.replicate 100 0) (y :: c)).all ws = false := by
          rw [overwrite, List.cons_append, List.all_cons, hx, Bool.false_and]
        rw [ha]
        exact ⟨.invalidJSON, hbad c _⟩

/-- **C34**: the name may say that the body is compressed, but the bytes are looked at as they are: whatever begins like a gzip
stream or a Zstandard frame is refused under a JSON or CBOR name, and the dataset keeps its incomplete structure -/
theorem C34_compressed_refused (E : Env) (st : Option Doc.Structure) (b : Body) (df : DataFormat) (comp : Compression) (x : UInt8) (t : Bytes)
    (hn : formatFromFilename b.name = some (df, comp)) (hdf : df = .json ∨ df = .cbor) (ht : b.src.text = x :: t) (hx : x = 0x1f ∨ x = 0x28)
    (hc : complete st = false) : ∃ e b', structure_ E st (some b) = (some (.detect e), st, some b') := by
  have hfr : ∃ e, (fromReader E df comp b.src).1 = .error e := by
    rcases hdf with rfl | rfl
    · obtain ⟨e, h⟩ := jsonSchema_refuses b.src ht (by rcases hx with rfl | rfl <;> rfl) (by rcases hx with rfl | rfl <;> decide)
        (by rcases hx with rfl | rfl <;> decide)
      exact ⟨e, by simp only [fromReader, h]; rfl⟩
    · have : ∃ e, (cborSchema b.src).res = .error e := by
        unfold cborSchema
        rcases firstByte_spec 99 b.src with ⟨y, u, h1, h2⟩ | ⟨h1, h2⟩ | ⟨⟨e, h2⟩, _⟩
        · generalize firstByte 99 b.src = fb at h2 ⊢
          obtain ⟨r, rest⟩ := fb
          simp only at h2
          subst h2
          obtain rfl : x = y := by rw [ht] at h1; exact (List.cons.inj h1).1
          exact ⟨.cborTop, by rcases hx with rfl | rfl <;> rfl⟩
        · rw [ht] at h1; cases h1
        · generalize firstByte 99 b.src = fb at h2 ⊢
          obtain ⟨r, rest⟩ := fb
          simp only at h2
          subst h2
          exact ⟨.readFailed, rfl⟩
      obtain ⟨e, h⟩ := this
      exact ⟨e, by simp only [fromReader, h]; rfl⟩
  obtain ⟨e, h⟩ := hfr
  unfold structure_
  rw [if_neg (by simp [hc])]
  simp only [hn]
  generalize fromReader E df comp b.src = fr at h ⊢
  obtain ⟨r, rest⟩ := fr
  simp only at h
  subst h
  exact ⟨e, _, rfl⟩

/-- a gzip stream named like a compressed JSON file -/
example (E : Env) : ∃ e b', structure_ E none (some { name := b!"body.json.gz", src := { chunks := [[0x1f, 0x8b, 8, 0]] } }) = (some (.detect e), none, some b') :=
  C34_compressed_refused E none _ .json .gzip 0x1f [0x8b, 8, 0] (by decide +kernel) (.inl rfl) rfl (.inl rfl) rfl

/-- **C34**: a second successful detection changes nothing any more -/
theorem C34_again (E : Env) (st st' st'' : Option Doc.Structure) (body body' body'' : Option Body)
    (h : structure_ E st body = (none, st', body')) (h' : structure_ E st' body' = (none, st'', body'')) : st'' = st' := by
  obtain ⟨st1, rfl, hf1, hs1⟩ := C34_readable E st st' body body' h
  obtain ⟨st2, rfl, ⟨f, c, k, sc, e⟩, k1, k2, k3, k4⟩ := C34_kept E st1 body' body'' st'' none h'
  by_cases hc' : complete (some st1) = true
  · unfold structure_ at h'
    rw [if_pos hc'] at h'
    simp only [Prod.mk.injEq, true_and] at h'
    exact h'.1.symm
  · by_cases hc : complete st = true
    · unfold structure_ at h
      rw [if_pos hc] at h
      simp only [Prod.mk.injEq, true_and] at h
      rw [h.1] at hc
      exact absurd hc hc'
    · cases body with
      | none => unfold structure_ at h; rw [if_neg hc] at h; simp at h
      | some b =>
        obtain ⟨b', rfl, hn, _, _⟩ := C34_body E st (some st1) b body' h
        obtain ⟨df', comp', guess', st3, hd', hg', e3, hfill'⟩ := C34_filled E st1 b' body'' (some st2) (by simpa using hc') h'
        simp only [Option.some.injEq] at e3
        subst e3
        obtain ⟨g1', g2', g3', g4'⟩ := guess_fields hg'
        rw [hn] at hd'
        -- what the first detection left
        have first : (st1.compression = [] → comp'.string = []) ∧ (st1.formatConfig = none → st1.format = df'.string → df' ≠ .csv) := by
          cases st with
          | none =>
            obtain ⟨df, comp, guess, hd, hg, e', i1, i2⟩ := C34_new E b _ _ h
            rw [hd] at hd'
            simp only [Option.some.injEq, Prod.mk.injEq] at hd' e'
            obtain ⟨rfl, rfl⟩ := hd'
            subst e'
            refine ⟨fun hx => by rw [← i2]; exact hx, fun hx _ => ?_⟩
            rintro rfl
            simp only [fromReader, Except.map] at hg
            split at hg <;> cases hg
            simp at hx
          | some st0 =>
            obtain ⟨df, comp, guess, st3, hd, hg, e', hfill⟩ := C34_filled E st0 b _ _ (by simpa using hc) h
            obtain ⟨st4, e4, _, j1, j2, j3, j4⟩ := C34_kept E st0 _ _ _ _ h
            rw [hd] at hd'
            simp only [Option.some.injEq, Prod.mk.injEq] at hd' e' e4
            obtain ⟨rfl, rfl⟩ := hd'
            subst e' e4
            obtain ⟨g1, g2, g3, g4⟩ := guess_fields hg
            constructor
            · intro hx
              by_cases h0 : st0.compression = []
              · rw [← g2, ← hfill.2.1 h0]; exact hx
              · rw [j2 h0] at hx; exact absurd hx h0
            · intro hx hy hcsv
              subst hcsv
              cases h0 : st0.formatConfig with
              | some cfg => rw [j3 (by rw [h0]; rfl), h0] at hx; cases hx
              | none =>
                have := hfill.2.2.2 h0
                rw [if_pos (by rw [hy, g1])] at this
                rw [this] at hx
                simp only [fromReader, Except.map] at hg
                split at hg <;> cases hg
                simp at hx
        have hfmt : f = st1.format := by have := k1 hf1; rw [e] at this; exact this
        have hcomp : c = st1.compression := by
          by_cases h0 : st1.compression = []
          · have := hfill'.2.1 h0
            rw [e, g2', first.1 h0] at this
            rw [h0]; exact this
          · have := k2 h0; rw [e] at this; exact this
        have hsch : sc = st1.schema := by have := k4 hs1; rw [e] at this; exact this
        have hcfg : k = st1.formatConfig := by
          cases h0 : st1.formatConfig with
          | some cfg => have := k3 (by rw [h0]; rfl); rw [e, h0] at this; exact this
          | none =>
            have := hfill'.2.2.2 h0
            rw [e] at this
            simp only at this
            rw [this]
            split
            · rename_i hy
              rw [hfmt, g1'] at hy
              have hnc := first.2 h0 hy
              unfold fromReader at hg'
              cases df' <;> first | exact absurd rfl hnc | (simp only [Except.map] at hg'; split at hg' <;> cases hg'; rfl) | (cases hg'; rfl) | (cases hg')
            · rfl
        rw [e, hfmt, hcomp, hcfg, hsch]

/-! ## C59 – CSV -/

section
open Csv

/-- with lazy quotes no text is wrong -/
theorem quoted_lazy (sep s : Bytes) : ∀ e r, (quoted sep true s).2 ≠ .err e r := by
  suffices H : ∀ n (s : Bytes), s.length ≤ n → ∀ e r, (quoted sep true s).2 ≠ .err e r from H _ s (Nat.le_refl _)
  intro n
  induction n with
  | zero =>
    intro s hs e r
    cases s with
    | nil => rw [quoted.eq_def]; simp
    | cons => simp at hs
  | succ n ih =>
    intro s hn e r
    cases s with
    | nil => rw [quoted.eq_def]; simp
    | cons c s =>
      simp only [List.length_cons] at hn
      rw [quoted.eq_def]
      simp only
      split
      · exact ih s (by omega) e r
      · cases s with
        | nil => simp
        | cons d t =>
          simp only [List.length_cons] at hn
          simp only
          split
          · exact ih t (by omega) e r
          · split
            · simp
            · split
              · simp
              · simp only [if_true]
                exact ih (d :: t) (by simp; omega) e r

theorem bare_noerr (sep s : Bytes) : ∀ e r, (bare sep s).2 ≠ .err e r := by
  induction s with
  | nil => simp [bare]
  | cons c s ih =>
    intro e r
    rw [bare]
    split
    · simp
    · split
      · simp
      · exact ih e r

theorem fields_lazy (sep : Bytes) (trim : Bool) (n : Nat) (s : Bytes) : (fields sep trim true n s).2.1 = none := by
  induction n generalizing s with
  | zero => rfl
  | succ n ih =>
    rw [fields]
    split
    · exact ih _
    · rfl
    · rename_i f e r h
      exfalso
      unfold field at h
      split at h
      · rename_i t _; exact quoted_lazy sep t e r (by rw [h])
      · simp only [Bool.not_true, Bool.false_and, Bool.false_eq_true, if_false] at h
        exact bare_noerr sep _ e r (by rw [h])

/-- the detecting reader never fails: it delivers a row or reports the end -/
theorem read_detect (s : Bytes) :
    (∃ row r, Csv.read csvCfg { rest := s, fpr := -1 } = (.ok row, { rest := r, fpr := -1 }) ∧ r.length < s.length) ∨
      Csv.read csvCfg { rest := s, fpr := -1 } = (.error .eof, { rest := [], fpr := -1 }) := by
  have hp := read_progress (c := csvCfg) (by decide) { rest := s, fpr := -1 }
  unfold Csv.read at hp ⊢
  rw [if_neg (by decide)] at hp ⊢
  split
  · exact .inr rfl
  · rename_i hne
    simp only at hp
    left
    have hl := fields_lazy (utf8Enc csvCfg.comma) csvCfg.trim ((skipBlank s).length + 1) (skipBlank s)
    have hl' : (fields (utf8Enc csvCfg.comma) csvCfg.trim csvCfg.lazy ((skipBlank s).length + 1) (skipBlank s)).2.1 = none := hl
    simp only [hl'] at hp ⊢
    generalize fields (utf8Enc csvCfg.comma) csvCfg.trim csvCfg.lazy ((skipBlank s).length + 1) (skipBlank s) = F at hp ⊢
    have hn : ¬ ((0 : Int) < -1 ∧ (F.1.length : Int) ≠ -1) := by omega
    rw [if_neg hn] at hp ⊢
    refine ⟨F.1, F.2.2, rfl, ?_⟩
    rcases hp with ⟨hp, _⟩ | hp
    · cases hp
    · exact hp

theorem read_end (s : Bytes) (h : Csv.read csvCfg { rest := s, fpr := -1 } = (.error .eof, { rest := [], fpr := -1 })) : skipBlank s = [] := by
  have h := congrArg Prod.fst h
  unfold Csv.read at h
  rw [if_neg (by decide)] at h
  split at h
  · assumption
  · have hl' : (fields (utf8Enc csvCfg.comma) csvCfg.trim csvCfg.lazy ((skipBlank s).length + 1) (skipBlank s)).2.1 = none :=
      fields_lazy (utf8Enc csvCfg.comma) csvCfg.trim ((skipBlank s).length + 1) (skipBlank s)
    simp only [hl'] at h
    rw [if_neg (by omega)] at h
    cases h

/-- the rows of a text, as the detecting reader delivers them one after the other -/
def rowsOf : Nat → Bytes → List (List Bytes)
  | 0, _ => []
  | f + 1, s =>
    match Csv.read csvCfg { rest := s, fpr := -1 } with
    | (.ok row, st) => row :: rowsOf f st.rest
    | (.error _, _) => []

/-- all rows of a text -/
def rows (text : Bytes) : List (List Bytes) := rowsOf ((norm text).length + 1) (norm text)

theorem rowsOf_enough (f g : Nat) (s : Bytes) (hf : s.length < f) (hg : s.length < g) : rowsOf f s = rowsOf g s := by
  induction f generalizing g s with
  | zero => omega
  | succ f ih =>
    cases g with
    | zero => omega
    | succ g =>
      simp only [rowsOf]
      rcases read_detect s with ⟨row, r, h, hl⟩ | h
      · simp only [h]; rw [ih g r (by omega) (by omega)]
      · simp only [h]

/-- the beginning of a list up to and including the `n`-th element that satisfies `p` -/
def upTo {α : Type} (p : α → Bool) : Nat → List α → List α
  | 0, _ => []
  | _ + 1, [] => []
  | n + 1, a :: l => a :: upTo p (if p a then n else n + 1) l

/-- the loop over the rows in terms of the rows -/
theorem scan_rows (L : Vals.Lib) (f : Nat) (count : Nat) (s : Bytes) (variadic : Bool) (ts : List Tally) (hf : s.length < f) (hc : count ≤ 2001) :
    scan L f count { rest := s, fpr := -1 } variadic ts =
      .ok (variadic || (upTo (fun r => r.length = ts.length) (2001 - count) (rowsOf f s)).any (fun r => r.length ≠ ts.length),
        ((upTo (fun r => r.length = ts.length) (2001 - count) (rowsOf f s)).filter (fun r => r.length = ts.length)).foldl (bumpRow L) ts) := by
  induction f generalizing count s variadic ts with
  | zero => omega
  | succ f ih =>
    simp only [scan]
    by_cases h2 : count > 2000
    · have e : 2001 - count = 0 := by omega
      rw [if_pos h2, e]
      simp [upTo]
    · obtain ⟨m, hm⟩ : ∃ m, 2001 - count = m + 1 := ⟨2000 - count, by omega⟩
      rw [if_neg h2, hm]
      simp only [rowsOf]
      rcases read_detect s with ⟨row, r, h, hl⟩ | h
      · simp only [h, upTo]
        have hlen : (bumpRow L ts row).length = ts.length := by
          clear ih h hl
          induction ts generalizing row with
          | nil => cases row <;> rfl
          | cons t ts ih => cases row with
            | nil => rfl
            | cons c cs => simp [bumpRow, ih]
        by_cases hw : row.length = ts.length
        · rw [if_pos hw, ih (count + 1) r variadic _ (by omega) (by omega), hlen]
          have e : 2001 - (count + 1) = m := by omega
          simp [hw, e]
        · rw [if_neg hw, ih count r true _ (by omega) hc, hm]
          simp [hw]
      · simp only [h, upTo, List.any_nil, Bool.or_false, List.filter_nil, List.foldl_nil]

theorem bumpRow_get (L : Vals.Lib) (ts : List Tally) (row : List Bytes) (j : Nat) :
    (bumpRow L ts row)[j]? = match ts[j]?, row[j]? with
      | some t, some c => some (bump t (Vals.parseType L c))
      | x, _ => x := by
  induction ts generalizing row j with
  | nil => cases row <;> simp [bumpRow]
  | cons t ts ih =>
    cases row with
    | nil => simp [bumpRow]
    | cons c cs =>
      cases j with
      | zero => simp [bumpRow]
      | succ j => simp [bumpRow, ih]

theorem bumpRow_length (L : Vals.Lib) (ts : List Tally) (row : List Bytes) : (bumpRow L ts row).length = ts.length := by
  induction ts generalizing row with
  | nil => cases row <;> rfl
  | cons t ts ih => cases row with
    | nil => rfl
    | cons c cs => simp [bumpRow, ih]

/-- the types of the cells of column `j` -/
def columnTypes (L : Vals.Lib) (rs : List (List Bytes)) (j : Nat) : List Vals.VType := rs.map fun r => Vals.parseType L (r.getD j [])

theorem bumpRows_get (L : Vals.Lib) (ts : List Tally) (rs : List (List Bytes)) (hr : ∀ r ∈ rs, r.length = ts.length) (j : Nat) (t : Tally) (hj : ts[j]? = some t) :
    ∃ t', (rs.foldl (bumpRow L) ts)[j]? = some t' ∧ ∀ x, t' x = t x + (columnTypes L rs j).count x := by
  induction rs generalizing ts t with
  | nil => exact ⟨t, hj, by simp [columnTypes]⟩
  | cons r rs ih =>
    have hl := hr r (by simp)
    have hlt : j < r.length := by rw [hl]; exact (List.getElem?_eq_some_iff.mp hj).1
    have hg := bumpRow_get L ts r j
    rw [hj, List.getElem?_eq_getElem hlt] at hg
    obtain ⟨t', h1, h2⟩ := ih (bumpRow L ts r) (fun r' hm => by rw [bumpRow_length]; exact hr r' (by simp [hm])) _ hg
    refine ⟨t', h1, fun x => ?_⟩
    have e : r.getD j [] = r[j] := by simp [List.getD, List.getElem?_eq_getElem hlt]
    rw [h2 x]
    simp only [columnTypes, List.map_cons, e, List.count_cons, bump]
    by_cases hx : x = Vals.parseType L r[j]
    · subst hx
      simp only [if_true, beq_self_eq_true]
      omega
    · rw [if_neg hx, if_neg (by simpa using fun h => hx h.symm)]
      omega

/-- the number of a type (type.go:15-35) -/
def rank : Vals.VType → Nat
  | .unknown => 0 | .null => 1 | .integer => 2 | .number => 3 | .boolean => 4 | .string => 5 | .object => 6 | .array => 7 | .bytes => 8

theorem best (t : Tally) (l : List Vals.VType) (cur : Vals.VType) (hs : (cur :: l).Pairwise fun a b => rank a ≤ rank b) :
    ∀ x ∈ cur :: l, t x ≤ t (l.foldl (fun cur x => if t x > t cur then x else cur) cur) ∧
      (t x = t (l.foldl (fun cur x => if t x > t cur then x else cur) cur) → rank (l.foldl (fun cur x => if t x > t cur then x else cur) cur) ≤ rank x) := by
  induction l generalizing cur with
  | nil => intro x hx; simp at hx; subst hx; simp
  | cons a l ih =>
    intro x hx
    rw [List.foldl_cons]
    have h1 : rank cur ≤ rank a := by
      have := (List.pairwise_cons.mp hs).1 a (by simp); exact this
    have hl : (a :: l).Pairwise fun a b => rank a ≤ rank b := (List.pairwise_cons.mp hs).2
    have hcl : (cur :: l).Pairwise fun a b => rank a ≤ rank b := by
      rw [List.pairwise_cons]
      exact ⟨fun y hy => (List.pairwise_cons.mp hs).1 y (by simp [hy]), (List.pairwise_cons.mp hl).2⟩
    by_cases hg : t a > t cur
    · rw [if_pos hg]
      have ha := ih a hl a (by simp)
      simp only [List.mem_cons] at hx
      rcases hx with rfl | rfl | hx
      · exact ⟨by omega, fun e => by omega⟩
      · exact ha
      · exact ih a hl x (by simp [hx])
    · rw [if_neg hg]
      have hcur := ih cur hcl cur (by simp)
      simp only [List.mem_cons] at hx
      rcases hx with rfl | rfl | hx
      · exact hcur
      · refine ⟨by omega, fun e => ?_⟩
        have := hcur.2 (by omega)
        omega
      · exact ih cur hcl x (by simp [hx])

/-- the type chosen for a column is the most frequent one, and of equally frequent ones that with the least number -/
theorem choose_spec (t : Tally) (x : Vals.VType) : t x ≤ t (choose t) ∧ (t x = t (choose t) → rank (choose t) ≤ rank x) := by
  have hs : (Vals.VType.unknown :: allTypes.filter fun x => t x ≠ 0).Pairwise fun a b => rank a ≤ rank b := by
    rw [List.pairwise_cons]
    refine ⟨fun y _ => Nat.zero_le _, List.Pairwise.filter _ ?_⟩
    decide
  have hb := best t (allTypes.filter fun x => t x ≠ 0) .unknown hs
  have hm : x ∈ allTypes := by cases x <;> simp [allTypes]
  by_cases h0 : t x = 0
  · have hu := hb .unknown (by simp)
    refine ⟨by rw [h0]; exact Nat.zero_le _, fun e => ?_⟩
    have : rank (choose t) ≤ rank Vals.VType.unknown := hu.2 (by
      have h1 : t .unknown ≤ t (choose t) := hu.1
      have h2 : t (choose t) = 0 := by omega
      have h3 : t (List.foldl (fun cur x => if t x > t cur then x else cur) .unknown (allTypes.filter fun x => t x ≠ 0)) = t (choose t) := rfl
      omega)
    exact Nat.le_trans this (Nat.zero_le _)
  · exact hb x (by simp [hm, h0])

/-- `ty` is the type of a column with cells of these types -/
def Majority (types : List Vals.VType) (ty : Vals.VType) : Prop :=
  (types = [] → ty = .unknown) ∧ ∀ x, types.count x ≤ types.count ty ∧ (types.count x = types.count ty → rank ty ≤ rank x)

theorem choose_majority (t : Tally) (types : List Vals.VType) (h : ∀ x, t x = types.count x) : Majority types (choose t) := by
  refine ⟨fun e => ?_, fun x => by rw [← h, ← h]; exact choose_spec t x⟩
  have h0 : ∀ x, t x = 0 := by intro x; rw [h, e]; rfl
  have := (choose_spec t .unknown).2 (by rw [h0, h0])
  have hr : rank (choose t) = 0 := Nat.le_zero.mp this
  generalize choose t = ty at hr
  cases ty <;> simp [rank] at hr ⊢

theorem majority_unique {types : List Vals.VType} {a b : Vals.VType} (ha : Majority types a) (hb : Majority types b) : a = b := by
  have h1 := ha.2 b
  have h2 := hb.2 a
  have e : types.count a = types.count b := by omega
  have r1 := h1.2 e.symm
  have r2 := h2.2 e
  have : rank a = rank b := by omega
  cases a <;> cases b <;> simp [rank] at this ⊢

/-- the first row can be a header: every cell is, without surrounding white space, something other than nothing, a number, `true` or `false` -/
def Header (L : Vals.Lib) (row : List Bytes) : Prop :=
  ∀ cell ∈ row, Doc.trimSpace cell ∉ [[], b!"true", b!"false"] ∧ (∀ i, ¬ CsvIO.IntLit (Doc.trimSpace cell) i) ∧ L.parse64 (Doc.trimSpace cell) = none

theorem header_iff (L : Vals.Lib) (row : List Bytes) : possibleHeader L row = true ↔ Header L row := by
  simp only [possibleHeader, Header, List.all_eq_true, Bool.and_eq_true, decide_eq_true_eq, Option.isNone_iff_eq_none, List.mem_cons, List.not_mem_nil, or_false, not_or]
  refine forall_congr' fun c => forall_congr' fun _ => ?_
  have hi : Vals.parseInteger (Doc.trimSpace c) = none ↔ ∀ i, ¬ CsvIO.IntLit (Doc.trimSpace c) i := by
    constructor
    · intro h i hi
      rw [(CsvIO.parseInteger_iff _ i).mpr hi] at h
      cases h
    · intro h
      cases he : Vals.parseInteger (Doc.trimSpace c) with
      | none => rfl
      | some i => exact absurd ((CsvIO.parseInteger_iff _ i).mp he) (h i)
  rw [hi]
  constructor
  · rintro ⟨⟨⟨⟨a, b⟩, c⟩, d⟩, e⟩; exact ⟨⟨c, d, e⟩, a, b⟩
  · rintro ⟨⟨c, d, e⟩, a, b⟩; exact ⟨⟨⟨⟨a, b⟩, c⟩, d⟩, e⟩

/-- what a text says about its columns: title and most frequent type of each -/
structure Columns (L : Vals.Lib) (varName : Bytes → Bytes) (header : List Bytes) (rest : List (List Bytes)) (cols : List Val) : Prop where
  width : cols.length = header.length
  each : ∀ (j : Nat) (col : Val), cols[j]? = some col → ∃ m ty, col = .obj m ∧ KeysSorted m ∧
    Majority (columnTypes L rest j) ty ∧
    mapGet m b!"type" = (if ty = .unknown then none else some (.str ty.name)) ∧
    (∀ k, k ≠ b!"title" → k ≠ b!"type" → mapGet m k = none) ∧
    ∃ title, (Header L header → title = varName (header.getD j [])) ∧ (¬ Header L header → title = b!"field_" ++ fmtNat (j + 1)) ∧
      mapGet m b!"title" = if title = [] then none else some (.str (toValidUtf8 0 title))

theorem fieldVal_get (title : Bytes) (ty : Vals.VType) : ∃ m, fieldVal title ty = .obj m ∧ KeysSorted m ∧
    mapGet m b!"type" = (if ty = .unknown then none else some (.str ty.name)) ∧
    mapGet m b!"title" = (if title = [] then none else some (.str (toValidUtf8 0 title))) ∧
    (∀ k, k ≠ b!"title" → k ≠ b!"type" → mapGet m k = none) := by
  refine ⟨(if title = [] then [] else [(b!"title", .str (toValidUtf8 0 title))]) ++ (if ty = .unknown then [] else [(b!"type", .str ty.name)]), rfl, ?_⟩
  generalize toValidUtf8 0 title = t'
  generalize ty.name = ty'
  have n1 : (b!"type" : Bytes) ≠ b!"title" := by decide
  by_cases h1 : title = [] <;> by_cases h2 : ty = .unknown <;> simp only [h1, h2, if_true, if_false, List.nil_append, List.append_nil, List.singleton_append]
  all_goals refine ⟨?_, ?_, ?_, ?_⟩
  all_goals first
    | rfl
    | (intro k hk1 hk2; simp [mapGet, hk1, hk2])
    | (simp only [KeysSorted, List.pairwise_cons, List.mem_singleton, List.not_mem_nil]; refine ⟨?_, ?_⟩ <;> simp <;> decide)
    | (simp [KeysSorted])

/-- the rows are those after the first, read on -/
theorem rows_cons {text : Bytes} {header : List Bytes} {rest : List (List Bytes)} (h : rows text = header :: rest) :
    ∃ r, Csv.read csvCfg { rest := norm text, fpr := -1 } = (.ok header, { rest := r, fpr := -1 }) ∧ rest = rowsOf (r.length + 1) r := by
  unfold rows at h
  simp only [rowsOf] at h
  rcases read_detect (norm text) with ⟨row, r, hr, hl⟩ | hr
  · simp only [hr, List.cons.injEq] at h
    refine ⟨r, by rw [hr, h.1], ?_⟩
    rw [← h.2]
    exact rowsOf_enough _ _ _ hl (by omega)
  · simp [hr] at h

theorem foldl_bump_length (L : Vals.Lib) (rs : List (List Bytes)) (ts : List Tally) : (rs.foldl (bumpRow L) ts).length = ts.length := by
  induction rs generalizing ts with
  | nil => rfl
  | cons r rs ih => rw [List.foldl_cons, ih, bumpRow_length]

theorem csvTitles_get (varName : Bytes → Bytes) (b : Bool) (header : List Bytes) (j : Nat) (hj : j < header.length) :
    (csvTitles varName b header)[j]? = some (if b then varName (header.getD j []) else b!"field_" ++ fmtNat (j + 1)) := by
  have e : header.getD j [] = header[j] := by simp [List.getD, List.getElem?_eq_getElem hj]
  unfold csvTitles
  cases b
  · simp [hj]
  · simp [hj]

theorem columns_of (L : Vals.Lib) (varName : Bytes → Bytes) (header : List Bytes) (counted : List (List Bytes)) (b : Bool) (hb : b = true ↔ Header L header)
    (hc : ∀ r ∈ counted, r.length = header.length) :
    Columns L varName header counted (((csvTitles varName b header).zip (counted.foldl (bumpRow L) (header.map fun _ => fun _ => 0))).map fun p => fieldVal p.1 (choose p.2)) := by
  have hlen : (csvTitles varName b header).length = header.length := by unfold csvTitles; cases b <;> simp
  refine ⟨by simp [hlen, foldl_bump_length], ?_⟩
  intro j col hcol
  rw [List.getElem?_map, Option.map_eq_some_iff] at hcol
  obtain ⟨⟨title, t⟩, hz, rfl⟩ := hcol
  rw [List.getElem?_zip_eq_some] at hz
  obtain ⟨h1, h2⟩ := hz
  change _ = some title at h1
  change _ = some t at h2
  have hj : j < header.length := by
    have := (List.getElem?_eq_some_iff.mp h1).1
    omega
  rw [csvTitles_get _ _ _ _ hj, Option.some.injEq] at h1
  obtain ⟨t', h3, h4⟩ := bumpRows_get L (header.map fun _ => fun _ => 0) counted (by simpa using hc) j (fun _ => 0) (by simp [hj])
  rw [h2, Option.some.injEq] at h3
  subst h3
  obtain ⟨m, e, hs, hty, hti, hk⟩ := fieldVal_get title (choose t)
  refine ⟨m, choose t, e, hs, choose_majority t _ (fun x => by rw [h4]; simp), hty, hk, title, ?_, ?_, hti⟩
  · intro hh; rw [← h1, if_pos (hb.mpr hh)]
  · intro hh; rw [← h1, if_neg (fun x => hh (hb.mp x))]

/-- **C59**: what CSV detection says about a text with a first row `header` and further rows `rest`.  Examined are the rows through the
2001st that is as wide as the first; types are counted over the examined rows of that width, and over the first row unless it can be a
header. -/
theorem C59_detected (L : Vals.Lib) (varName : Bytes → Bytes) (text : Bytes) (header : List Bytes) (rest : List (List Bytes)) (h : rows text = header :: rest) :
    ∃ cols config, csvSchema L varName text = (.ok [(b!"items", .obj [(b!"items", .arr cols), (b!"type", .str b!"array")]), (b!"type", .str b!"array")], config) ∧
      (∀ counted, counted = (upTo (fun r => r.length = header.length) 2001 rest).filter (fun r => r.length = header.length) →
        (Header L header → Columns L varName header counted cols) ∧ (¬ Header L header → Columns L varName header (header :: counted) cols)) ∧
      mapGet config b!"lazyQuotes" = some (.bool true) ∧
      (Header L header → mapGet config b!"headerRow" = some (.bool true)) ∧ (¬ Header L header → mapGet config b!"headerRow" = none) ∧
      ((∃ r ∈ upTo (fun r => r.length = header.length) 2001 rest, r.length ≠ header.length) → mapGet config b!"variadicFields" = some (.bool true)) ∧
      ((∀ r ∈ upTo (fun r => r.length = header.length) 2001 rest, r.length = header.length) → mapGet config b!"variadicFields" = none) ∧
      mapGet config b!"separator" = none ∧
      ∃ o, Config.newCSVOptions (some (config.map fun p => (p.1, .val p.2))) = some o ∧ o.lazyQuotes = true ∧ o.separator = 0 ∧ (o.headerRow = true ↔ Header L header) ∧
        (o.variadicFields = true ↔ ∃ r ∈ upTo (fun r => r.length = header.length) 2001 rest, r.length ≠ header.length) := by
  obtain ⟨r, hr, rfl⟩ := rows_cons h
  have hi := header_iff L header
  have hw : ∀ ts : List Tally, ts.length = header.length → scan L (r.length + 1) 0 { rest := r, fpr := -1 } false ts =
      .ok ((upTo (fun r => r.length = header.length) 2001 (rowsOf (r.length + 1) r)).any (fun r => r.length ≠ header.length),
        ((upTo (fun r => r.length = header.length) 2001 (rowsOf (r.length + 1) r)).filter (fun r => r.length = header.length)).foldl (bumpRow L) ts) := by
    intro ts ht
    rw [scan_rows L _ 0 r false ts (by omega) (by omega), ht]
    simp
  generalize upTo (fun r => r.length = header.length) 2001 (rowsOf (r.length + 1) r) = seen at hw ⊢
  generalize hcd : seen.filter (fun r => r.length = header.length) = counted at hw ⊢
  have hcl : ∀ r ∈ counted, r.length = header.length := by
    intro r hr
    rw [← hcd, List.mem_filter] at hr
    simpa using hr.2
  have hany : (seen.any fun r => r.length ≠ header.length) = true ↔ ∃ r ∈ seen, r.length ≠ header.length := by simp
  have hconf : ∀ b v : Bool, ∀ config : Schema, config = (if b then [(b!"headerRow", Val.bool true)] else []) ++ (b!"lazyQuotes", .bool true) :: (if v then [(b!"variadicFields", .bool true)] else []) →
      mapGet config b!"lazyQuotes" = some (.bool true) ∧ mapGet config b!"headerRow" = (if b then some (.bool true) else none) ∧
      mapGet config b!"variadicFields" = (if v then some (.bool true) else none) ∧ mapGet config b!"separator" = none ∧
      Config.newCSVOptions (some (config.map fun p => (p.1, .val p.2))) = some { headerRow := b, lazyQuotes := true, variadicFields := v } := by
    intro b v config e
    subst e
    cases b <;> cases v <;> decide
  cases hb : possibleHeader L header with
  | true =>
    have hh : Header L header := hi.mp hb
    obtain ⟨c1, c2, c3, c4, c5⟩ := hconf true (seen.any fun r => r.length ≠ header.length) _ rfl
    refine ⟨((csvTitles varName true header).zip (counted.foldl (bumpRow L) (header.map fun _ => fun _ => 0))).map fun p => fieldVal p.1 (choose p.2), _, ?_, ?_, c1, ?_, ?_, ?_, ?_, c4, _, c5, rfl, rfl, ⟨fun _ => hh, fun _ => rfl⟩, hany⟩
    · simp only [csvSchema, hr, hb, if_true, hw (header.map fun _ => fun _ => 0) (by simp), tableSchema]
    · intro cd e
      rw [e]
      exact ⟨fun _ => columns_of L varName header counted true ⟨fun _ => hh, fun _ => rfl⟩ hcl, fun x => absurd hh x⟩
    · intro _; rw [c2]; rfl
    · intro x; exact absurd hh x
    · intro x; rw [c3, if_pos (hany.mpr x)]
    · intro x; rw [c3, if_neg]; rw [hany]; rintro ⟨r, hr, hn⟩; exact hn (x r hr)
  | false =>
    have hh : ¬ Header L header := by rw [← hi, hb]; simp
    have hcl' : ∀ r ∈ header :: counted, r.length = header.length := by
      intro r hr
      rcases List.mem_cons.mp hr with rfl | hr
      · rfl
      · exact hcl r hr
    obtain ⟨c1, c2, c3, c4, c5⟩ := hconf false (seen.any fun r => r.length ≠ header.length) _ rfl
    refine ⟨((csvTitles varName false header).zip ((header :: counted).foldl (bumpRow L) (header.map fun _ => fun _ => 0))).map fun p => fieldVal p.1 (choose p.2), _, ?_, ?_, c1, ?_, ?_, ?_, ?_, c4, _, c5, rfl, rfl, ⟨fun x => by simp at x, fun x => absurd x hh⟩, hany⟩
    · simp only [csvSchema, hr, hb, Bool.false_eq_true, if_false, hw (bumpRow L (header.map fun _ => fun _ => 0) header) (by simp [bumpRow_length]), tableSchema, List.foldl_cons]
    · intro cd e
      rw [e]
      exact ⟨fun x => absurd x hh, fun _ => columns_of L varName header (header :: counted) false ⟨fun x => by simp at x, fun x => absurd x hh⟩
        hcl'⟩
    · intro x; exact absurd x hh
    · intro _; rw [c2]; rfl
    · intro x; rw [c3, if_pos (hany.mpr x)]
    · intro x; rw [c3, if_neg]; rw [hany]; rintro ⟨r, hr, hn⟩; exact hn (x r hr)

/-- Detection of CSV fails exactly on texts without rows, that is, on blank lines only. -/
theorem C59_fails (L : Vals.Lib) (varName : Bytes → Bytes) (text : Bytes) :
    ((∃ e, (csvSchema L varName text).1 = .error e) ↔ rows text = []) ∧ (rows text = [] ↔ ∀ c ∈ norm text, c = 10) := by
  have hz : rows text = [] ↔ Csv.read csvCfg { rest := norm text, fpr := -1 } = (.error .eof, { rest := [], fpr := -1 }) := by
    unfold rows
    simp only [rowsOf]
    rcases read_detect (norm text) with ⟨row, r, hr, hl⟩ | hr
    · simp [hr]
    · simp [hr]
  refine ⟨?_, ?_⟩
  · cases hr : rows text with
    | nil =>
      have := hz.mp hr
      simp [csvSchema, this]
    | cons header rest =>
      obtain ⟨cols, config, h, _⟩ := C59_detected L varName text header rest hr
      simp [h]
  · rw [hz]
    have hsk : ∀ s : Bytes, skipBlank s = [] ↔ ∀ c ∈ s, c = 10 := by
      intro s
      induction s with
      | nil => simp [skipBlank]
      | cons c s ih =>
        by_cases hc : c = 10
        · subst hc; simp [skipBlank, ih]
        · rw [skipBlank_cons hc]; simp [hc]
    rw [← hsk]
    have hv : validDelim csvCfg.comma = true := by decide
    constructor
    · exact read_end _
    · intro h
      simp [Csv.read, hv, h]

/-- A column whose counted cells are all of one type gets that type. -/
theorem C59_homogeneous (types : List Vals.VType) (x ty : Vals.VType) (h : Majority types ty) (hne : types ≠ []) (hx : ∀ t ∈ types, t = x) : ty = x := by
  obtain ⟨a, l, rfl⟩ := List.exists_cons_of_ne_nil hne
  by_cases e : ty = x
  · exact e
  · have h0 : (a :: l).count ty = 0 := by
      rw [List.count_eq_zero]
      intro hm
      exact e (hx ty hm)
    have := (h.2 x).1
    have h1 : 0 < (a :: l).count x := by
      rw [List.count_pos_iff, hx a (by simp)]
      simp [← hx a (by simp)]
    omega

/-- Which rows are examined: all if fewer than 2001 have the width of the first, and otherwise those up to the 2001st of that width. -/
theorem C59_examined {α : Type} (p : α → Bool) (n : Nat) (l : List α) :
    (l.countP p < n → upTo p n l = l) ∧
    (∀ pre a post, l = pre ++ a :: post → p a = true → pre.countP p + 1 = n → upTo p n l = pre ++ [a]) := by
  induction l generalizing n with
  | nil =>
    refine ⟨fun h => ?_, fun pre a post h => by simp at h⟩
    cases n <;> rfl
  | cons b l ih =>
    cases n with
    | zero => exact ⟨fun h => by omega, fun pre a post _ _ h => by omega⟩
    | succ n =>
      simp only [upTo, List.countP_cons]
      refine ⟨fun h => ?_, fun pre a post e ha hc => ?_⟩
      · by_cases hb : p b = true
        · rw [if_pos hb] at h ⊢
          rw [(ih n).1 (by omega)]
        · rw [if_neg hb] at h ⊢
          rw [(ih (n + 1)).1 (by omega)]
      · cases pre with
        | nil =>
          simp only [List.nil_append, List.cons.injEq] at e
          obtain ⟨rfl, rfl⟩ := e
          simp only [List.countP_nil] at hc
          rw [if_pos ha]
          have : n = 0 := by omega
          subst this
          simp [upTo]
        | cons c pre =>
          simp only [List.cons_append, List.cons.injEq] at e
          obtain ⟨rfl, rfl⟩ := e
          rw [List.countP_cons] at hc
          by_cases hb : p b = true
          · rw [if_pos hb] at hc ⊢
            rw [(ih n).2 pre a post rfl ha (by omega)]; rfl
          · rw [if_neg hb] at hc ⊢
            rw [(ih (n + 1)).2 pre a post rfl ha (by omega)]; rfl

/-- The rows of a text that was written with the comma as separator are the records that are not blank, with every end of line in a cell
a line feed. -/
theorem C59_written (rs : List (List Bytes)) :
    rows (ReplaceCr.fix true (rs.flatMap (recordText [44]))) = ((rs.filter fun fs => !blank fs).map fun fs => fs.map univ) := by
  have hv : validDelim csvCfg.comma = true := by decide
  have hu : utf8Enc csvCfg.comma = [44] := by decide
  have hs : SepOK [44] := hu ▸ sepOK_of_valid hv
  unfold rows
  rw [norm_fix, CsvIO.univ_flatMap hs, ← CsvIO.filter_univ]
  generalize (rs.map fun fs => fs.map univ) = rs
  suffices H : ∀ f, (rs.flatMap (recordText [44])).length < f → rowsOf f (rs.flatMap (recordText [44])) = rs.filter fun fs => !blank fs from H _ (by omega)
  induction rs with
  | nil =>
    intro f hf
    cases f with
    | zero => simp at hf
    | succ f => rfl
  | cons fs rs ih =>
    intro f hf
    cases f with
    | zero => simp at hf
    | succ f =>
      rw [List.flatMap_cons, List.length_append] at hf
      have hpos : 0 < (recordText [44] fs).length := by simp [recordText]
      rw [List.flatMap_cons]
      cases hb : blank fs with
      | true =>
        rw [List.filter_cons_of_neg (by simp [hb]), ← ih (f + 1) (by omega)]
        have := CsvIO.read_blankText (c := csvCfg) hv hb (rs.flatMap (recordText [44])) (-1)
        rw [hu] at this
        simp only [rowsOf, this]
      | false =>
        rw [List.filter_cons_of_pos (by simp [hb])]
        have := read_record (c := csvCfg) hv hb (rs.flatMap (recordText [44])) (-1) (.inl (by decide)) (by intro _; rfl)
        rw [hu] at this
        simp only [rowsOf, this]
        rw [ih f (by omega)]

/-- What was detected can be opened: the schema gives one column per cell of the first row, of the detected type (`string` if no cell was
counted), whatever the text was. -/
theorem C59_opens (L : Vals.Lib) (varName : Bytes → Bytes) (text : Bytes) (sch : Schema) (h : (csvSchema L varName text).1 = .ok sch)
    {o : Nat → List (Bytes × Val) → List (Bytes × Val)} (ho : Tabular.Order o) :
    ∃ header rest cols ts, rows text = header :: rest ∧ CsvIO.openColumns o sch = .ok (cols, ts) ∧ cols.length = header.length ∧ ts.length = header.length ∧
      ∀ (j : Nat) (t : Bytes), ts[j]? = some t →
        ∃ ty, Majority (columnTypes L ((if possibleHeader L header then [] else [header]) ++
          (upTo (fun r => r.length = header.length) 2001 rest).filter (fun r => r.length = header.length)) j) ty ∧
          t = if ty = .unknown then b!"string" else ty.name := by
  cases hr : rows text with
  | nil =>
    obtain ⟨e, he⟩ := (C59_fails L varName text).1.mpr hr
    rw [he] at h
    cases h
  | cons header rest =>
    obtain ⟨vs, config, hd, hcols, _⟩ := C59_detected L varName text header rest hr
    rw [hd] at h
    simp only [Except.ok.injEq] at h
    subst h
    have hc : Columns L varName header ((if possibleHeader L header then [] else [header]) ++
        (upTo (fun r => r.length = header.length) 2001 rest).filter (fun r => r.length = header.length)) vs := by
      obtain ⟨h1, h2⟩ := hcols _ rfl
      by_cases hh : possibleHeader L header = true
      · rw [if_pos hh]; exact h1 ((header_iff L header).mp hh)
      · rw [if_neg hh]; exact h2 (fun x => hh ((header_iff L header).mpr x))
    have hl : Tabular.Listed [(b!"items", .obj [(b!"items", .arr vs), (b!"type", .str b!"array")]), (b!"type", .str b!"array")] vs :=
      ⟨by rfl, [(b!"items", .arr vs), (b!"type", .str b!"array")], by rfl, by rfl⟩
    have hm : Tabular.ColumnMaps vs := by
      intro m hm
      obtain ⟨j, hj, e⟩ := List.mem_iff_getElem.mp hm
      obtain ⟨m', ty, e', hs, _⟩ := hc.each j _ (List.getElem?_eq_getElem hj)
      rw [e] at e'
      cases e'
      exact hs
    obtain ⟨cols, ps, hf, hlen, hget⟩ := Tabular.C32_columns ho hl hm
    obtain ⟨k1, k2, k3⟩ := CsvIO.C24_open o [(b!"items", .obj [(b!"items", .arr vs), (b!"type", .str b!"array")]), (b!"type", .str b!"array")]
    have htype : ∀ (j : Nat) (c : Tabular.Column), cols[j]? = some c → ∃ ty, Majority (columnTypes L ((if possibleHeader L header then [] else [header]) ++
          (upTo (fun r => r.length = header.length) 2001 rest).filter (fun r => r.length = header.length)) j) ty ∧
          c.type = [if ty = .unknown then b!"string" else ty.name] := by
      intro j c hcj
      have hj : j < vs.length := by rw [← hlen]; exact (List.getElem?_eq_some_iff.mp hcj).1
      have hv := List.getElem?_eq_getElem hj
      obtain ⟨m, ty, e, hs, hmaj, hty, _⟩ := hc.each j _ hv
      have hg := hget j _ hv
      rw [hcj, e] at hg
      simp only [Option.some.injEq] at hg
      refine ⟨ty, hmaj, ?_⟩
      rw [hg]
      simp only [Tabular.columnOf, hty]
      by_cases hu : ty = .unknown
      · simp [hu]
      · simp [hu]
    have hnp : CsvIO.openColumns o [(b!"items", .obj [(b!"items", .arr vs), (b!"type", .str b!"array")]), (b!"type", .str b!"array")] =
        .ok (cols, cols.map fun c => c.type.headD []) := by
      rw [k3]
      refine ⟨ps, hf, ?_⟩
      rw [List.map_map]
      refine List.map_congr_left fun c hcm => ?_
      obtain ⟨j, hj, e⟩ := List.mem_iff_getElem.mp hcm
      obtain ⟨ty, _, e'⟩ := htype j c (by rw [List.getElem?_eq_getElem hj, e])
      simp [e']
    refine ⟨header, rest, cols, _, rfl, hnp, by rw [hlen, hc.width], by rw [List.length_map, hlen, hc.width], ?_⟩
    intro j t ht
    rw [List.getElem?_map, Option.map_eq_some_iff] at ht
    obtain ⟨c, hcj, e⟩ := ht
    obtain ⟨ty, hmaj, e'⟩ := htype j c hcj
    exact ⟨ty, hmaj, by rw [← e, e']; rfl⟩

end
/-! ## C60 – rows held in memory -/

/-- the JSON name of the type of a value, with integers and floats both numbers and everything else text -/
inductive Named : Val → Bytes → Prop
  | int (i : Int) : Named (.int i) b!"number"
  | gint (i : Int) : Named (.gint i) b!"number"
  | f64 (x : UInt64) : Named (.f64 x) b!"number"
  | bool (b : Bool) : Named (.bool b) b!"boolean"
  | null : Named .null b!"null"
  | str (s : Bytes) : Named (.str s) b!"string"
  | bytes (s : Bytes) : Named (.bytes s) b!"string"
  | arr (l : List Val) : Named (.arr l) b!"string"
  | obj (m : List (Bytes × Val)) : Named (.obj m) b!"string"

theorem goDataType_named (v : Val) (t : Bytes) : goDataType v = t ↔ Named v t := by
  constructor
  · rintro rfl; cases v <;> constructor
  · intro h; cases h <;> rfl

/-- **C60**: the schema made for rows describes the first of them: it gives one column per value, titled by its index and of the
value's type; the titles pass the check for machine titles and reading the columns reports no problem.  Later rows have no influence. -/
theorem C60_described (row : List Val) (more : List Val) {o : Nat → List (Bytes × Val) → List (Bytes × Val)} (ho : Tabular.Order o) :
    ∃ sch cols ps, tabularFromData (.arr (.arr row :: more)) = some sch ∧ Tabular.fromSchema o sch = .ok (cols, ps) ∧ cols.length = row.length ∧
      Tabular.validMachineTitles cols = true ∧ ps = [] ∧
      ∀ (j : Nat) (v : Val), row[j]? = some v → ∃ t, Named v t ∧ cols[j]? = some { title := b!"col_" ++ fmtNat j, type := [t] } := by
  let vs : List Val := row.zipIdx.map fun p => .obj [(b!"title", .str (b!"col_" ++ fmtNat p.2)), (b!"type", .str (goDataType p.1))]
  have hvs : vs = row.zipIdx.map fun p => .obj [(b!"title", .str (b!"col_" ++ fmtNat p.2)), (b!"type", .str (goDataType p.1))] := rfl
  have hl : Tabular.Listed (tableSchema vs) vs := ⟨by rfl, [(b!"items", .arr vs), (b!"type", .str b!"array")], by rfl, by rfl⟩
  have hvj : ∀ (j : Nat) (v : Val), row[j]? = some v → vs[j]? = some (Val.obj [(b!"title", .str (b!"col_" ++ fmtNat j)), (b!"type", .str (goDataType v))]) := by
    intro j v hv
    simp [hvs, hv]
  have hm : Tabular.ColumnMaps vs := by
    intro m hm
    rw [hvs, List.mem_map] at hm
    obtain ⟨p, _, e⟩ := hm
    cases e
    simp only [KeysSorted, List.pairwise_cons, List.mem_singleton, List.not_mem_nil]
    refine ⟨?_, ?_⟩
    · rintro _ rfl; exact (by decide : bytesLt b!"title" b!"type" = true)
    · simp
  obtain ⟨cols, ps, hf, hlen, hget⟩ := Tabular.C32_columns ho hl hm
  have hlen' : cols.length = row.length := by rw [hlen]; simp [hvs]
  have hcol : ∀ (j : Nat) (v : Val), row[j]? = some v → cols[j]? = some { title := b!"col_" ++ fmtNat j, type := [goDataType v] } := by
    intro j v hv
    rw [hget j _ (hvj j v hv)]
    simp only [Tabular.columnOf]
    rfl
  have hps : ps = [] := by
    rw [List.eq_nil_iff_forall_not_mem]
    have hobj : ∀ (i : Nat) (f : Val), vs[i]? = some f → ∃ v, f = Val.obj [(b!"title", .str (b!"col_" ++ fmtNat i)), (b!"type", .str (goDataType v))] := by
      intro i f hf
      have hi : i < row.length := by
        have := (List.getElem?_eq_some_iff.mp hf).1
        omega
      have := hvj i _ (List.getElem?_eq_getElem hi)
      rw [hf, Option.some.injEq] at this
      exact ⟨_, this⟩
    intro p hp
    cases p with
    | notObject i =>
      obtain ⟨f, h1, h2⟩ := (Tabular.C32_problems ho hl hm hf i).1.mp hp
      obtain ⟨v, e⟩ := hobj i f h1
      exact h2 _ e
    | noTitle i =>
      obtain ⟨m, h1, h2⟩ := (Tabular.C32_problems ho hl hm hf i).2.1.mp hp
      obtain ⟨v, e⟩ := hobj i _ h1
      cases e
      exact h2 _ rfl
    | noType i =>
      obtain ⟨m, h1, h2⟩ := (Tabular.C32_problems ho hl hm hf i).2.2.mp hp
      obtain ⟨v, e⟩ := hobj i _ h1
      cases e
      cases h2
  refine ⟨tableSchema vs, cols, ps, rfl, hf, hlen', ?_, hps, fun j v hv => ⟨goDataType v, (goDataType_named v _).mp rfl, hcol j v hv⟩⟩
  have ht : ∀ (j : Nat) (c : Tabular.Column), cols[j]? = some c → c.title = b!"col_" ++ fmtNat j := by
    intro j c hc
    have hj : j < row.length := by rw [← hlen']; exact (List.getElem?_eq_some_iff.mp hc).1
    have := hcol j _ (List.getElem?_eq_getElem hj)
    rw [hc, Option.some.injEq] at this
    rw [this]
  rw [Tabular.C33_valid_iff]
  constructor
  · intro c hc
    obtain ⟨j, hj⟩ := List.getElem?_of_mem hc
    rw [ht j c hj]
    refine ⟨99, [111, 108, 95] ++ fmtNat j, rfl, by decide, fun b hb => ?_⟩
    rcases List.mem_append.mp hb with hb | hb
    · left
      have hall : ∀ b ∈ ([111, 108, 95] : List UInt8), Tabular.isIdentStart b = true := by decide
      exact hall b hb
    · exact .inr (fmtNatF_digits _ _ b hb)
  · rw [Tabular.titles, List.Nodup, List.pairwise_map, List.pairwise_iff_getElem]
    intro j i hj hi hlt e
    rw [ht j cols[j] (by simp), ht i cols[i] (by simp)] at e
    have := Tabular.fmtNat_inj (List.append_cancel_left e)
    omega

/-- Everything else: nothing, objects, and rows that are no arrays are errors; a single value gives an empty schema, from which no columns can
be read. -/
theorem C60_others (v : Val) :
    (tabularFromData v = none ↔ v = .arr [] ∨ (∃ m, v = .obj m) ∨ ∃ x l, v = .arr (x :: l) ∧ ∀ row, x ≠ .arr row) ∧
    (tabularFromData v = some [] ↔ (∀ l, v ≠ .arr l) ∧ ∀ m, v ≠ .obj m) ∧
    ∀ o, ∃ e, Tabular.fromSchema o [] = .error e := by
  refine ⟨?_, ?_, fun o => ⟨_, rfl⟩⟩
  · cases v with
    | arr l =>
      cases l with
      | nil => simp [tabularFromData]
      | cons x l => cases x <;> simp [tabularFromData]
    | _ => simp [tabularFromData]
  · cases v with
    | arr l =>
      cases l with
      | nil => simp [tabularFromData]
      | cons x l => cases x <;> simp [tabularFromData, tableSchema]
    | _ => simp [tabularFromData]

/-! ## Examples -/

section Examples

def exV : Vals.Lib where
  parse64 := fun s => if s = b!"1.5" then some 0x3FF8000000000000 else none
  parse32 := fun s => (Vals.parseInteger s).isSome || s = b!"1.5"
  fmtG := fun _ => b!"1.5"
  unmarshalMap := fun _ => none
  unmarshalSlice := fun _ => none
  marshal := fun _ => none

/-- every byte comes in its own piece -/
def exSrc (t : Bytes) : Src := { chunks := t.map fun b => [b] }

def exE : Env where
  L := exV
  varName := id
  repaired := fun s => ReplaceCr.fix true s.text
  taken := fun _ => 1
  onFail := fun _ => (.error .csv, [])

example : (jsonSchema { chunks := [b!" {\"a\":1}"] }).res = .ok baseObject := by decide +kernel
example : (jsonSchema { chunks := [b!"null"] }).res = .error .invalidJSON := by decide +kernel
example : ShortBlank { chunks := [b!" ", b!"[1]"] } := ⟨b!" ", [b!"[1]"], rfl, by decide, by decide⟩
example : (jsonSchema { chunks := [b!" ", b!"[1]"] }).res = .error .invalidJSON := by decide +kernel
example : Lively { chunks := [[], [0x83, 1, 2, 3]] } := .inl (by decide)
example : (cborSchema { chunks := [[], [0x83, 1, 2, 3]] }).res = .ok baseArray := by decide +kernel
example : lengthBytes 0x83 = some 0 := by decide

example : structure_ exE none (some { name := b!"a.json", src := { chunks := [b!"[1,", b!"2]"] } }) =
    (none, some { format := b!"json", schema := some baseArray },
      some { name := b!"a.json", src := { chunks := [b!"[1,", b!"2]"] }, size := some (-1) }) := by decide +kernel
/-- what is there stays -/
example : (structure_ exE (some { format := b!"csv", compression := b!"gzip", errCount := 3 }) (some { name := b!"a.json", src := { chunks := [b!"[1]"] } })).2.1 =
    some { format := b!"csv", compression := b!"gzip", errCount := 3, schema := some baseArray } := by decide +kernel
example : (structure_ exE none (some { name := b!"a.xml", src := exSrc b!"<a>" })).1 = some (.detect .unsupported) := by decide +kernel

def exText : Bytes := b!"id,name\n1,a\n2,b\nx,c,d\n3,4\n"

example : rows exText = [[b!"id", b!"name"], [b!"1", b!"a"], [b!"2", b!"b"], [b!"x", b!"c", b!"d"], [b!"3", b!"4"]] := by decide +kernel
example : Header exV [b!"id", b!"name"] := (header_iff _ _).mp (by decide +kernel)
example : ¬ Header exV [b!"id", b!" 12 "] := by rw [← header_iff]; decide +kernel
example : csvSchema exV id exText =
    (.ok [(b!"items", .obj [(b!"items", .arr [.obj [(b!"title", .str b!"id"), (b!"type", .str b!"integer")],
      .obj [(b!"title", .str b!"name"), (b!"type", .str b!"string")]]), (b!"type", .str b!"array")]), (b!"type", .str b!"array")],
     [(b!"headerRow", .bool true), (b!"lazyQuotes", .bool true), (b!"variadicFields", .bool true)]) := by
  rw [csvSchema]; decide +kernel
/-- equally many integers and texts: the type with the lesser number -/
example : Majority [.string, .integer, .string, .integer, .null] .integer := ⟨by simp, by intro x; cases x <;> decide⟩
example : upTo (· < 10) 2 [1, 20, 2, 30, 3] = [1, 20, 2] := by decide
example : columnTypes exV [[b!"1", b!"a"], [b!"1.5", b!"b"]] 0 = [.integer, .number] := by decide +kernel
example : (csvSchema exV id b!"\n\n").1 = .error .csv := by rw [csvSchema]; decide +kernel

example : tabularFromData (.arr [.arr [.int 1, .str b!"a", .null], .str b!"whatever"]) =
    some [(b!"items", .obj [(b!"items", .arr [.obj [(b!"title", .str b!"col_0"), (b!"type", .str b!"number")],
      .obj [(b!"title", .str b!"col_1"), (b!"type", .str b!"string")], .obj [(b!"title", .str b!"col_2"), (b!"type", .str b!"null")]]), (b!"type", .str b!"array")]),
      (b!"type", .str b!"array")] := by decide +kernel

end Examples

/-- Detection and reading disagree about spaces after a separator: detection drops them and finds integers, the reader keeps them and,
opened with what was detected, delivers texts. -/
theorem C59_spaces : ∃ sch config o cols ts, csvSchema exV id b!"a, b\n1, 2\n" = (.ok sch, config) ∧
    Config.newCSVOptions (some (config.map fun p => (p.1, .val p.2))) = some o ∧ CsvIO.openColumns (fun _ m => m) sch = .ok (cols, ts) ∧ ts = [b!"integer", b!"integer"] ∧
    (CsvIO.reader CsvIO.exL o ts (CsvIO.start o b!"a, b\n1, 2\n")).1 = .entry { value := .arr [.int 1, .str b!" 2"] } := by
  refine ⟨[(b!"items", .obj [(b!"items", .arr [.obj [(b!"title", .str b!"a"), (b!"type", .str b!"integer")],
      .obj [(b!"title", .str b!"b"), (b!"type", .str b!"integer")]]), (b!"type", .str b!"array")]), (b!"type", .str b!"array")],
    [(b!"headerRow", .bool true), (b!"lazyQuotes", .bool true)], { headerRow := true, lazyQuotes := true },
    [{ title := b!"a", type := [b!"integer"] }, { title := b!"b", type := [b!"integer"] }], [b!"integer", b!"integer"], ?_, ?_, ?_, rfl, ?_⟩
  · rw [csvSchema]; decide +kernel
  · decide +kernel
  · rfl
  · decide +kernel

end Verif.Detect
