import Verif.Model.EntryBuffer
import Verif.Props.Ndjson
import Verif.Lemmas.JsonMain
import Verif.Lemmas.Cbor
/-
C92: `EntryBuffer` as a queue.
-/
set_option autoImplicit false
namespace Verif.EntryBuffer

/-! ### what is promised: a queue -/

/-- `seen` entries were handed out, `vals` wait -/
structure Queue where
  seen : Nat := 0
  vals : List Val := []
  closed : Bool := false
  ended : Bool := false
deriving DecidableEq

def Queue.push (q : Queue) (v : Val) : Queue := { q with vals := q.vals ++ [v] }

/-- what every queue does: `keep` tells what becomes of a value, `may` whether waiting entries may be taken, `nothing` what reading
without a waiting entry does -/
def queueStep (keep : Val → Option Val) (may : Queue → Bool) (nothing : Queue → Out × Queue) (q : Queue) : Op → Out × Queue
  | .write e =>
    match keep e.value with
    | some v => (.wrote, q.push v)
    | none => (.refused, q)
  | .read =>
    match q.vals with
    | v :: vs => if may q then (.entry { index := q.seen, value := v }, { q with seen := q.seen + 1, vals := vs }) else nothing q
    | [] => nothing q
  | .close => (.closed, { q with closed := true })

/-- first in, first out; without a waiting entry reading answers end of file, and nothing else happens -/
def fifo (keep : Val → Option Val) : Queue → Op → Out × Queue := queueStep keep (fun _ => true) fun q => (.eof, q)

/-- first in, first out; without a waiting entry reading fails, and nothing else happens; once closed, the first such reading answers
end of file -/
def strictFifo (keep : Val → Option Val) : Queue → Op → Out × Queue :=
  queueStep keep (fun _ => true) fun q => if q.closed ∧ q.ended = false then (.eof, { q with ended := true }) else (.failed, q)

/-- nothing is handed out before closing, and end of file answered instead -/
def lateFifo (keep : Val → Option Val) : Queue → Op → Out × Queue := queueStep keep (fun q => q.closed) fun q => (.eof, q)

/-- calls where only reading follows closing -/
def Orderly (ops : List Op) : Prop :=
  (∀ o ∈ ops, o ≠ .close) ∨ ∃ pre k, (∀ o ∈ pre, o ≠ .close) ∧ ops = pre ++ .close :: List.replicate k .read

/-! ### simulation -/

theorem run_sim {σ τ : Type} (f : σ → Op → Out × σ) (g : τ → Op → Out × τ) (R : σ → τ → Prop) (P : Op → Prop)
    (h : ∀ s t o, R s t → P o → (f s o).1 = (g t o).1 ∧ R (f s o).2 (g t o).2) :
    ∀ (ops : List Op) (s : σ) (t : τ), R s t → (∀ o ∈ ops, P o) → (run f s ops).1 = (run g t ops).1 ∧ R (run f s ops).2 (run g t ops).2
  | [], _, _, hR, _ => ⟨rfl, hR⟩
  | o :: os, s, t, hR, hP => by
    obtain ⟨h1, h2⟩ := h s t o hR (hP o (by simp))
    obtain ⟨h3, h4⟩ := run_sim f g R P h os _ _ h2 fun o' h' => hP o' (by simp [h'])
    exact ⟨by simp only [run, h1, h3], h4⟩

theorem run_append {σ : Type} (f : σ → Op → Out × σ) (a b : List Op) (s : σ) :
    (run f s (a ++ b)).1 = (run f s a).1 ++ (run f (run f s a).2 b).1 ∧ (run f s (a ++ b)).2 = (run f (run f s a).2 b).2 := by
  induction a generalizing s with
  | nil => simp [run]
  | cons o a ih => simp [run, ih]

/-! ### newline-delimited JSON -/

open Ndjson in
theorem readLine_some {s l r : Bytes} (h : readLine s = some (l, r)) (t : Bytes) : readLine (s ++ t) = some (l, r ++ t) := by
  induction s generalizing l r with
  | nil => simp [readLine] at h
  | cons c s ih =>
    by_cases hc : c = 10
    · subst hc
      simp only [readLine, if_true, Option.some.injEq, Prod.mk.injEq] at h
      obtain ⟨rfl, rfl⟩ := h
      simp [readLine]
    · simp only [readLine, if_neg hc] at h
      cases hs : readLine s with
      | none => simp [hs] at h
      | some p =>
        obtain ⟨l', r'⟩ := p
        simp only [hs, Option.map_some, Option.some.injEq, Prod.mk.injEq] at h
        obtain ⟨rfl, rfl⟩ := h
        simp [readLine, if_neg hc, ih hs]

open Ndjson in
theorem readLine_skip {s : Bytes} (h : readLine s = none) (t : Bytes) :
    readLine (s ++ t) = (readLine t).map fun p => (s ++ p.1, p.2) := by
  induction s with
  | nil => simp
  | cons c s ih =>
    by_cases hc : c = 10
    · subst hc; simp [readLine] at h
    · simp only [readLine, if_neg hc, Option.map_eq_none_iff] at h
      simp [readLine, if_neg hc, ih h, Function.comp_def]

open Ndjson in
theorem readBytes_eq (size : Nat) (hs : 0 < size) : ∀ (f : Nat) (acc : Bytes) (b : NBuf), 2 * b.buf.length + b.held.length + 1 ≤ f →
    match readLine (b.held ++ b.buf) with
    | none => readBytes size f acc b = (none, { b with held := [], buf := [] })
    | some (l, r) => ∃ h' b', h' ++ b' = r ∧ readBytes size f acc b = (some (acc ++ l), { b with held := h', buf := b' })
  | 0, _, _, h => by omega
  | f + 1, acc, b, h => by
    rw [readBytes]
    cases hl : readLine b.held with
    | some p =>
      obtain ⟨l, r⟩ := p
      rw [readLine_some hl]
      exact ⟨r, b.buf, rfl, rfl⟩
    | none =>
      by_cases hsz : size ≤ b.held.length
      · have := readBytes_eq size hs f (acc ++ b.held) { b with held := [] } (by simp; omega)
        simp only [if_pos hsz]
        rw [readLine_skip hl]
        simp only [List.nil_append] at this
        cases hb : readLine b.buf with
        | none => rw [hb] at this; exact this
        | some p =>
          obtain ⟨l, r⟩ := p
          rw [hb] at this
          obtain ⟨h', b', h1, h2⟩ := this
          exact ⟨h', b', h1, by rw [h2]; simp⟩
      · by_cases hb : b.buf = []
        · simp only [if_neg hsz, if_pos hb]
          rw [readLine_skip hl, hb]
          simp [readLine]
        · simp only [if_neg hsz, if_neg hb]
          have hpos : 0 < b.buf.length := List.length_pos_iff.mpr hb
          have := readBytes_eq size hs f acc
            { b with held := b.held ++ b.buf.take (size - b.held.length), buf := b.buf.drop (size - b.held.length) }
            (by simp only [List.length_append, List.length_take, List.length_drop]; omega)
          simp only [List.append_assoc, List.take_append_drop] at this
          exact this

/-- values whose text `encoding/json` reads back as something -/
def Lines (F : FloatCodec) (v : Val) : Prop := JsonStd.NumsOK F v ∧ JsonStd.depth v ≤ JsonStd.maxDepth ∧ (jsonOK v = true → (JsonStd.jnorm F v).isSome = true)

/-- what becomes of a value that is written and read -/
def lineKeep (F : FloatCodec) (v : Val) : Option Val := if jsonOK v then JsonStd.jnorm F v else none

/-- the pending text is one line for each waiting value -/
def NRel (F : FloatCodec) (b : NBuf) (q : Queue) : Prop :=
  ∃ ws : List Val, b.entriesRead = q.seen ∧ b.held ++ b.buf = (ws.map fun v => enc F v ++ [10]).flatten ∧
    ws.map (JsonStd.jnorm F) = q.vals.map some ∧ ∀ v ∈ ws, JsonStd.NumsOK F v ∧ JsonStd.depth v ≤ JsonStd.maxDepth

theorem ndjson_step (F : FloatCodec) (size : Nat) (hs : 0 < size) (b : NBuf) (q : Queue) (o : Op) (hR : NRel F b q)
    (hP : ∀ e, o = .write e → Lines F e.value) :
    (ndjsonStep F size b o).1 = (fifo (lineKeep F) q o).1 ∧ NRel F (ndjsonStep F size b o).2 (fifo (lineKeep F) q o).2 := by
  obtain ⟨ws, h1, h2, h3, h4⟩ := hR
  cases o with
  | close => exact ⟨rfl, ws, h1, h2, h3, h4⟩
  | write e =>
    obtain ⟨p1, p2, p3⟩ := hP e rfl
    by_cases hj : jsonOK e.value = true
    · obtain ⟨w, hw⟩ := Option.isSome_iff_exists.mp (p3 hj)
      have hk : lineKeep F e.value = some w := by simp [lineKeep, hj, hw]
      simp only [ndjsonStep, hj, if_true, fifo, queueStep, hk]
      refine ⟨trivial, ws ++ [e.value], h1, ?_, ?_, ?_⟩
      · rw [← List.append_assoc, h2]; simp
      · simp [Queue.push, h3, hw]
      · intro v hv
        rcases List.mem_append.mp hv with hv | hv
        · exact h4 v hv
        · simp at hv; subst hv; exact ⟨p1, p2⟩
    · have hk : lineKeep F e.value = none := by simp [lineKeep, hj]
      simp only [ndjsonStep, hj, fifo, queueStep, hk]
      exact ⟨rfl, ws, h1, h2, h3, h4⟩
  | read =>
    have hrb := readBytes_eq size hs (2 * (b.held.length + b.buf.length) + 2) [] b (by omega)
    cases ws with
    | nil =>
      have hq : q.vals = [] := by simpa using h3.symm
      have h2' : b.held ++ b.buf = [] := by simpa using h2
      rw [h2'] at hrb
      simp only [Ndjson.readLine] at hrb
      simp only [ndjsonStep, hrb, fifo, queueStep, hq]
      exact ⟨trivial, [], h1, by simp, by simp [hq], by simp⟩
    | cons v ws =>
      obtain ⟨w, vs, hq, hw, hws⟩ : ∃ w vs, q.vals = w :: vs ∧ JsonStd.jnorm F v = some w ∧ ws.map (JsonStd.jnorm F) = vs.map some := by
        cases hq : q.vals with
        | nil => rw [hq] at h3; simp at h3
        | cons w vs =>
          rw [hq] at h3
          simp only [List.map_cons, List.cons.injEq] at h3
          exact ⟨w, vs, rfl, h3⟩
      obtain ⟨n1, n2⟩ := h4 v (by simp)
      have h2' : b.held ++ b.buf = enc F v ++ 10 :: (ws.map fun v => enc F v ++ [10]).flatten := by rw [h2]; simp
      rw [h2', Ndjson.readLine_line (Ndjson.enc_nl F v n1)] at hrb
      obtain ⟨h', b', e1, e2⟩ := hrb
      have hu : JsonStd.unmarshal F (enc F v ++ [10]) = some w := by
        rw [JsonStd.unmarshal_enc F v [10] n1 n2 (by intro c hc; simp at hc; simp [hc]), hw]
      simp only [List.nil_append] at e2
      simp only [ndjsonStep, e2, hu, fifo, queueStep, hq, if_true]
      refine ⟨by rw [h1], ws, by simp [h1], e1, hws, fun v' hv' => h4 v' (by simp [hv'])⟩

/-- A buffer of newline-delimited JSON is a queue: whatever the order of writing and reading, entries come out once each, in order
and with their number, reading from an empty buffer answers end of file and does no harm, and closing changes nothing. -/
theorem C92_ndjson (F : FloatCodec) (size : Nat) (hs : 0 < size) (ops : List Op) (h : ∀ e, .write e ∈ ops → Lines F e.value) :
    (run (ndjsonStep F size) {} ops).1 = (run (fifo (lineKeep F)) {} ops).1 :=
  (run_sim (ndjsonStep F size) (fifo (lineKeep F)) (NRel F) (fun o => ∀ e, o = .write e → Lines F e.value)
    (fun s t o hR hP => ndjson_step F size hs s t o hR hP) ops {} {} ⟨[], by simp⟩
    (fun o ho e he => h e (he ▸ ho))).1

/-- `Bytes` gives an end of the text of the entries that are still to come: what the reader took in advance is missing from it. -/
theorem C92_ndjson_bytes (F : FloatCodec) (size : Nat) (hs : 0 < size) (ops : List Op) (h : ∀ e, .write e ∈ ops → Lines F e.value) :
    ∃ ws : List Val, ws.map (JsonStd.jnorm F) = (run (fifo (lineKeep F)) {} ops).2.vals.map some ∧
      (run (ndjsonStep F size) {} ops).2.bytes <:+ (ws.map fun v => enc F v ++ [10]).flatten := by
  obtain ⟨ws, _, h2, h3, _⟩ := (run_sim (ndjsonStep F size) (fifo (lineKeep F)) (NRel F) (fun o => ∀ e, o = .write e → Lines F e.value)
    (fun s t o hR hP => ndjson_step F size hs s t o hR hP) ops {} {} ⟨[], by simp⟩
    (fun o ho e he => h e (he ▸ ho))).2
  exact ⟨ws, h3, _, h2⟩

/-! ### JSON -/

open Json in
/-- the text of the values from number `n` on -/
def texts (F : FloatCodec) : Nat → List Val → Bytes
  | _, [] => []
  | n, v :: vs => (if n = 0 then 91 else 44) :: (enc F v ++ texts F (n + 1) vs)

theorem texts_append (F : FloatCodec) (vs : List Val) (n : Nat) (v : Val) :
    texts F n (vs ++ [v]) = texts F n vs ++ (if n + vs.length = 0 then 91 else 44) :: enc F v := by
  induction vs generalizing n with
  | nil => simp [texts]
  | cons u vs ih => simp [texts, ih, Nat.add_comm, Nat.add_left_comm]

/-- what closing adds -/
def tailOf (closed : Bool) (n : Nat) : Bytes := if closed then (if n = 0 then [91, 93] else [93]) else []

open Json in
theorem numEnd_texts (F : FloatCodec) (n : Nat) (vs : List Val) (c : Bool) (m : Nat) : NumEnd (texts F (n + 1) vs ++ tailOf c (m + 1)) := by
  cases vs with
  | nil =>
    cases c
    · intro c t h; simp [texts, tailOf] at h
    · exact numEnd_cons (by decide) []
  | cons v vs => simp only [texts, Nat.add_one_ne_zero, if_false]; exact numEnd_cons (by decide) _

def JRel (F : FloatCodec) (b : JBuf) (q : Queue) : Prop :=
  ∃ ws : List Val, b.r.entriesRead = q.seen ∧ b.r.initialized = decide (q.seen ≠ 0) ∧ b.w.rowsWritten = q.seen + ws.length ∧
    q.vals = ws.map (Json.norm F) ∧ (∀ v ∈ ws, Json.Writable F v) ∧ (q.ended = true → q.closed = true ∧ ws = []) ∧
    b.r.rest = if q.ended then [] else texts F q.seen ws ++ tailOf q.closed (q.seen + ws.length)

/-- what becomes of a value -/
def jsonKeep (F : FloatCodec) (v : Val) : Option Val := some (Json.norm F v)

open Json in
theorem json_write (F : FloatCodec) (b : JBuf) (q : Queue) (e : Entry) (hR : JRel F b q) (hc : q.closed = false) (hW : Writable F e.value) :
    (jsonStep F .array b (.write e)).1 = (strictFifo (jsonKeep F) q (.write e)).1 ∧
    JRel F (jsonStep F .array b (.write e)).2 (strictFifo (jsonKeep F) q (.write e)).2 := by
  obtain ⟨ws, h1, h2, h3, h4, h5, h6, h7⟩ := hR
  have hne : q.ended = false := by
    cases hq : q.ended with
    | false => rfl
    | true => have := (h6 hq).1; rw [hc] at this; cases this
  have hj := jsonOK_writable F _ hW
  rw [hne, hc] at h7
  simp only [tailOf, List.append_nil, Bool.false_eq_true, if_false] at h7
  simp only [jsonStep, writeEntry, valBytes, hj, if_true, strictFifo, queueStep, jsonKeep]
  refine ⟨trivial, ws ++ [e.value], h1, h2, by simp [h3, Queue.push, Nat.add_assoc], by simp [Queue.push, h4], ?_, by simp [Queue.push, hne], ?_⟩
  · intro v hv
    rcases List.mem_append.mp hv with hv | hv
    · exact h5 v hv
    · simp at hv; subst hv; exact hW
  · simp only [Queue.push, hne, hc, tailOf, List.append_nil, Bool.false_eq_true, if_false, texts_append, marshal, if_true, List.append_assoc,
      List.drop_append_length, h7, List.append_cancel_left_eq, ← h3]
    unfold opening separator openCh
    by_cases h0 : b.w.rowsWritten = 0 <;> simp [h0]

open Json in
theorem json_close (F : FloatCodec) (b : JBuf) (q : Queue) (hR : JRel F b q) (hc : q.closed = false) :
    (jsonStep F .array b .close).1 = (strictFifo (jsonKeep F) q .close).1 ∧
    JRel F (jsonStep F .array b .close).2 (strictFifo (jsonKeep F) q .close).2 := by
  obtain ⟨ws, h1, h2, h3, h4, h5, h6, h7⟩ := hR
  have hne : q.ended = false := by
    cases hq : q.ended with
    | false => rfl
    | true => have := (h6 hq).1; rw [hc] at this; cases this
  rw [hne, hc] at h7
  simp only [tailOf, List.append_nil, Bool.false_eq_true, if_false] at h7
  simp only [jsonStep, strictFifo, queueStep]
  refine ⟨trivial, ws, h1, h2, h3, h4, h5, by simp [hne], ?_⟩
  simp only [hne, h7, tailOf, ← h3, Json.close, openCh, closeCh, Bool.false_eq_true, if_false]
  by_cases h0 : b.w.rowsWritten = 0 <;> simp [h0]

open Json in
theorem json_read (F : FloatCodec) (b : JBuf) (q : Queue) (hR : JRel F b q) :
    (jsonStep F .array b .read).1 = (strictFifo (jsonKeep F) q .read).1 ∧
    JRel F (jsonStep F .array b .read).2 (strictFifo (jsonKeep F) q .read).2 := by
  obtain ⟨ws, h1, h2, h3, h4, h5, h6, h7⟩ := hR
  cases ws with
  | nil =>
    have hq : q.vals = [] := by simpa using h4
    simp only [texts, List.nil_append, List.length_nil, Nat.add_zero] at h7 h3
    by_cases hx : q.closed = true ∧ q.ended = false
    · have hr : b.r.rest = tailOf true q.seen := by rw [h7, hx.1, hx.2]; simp
      have hread : readEntry F .array b.r = .eof { b.r with rest := [] } := by
        by_cases h0 : q.seen = 0
        · simp only [readEntry, h2, h0, hr, tailOf, openCh, closeCh]
          simp [token, skipWS, isWhitespace]
        · have hi : b.r.initialized = true := by simp [h2, h0]
          rw [readEntry, if_pos hi, hr]
          simp [token, skipWS, isWhitespace, tailOf, closeCh, h0]
      simp only [jsonStep, hread, strictFifo, queueStep, hq, hx, and_self, if_true]
      exact ⟨trivial, [], h1, h2, by simpa using h3, by simp, by simp, by simp, by simp⟩
    · have hr : b.r.rest = [] := by
        rw [h7]
        cases hc : q.closed <;> cases he : q.ended <;> simp_all [tailOf]
      have hread : ∃ x, readEntry F .array b.r = .err x b.r := by
        have hb : b.r = ⟨decide (q.seen ≠ 0), q.seen, []⟩ := by rw [← h1, ← h2, ← hr]
        rw [hb]
        by_cases h0 : q.seen = 0
        · exact ⟨.openTop, by simp [readEntry, h0, token, skipWS]⟩
        · exact ⟨.separator, by simp [readEntry, h0, token, skipWS]⟩
      obtain ⟨x, hread⟩ := hread
      simp only [jsonStep, hread, strictFifo, queueStep, hq, if_neg hx]
      exact ⟨trivial, [], h1, h2, by simpa using h3, by simpa using hq, by simp, by simpa using h6, by rw [hr]; simp only [texts, List.nil_append, List.length_nil, Nat.add_zero, ← h7, hr]⟩
  | cons v ws =>
    have he : q.ended = false := by
      cases hq : q.ended with
      | false => rfl
      | true => have := (h6 hq).2; cases this
    have hW := h5 v (by simp)
    have hT := enc_text F v hW
    have hq : q.vals = norm F v :: ws.map (norm F) := by simpa using h4
    have hlen : q.seen + (v :: ws).length = (q.seen + ws.length) + 1 := by simp [Nat.add_assoc]
    rw [he, hlen] at h7
    simp only [Bool.false_eq_true, if_false, texts, List.cons_append, List.append_assoc] at h7
    obtain ⟨c, t', ht, hws, h93, _⟩ := text_head hT
    have hbody : ∀ s, s = enc F v ++ (texts F (q.seen + 1) ws ++ tailOf q.closed (q.seen + ws.length + 1)) →
        readBody F .array q.seen s = .entry { index := q.seen, value := norm F v } ⟨true, q.seen + 1, texts F (q.seen + 1) ws ++ tailOf q.closed (q.seen + ws.length + 1)⟩ := by
      rintro s rfl
      have := readValue_text hT (fuelFor (enc F v ++ (texts F (q.seen + 1) ws ++ tailOf q.closed (q.seen + ws.length + 1)))) _
        (by simp only [fuelFor, List.length_append]; omega) (numEnd_texts F q.seen ws q.closed (q.seen + ws.length))
      simp only [readBody, this]
    have hread : readEntry F .array b.r = .entry { index := q.seen, value := norm F v } ⟨true, q.seen + 1, texts F (q.seen + 1) ws ++ tailOf q.closed (q.seen + ws.length + 1)⟩ := by
      by_cases h0 : q.seen = 0
      · have ht93 : token 93 (enc F v ++ (texts F (q.seen + 1) ws ++ tailOf q.closed (q.seen + ws.length + 1))) = none := by
          rw [ht, List.cons_append]; exact token_ne hws h93 _
        rw [if_pos h0] at h7
        rw [readEntry, h2, h7]
        simp only [h0, ne_eq, not_true_eq_false, decide_false, Bool.false_eq_true, if_false, openCh, closeCh]
        rw [token_self (by decide)]
        rw [h0] at ht93 hbody h1
        simp only [ht93, h1]
        exact hbody _ rfl
      · rw [if_neg h0] at h7
        rw [readEntry, h2, h7]
        simp only [h0, ne_eq, not_false_eq_true, decide_true, if_true, closeCh]
        rw [token_ne (by decide) (by decide), token_self (by decide)]
        simp only [h1]
        exact hbody _ rfl
    simp only [jsonStep, hread, strictFifo, queueStep, hq, if_true]
    refine ⟨trivial, ws, by simp, by simp, by simp [h3]; omega, rfl, fun v' hv' => h5 v' (by simp [hv']), by simp [he], ?_⟩
    simp only [he, Bool.false_eq_true, if_false]
    rw [show q.seen + 1 + ws.length = q.seen + ws.length + 1 by omega]

theorem json_pre (F : FloatCodec) (ops : List Op) (h : ∀ e, .write e ∈ ops → Json.Writable F e.value) (hc : ∀ o ∈ ops, o ≠ .close) :
    (run (jsonStep F .array) {} ops).1 = (run (strictFifo (jsonKeep F)) {} ops).1 ∧
    (run (strictFifo (jsonKeep F)) {} ops).2.closed = false ∧ JRel F (run (jsonStep F .array) {} ops).2 (run (strictFifo (jsonKeep F)) {} ops).2 := by
  refine run_sim (jsonStep F .array) (strictFifo (jsonKeep F)) (fun b q => q.closed = false ∧ JRel F b q)
    (fun o => o ≠ .close ∧ ∀ e, o = .write e → Json.Writable F e.value) ?_ ops {} {} ?_ (fun o ho => ⟨hc o ho, fun e he => h e (he ▸ ho)⟩)
  · rintro b q o ⟨h1, h2⟩ ⟨h3, h4⟩
    cases o with
    | close => exact absurd rfl h3
    | write e =>
      obtain ⟨a1, a2⟩ := json_write F b q e h2 h1 (h4 e rfl)
      exact ⟨a1, by simpa [strictFifo, queueStep, jsonKeep, Queue.push] using h1, a2⟩
    | read =>
      obtain ⟨a1, a2⟩ := json_read F b q h2
      refine ⟨a1, ?_, a2⟩
      simp only [strictFifo, queueStep]
      split
      · simpa using h1
      · simp [h1]
  · exact ⟨rfl, [], by simp [texts, tailOf]⟩

/-- A buffer of a JSON array is a queue as well, and its entries can be read before it is closed; but reading without a waiting entry
fails with an error that is not end of file, which does no harm.  Once closed, end of file comes behind the last entry, once. -/
theorem C92_json (F : FloatCodec) (ops : List Op) (ho : Orderly ops) (h : ∀ e, .write e ∈ ops → Json.Writable F e.value) :
    (run (jsonStep F .array) {} ops).1 = (run (strictFifo (jsonKeep F)) {} ops).1 := by
  rcases ho with ho | ⟨pre, k, hp, rfl⟩
  · exact (json_pre F ops h ho).1
  · obtain ⟨a1, a2, a3⟩ := json_pre F pre (fun e he => h e (by simp [he])) hp
    rw [(run_append _ pre _ _).1, (run_append _ pre _ _).1, a1]
    obtain ⟨c1, c2⟩ := json_close F _ _ a3 a2
    have := run_sim (jsonStep F .array) (strictFifo (jsonKeep F)) (JRel F) (fun o => o = .read)
      (fun b q o hR ho => by subst ho; exact json_read F b q hR) (List.replicate k .read) _ _ c2 (fun o ho => List.eq_of_mem_replicate ho)
    simp only [run, c1, this.1]

/-- But a value that is refused as the first one leaves an opening bracket behind, and is read as null, in its place and before all others. -/
theorem C92_json_refused (F : FloatCodec) (e e' : Entry) (h : jsonOK e.value = false) (h' : Json.Writable F e'.value) :
    (run (jsonStep F .array) {} [.write e, .write e', .read, .read]).1 =
      [.refused, .wrote, .entry { index := 0, value := .null }, .entry { index := 1, value := Json.norm F e'.value }] := by
  have hj := Json.jsonOK_writable F _ h'
  have hT := Json.enc_text F _ h'
  have hv := Json.readValue_text hT (Json.fuelFor (enc F e'.value)) [] (by simp only [Json.fuelFor]; omega) (by intro c t h; cases h)
  simp only [List.append_nil] at hv
  have hw : jsonStep F .array {} (.write e) = (.refused, { r := { rest := [91] }, w := { rowsWritten := 1, out := [91] } }) := by
    simp [jsonStep, Json.writeEntry, Json.valBytes, h, Json.opening, Json.openCh]
  have hw' : jsonStep F .array { r := { rest := [91] }, w := { rowsWritten := 1, out := [91] } } (.write e') =
      (.wrote, { r := { rest := 91 :: 44 :: enc F e'.value }, w := { rowsWritten := 2, out := 91 :: 44 :: enc F e'.value } }) := by
    simp [jsonStep, Json.writeEntry, Json.valBytes, hj, Json.opening, Json.separator, Json.marshal]
  have hr : ∀ w, jsonStep F .array { r := { rest := 91 :: 44 :: enc F e'.value }, w := w } .read =
      (.entry { index := 0, value := .null }, { r := { initialized := true, entriesRead := 1, rest := 44 :: enc F e'.value }, w := w }) := by
    intro w
    have : Json.readValue F (Json.fuelFor (44 :: enc F e'.value)) (44 :: enc F e'.value) = .ok .null (44 :: enc F e'.value) := by
      rw [Json.fuelFor, Json.readValue]
      simp [Json.skipWS, Json.isWhitespace, isDigit]
    simp only [jsonStep, Json.readEntry, Bool.false_eq_true, if_false, Json.openCh, Json.closeCh, Json.token_self (show Json.isWhitespace 91 = false by decide),
      Json.token_ne (show Json.isWhitespace 44 = false by decide) (show (44 : UInt8) ≠ 93 by decide), Json.readBody, this]
    rfl
  have hr' : ∀ w, (jsonStep F .array { r := { initialized := true, entriesRead := 1, rest := 44 :: enc F e'.value }, w := w } .read).1 =
      .entry { index := 1, value := Json.norm F e'.value } := by
    intro w
    simp only [jsonStep, Json.readEntry, if_true, Json.closeCh, Json.token_self (show Json.isWhitespace 44 = false by decide),
      Json.token_ne (show Json.isWhitespace 44 = false by decide) (show (44 : UInt8) ≠ 93 by decide), Json.readBody, hv]
  simp only [run, hw, hw', hr, hr']

/-! ### CBOR -/

open Cbor in
def CRel (b : CBuf) (q : Queue) : Prop :=
  (∀ v ∈ q.vals, Supported v) ∧
  ((q.closed = false ∧ q.seen = 0 ∧ b.r = { inp := [] } ∧ b.w.arr = q.vals) ∨
   (q.closed = true ∧ q.seen = 0 ∧ q.vals.length < 2^63 ∧ b.r = { inp := Cbor.enc (.arr q.vals) }) ∨
   (q.closed = true ∧ q.seen = 0 ∧ q.vals = [] ∧ b.r = { inp := [] }) ∨
   (q.closed = true ∧ q.seen ≠ 0 ∧ b.r.rowsRead = q.seen ∧ b.r.length ≠ -1 ∧ b.r.inp = encList q.vals))

open Cbor in
theorem readBody_next (v : Val) (r : Bytes) (n : Nat) (l : Int) (hl : l ≠ -1) (hv : Supported v) :
    readBody .array { rowsRead := n, length := l, inp := Cbor.enc v ++ r } =
      .ok ({ index := n, value := v }, { rowsRead := n + 1, length := l, inp := r }) := by
  have := readValue_enc v hv (fuelFor (Cbor.enc v ++ r)) r (by simp only [fuelFor, List.length_append]; omega)
  simp only [readBody, if_neg hl, this]

open Cbor in
theorem readBody_none (n : Nat) (l : Int) (hl : l ≠ -1) : readBody .array { rowsRead := n, length := l, inp := [] } = .error .eof := by
  simp [readBody, hl, fuelFor, readValue]

open Cbor in
theorem cbor_read (b : CBuf) (q : Queue) (hR : CRel b q) :
    (cborStep .array b .read).1 = (lateFifo some q .read).1 ∧ CRel (cborStep .array b .read).2 (lateFifo some q .read).2 := by
  obtain ⟨hS, hR⟩ := hR
  rcases hR with ⟨h1, h2, h3, h4⟩ | ⟨h1, h2, h3, h4⟩ | ⟨h1, h2, h3, h4⟩ | ⟨h1, h2, h3, h4, h5⟩
  · have hr : cborRead .array b.r = (.error .eof, b.r) := by rw [h3]; rfl
    have hq : lateFifo some q .read = (.eof, q) := by
      simp only [lateFifo, queueStep, h1]; split <;> simp
    simp only [cborStep, hr, hq]
    exact ⟨trivial, hS, .inl ⟨h1, h2, h3, h4⟩⟩
  · have hst : start .array b.r = .ok { length := q.vals.length, inp := encList q.vals } := by
      rw [h4]
      simp [start, Cbor.enc, topLevel_enc 0x80 (by simp) _ h3, topByte]
    cases hv : q.vals with
    | nil =>
      have hr : cborRead .array b.r = (.error .eof, { length := 0, inp := [] }) := by
        rw [hv] at hst
        simp only [cborRead, hst, encList]
        rw [readBody_none 0 (([] : List Val).length : Nat) (by simp)]
        rfl
      have hq : lateFifo some q .read = (.eof, q) := by simp only [lateFifo, queueStep, hv]
      simp only [cborStep, hr, hq]
      exact ⟨trivial, hS, .inr (.inr (.inl ⟨h1, h2, hv, rfl⟩))⟩
    | cons v vs =>
      have hr : cborRead .array b.r = (.ok { index := (0 : Nat), value := v }, { rowsRead := 1, length := (v :: vs).length, inp := encList vs }) := by
        rw [hv] at hst
        simp only [cborRead, hst, encList]
        rw [readBody_next v _ 0 ((v :: vs).length : Nat) (by omega) (hS v (by simp [hv]))]
      have hq : lateFifo some q .read = (.entry { index := (0 : Nat), value := v }, { q with seen := 1, vals := vs }) := by
        simp only [lateFifo, queueStep, hv, h1, if_true, h2]
      simp only [cborStep, hr, hq]
      exact ⟨trivial, fun v' hv' => hS v' (by simp [hv, hv']), .inr (.inr (.inr ⟨h1, by simp, rfl, by simp only; omega, rfl⟩))⟩
  · have hr : cborRead .array b.r = (.error .eof, b.r) := by rw [h4]; rfl
    have hq : lateFifo some q .read = (.eof, q) := by simp only [lateFifo, queueStep, h3]
    simp only [cborStep, hr, hq]
    exact ⟨trivial, hS, .inr (.inr (.inl ⟨h1, h2, h3, h4⟩))⟩
  · have hst : start .array b.r = .ok { rowsRead := q.seen, length := b.r.length, inp := encList q.vals } := by
      rw [start, if_neg (by rw [h3]; exact h2), ← h3, ← h5]
    cases hv : q.vals with
    | nil =>
      have hr : cborRead .array b.r = (.error .eof, b.r) := by
        simp only [cborRead, hst, hv, encList]
        rw [readBody_none _ _ h4]
        simp only [hv, encList] at h5
        rw [← h3, ← h5]
      have hq : lateFifo some q .read = (.eof, q) := by simp only [lateFifo, queueStep, hv]
      simp only [cborStep, hr, hq]
      exact ⟨trivial, hS, .inr (.inr (.inr ⟨h1, h2, h3, h4, h5⟩))⟩
    | cons v vs =>
      have hr : cborRead .array b.r = (.ok { index := q.seen, value := v }, { rowsRead := q.seen + 1, length := b.r.length, inp := encList vs }) := by
        simp only [cborRead, hst, hv, encList]
        rw [readBody_next v _ _ _ h4 (hS v (by simp [hv]))]
      have hq : lateFifo some q .read = (.entry { index := q.seen, value := v }, { q with seen := q.seen + 1, vals := vs }) := by
        simp only [lateFifo, queueStep, hv, h1, if_true]
      simp only [cborStep, hr, hq]
      exact ⟨trivial, fun v' hv' => hS v' (by simp [hv, hv']), .inr (.inr (.inr ⟨h1, by simp, rfl, h4, rfl⟩))⟩

open Cbor in
theorem cbor_pre : ∀ (ops : List Op) (b : CBuf) (q : Queue), (∀ e, .write e ∈ ops → Supported e.value) → (∀ o ∈ ops, o ≠ .close) →
    q.closed = false → CRel b q →
    (run (cborStep .array) b ops).1 = (run (lateFifo some) q ops).1 ∧ (run (lateFifo some) q ops).2.closed = false ∧
    (run (lateFifo some) q ops).2.vals.length ≤ q.vals.length + ops.length ∧ CRel (run (cborStep .array) b ops).2 (run (lateFifo some) q ops).2
  | [], b, q, _, _, hc, hR => ⟨rfl, hc, by simp [run], hR⟩
  | o :: ops, b, q, hs, hn, hc, hR => by
    have key : (cborStep .array b o).1 = (lateFifo some q o).1 ∧ (lateFifo some q o).2.closed = false ∧
        (lateFifo some q o).2.vals.length ≤ q.vals.length + 1 ∧ CRel (cborStep .array b o).2 (lateFifo some q o).2 := by
      cases o with
      | close => exact absurd rfl (hn .close (by simp))
      | read =>
        obtain ⟨a1, a2⟩ := cbor_read b q hR
        have hq : lateFifo some q .read = (.eof, q) := by simp only [lateFifo, queueStep, hc]; split <;> simp
        exact ⟨a1, by rw [hq]; exact hc, by rw [hq]; simp, a2⟩
      | write e =>
        obtain ⟨hS, hR⟩ := hR
        rcases hR with ⟨_, h2, h3, h4⟩ | ⟨h1, _⟩ | ⟨h1, _⟩ | ⟨h1, _⟩
        · refine ⟨rfl, hc, by simp [lateFifo, queueStep, Queue.push], ?_, .inl ⟨hc, h2, h3, ?_⟩⟩
          · intro v hv
            simp only [lateFifo, queueStep, Queue.push, List.mem_append, List.mem_singleton] at hv
            rcases hv with hv | rfl
            · exact hS v hv
            · exact hs e (by simp)
          · simp [cborStep, writeEntry, lateFifo, queueStep, Queue.push, h4]
        all_goals (rw [hc] at h1; cases h1)
    obtain ⟨k1, k2, k3, k4⟩ := key
    obtain ⟨r1, r2, r3, r4⟩ := cbor_pre ops _ _ (fun e he => hs e (by simp [he])) (fun o' ho' => hn o' (by simp [ho'])) k2 k4
    exact ⟨by simp only [run, k1, r1], r2, by simp only [run, List.length_cons]; omega, r4⟩

/-- A buffer of a CBOR array hands out nothing before it is closed and answers end of file meanwhile; once closed the entries come out
once each, in order and with their number, and then end of file, every time. -/
theorem C92_cbor (ops : List Op) (ho : Orderly ops) (hl : ops.length < 2^63) (h : ∀ e, .write e ∈ ops → Cbor.Supported e.value) :
    (run (cborStep .array) {} ops).1 = (run (lateFifo some) {} ops).1 := by
  have h0 : CRel {} {} := ⟨by simp, .inl ⟨rfl, rfl, rfl, rfl⟩⟩
  rcases ho with ho | ⟨pre, k, hp, rfl⟩
  · exact (cbor_pre ops {} {} h ho rfl h0).1
  · obtain ⟨a1, a2, a3, a4, a5⟩ := cbor_pre pre {} {} (fun e he => h e (by simp [he])) hp rfl h0
    rw [(run_append _ pre _ _).1, (run_append _ pre _ _).1, a1]
    have hlen : (run (lateFifo some) {} pre).2.vals.length < 2^63 := by
      simp only [List.length_append, List.length_cons] at hl
      simp only [List.length_nil] at a3
      omega
    generalize (run (cborStep .array) {} pre).2 = b at a5 ⊢
    generalize (run (lateFifo some) {} pre).2 = q at a2 a3 a4 a5 hlen ⊢
    have c2 : CRel (cborStep .array b .close).2 (lateFifo some q .close).2 := by
      rcases a5 with ⟨_, h2, h3, h4⟩ | ⟨h1, _⟩ | ⟨h1, _⟩ | ⟨h1, _⟩
      · refine ⟨a4, .inr (.inl ⟨rfl, h2, hlen, ?_⟩)⟩
        simp [cborStep, h3, h4, Cbor.close, lateFifo, queueStep]
      all_goals (rw [a2] at h1; cases h1)
    have := run_sim (cborStep .array) (lateFifo some) CRel (fun o => o = .read)
      (fun b q o hR ho => by subst ho; exact cbor_read b q hR) (List.replicate k .read) _ _ c2 (fun o ho => List.eq_of_mem_replicate ho)
    have c1 : (cborStep .array b .close).1 = (lateFifo some q .close).1 := rfl
    simp only [run, c1, this.1]

/-! ### samples -/

/-- reading too early, too often, and behind closing -/
def exOps : List Op :=
  [.read, .write { value := .str b!"a" }, .write { value := .arr [.null, .bool true] }, .read, .read, .read, .write { value := .str b!"b" }, .close, .read, .read, .read]

example : (run (ndjsonStep Json.exF 16) {} exOps).1 =
      [.eof, .wrote, .wrote, .entry { index := 0, value := .str b!"a" }, .entry { index := 1, value := .arr [.null, .bool true] }, .eof, .wrote, .closed,
        .entry { index := 2, value := .str b!"b" }, .eof, .eof] ∧
    (run (jsonStep Json.exF .array) {} exOps).1 =
      [.failed, .wrote, .wrote, .entry { index := 0, value := .str b!"a" }, .entry { index := 1, value := .arr [.null, .bool true] }, .failed, .wrote, .closed,
        .entry { index := 2, value := .str b!"b" }, .eof, .failed] ∧
    (run (cborStep .array) {} exOps).1 =
      [.eof, .wrote, .wrote, .eof, .eof, .eof, .wrote, .closed, .entry { index := 0, value := .str b!"a" },
        .entry { index := 1, value := .arr [.null, .bool true] }, .entry { index := 2, value := .str b!"b" }] := by decide +kernel

example : Orderly exOps := .inr ⟨exOps.take 7, 3, by simp [exOps], rfl⟩

/-- what the reader took in advance is missing from `Bytes` -/
example : (run (ndjsonStep Json.exF 16) {} [.write { value := .str b!"one" }, .write { value := .str b!"two" }, .write { value := .str b!"three" }]).2.bytes =
      b!"\"one\"\n\"two\"\n\"three\"\n" ∧
    (run (ndjsonStep Json.exF 16) {} [.write { value := .str b!"one" }, .write { value := .str b!"two" }, .write { value := .str b!"three" }, .read]).2.bytes =
      b!"ee\"\n" := by decide +kernel

/-- not a number is refused -/
example : (run (jsonStep Json.exF .array) {} [.write { value := .f64 0x7ff8000000000001 }, .write { value := .bool true }, .read, .read]).1 =
    [.refused, .wrote, .entry { index := 0, value := .null }, .entry { index := 1, value := .bool true }] := by decide +kernel

end Verif.EntryBuffer
