import Verif.Props.EntryBuffer
import Verif.Lemmas.JsonTrunc
/-
C92, continued: `EntryBuffer` of JSON and CBOR objects.
-/
set_option autoImplicit false
namespace Verif.EntryBuffer

/-- a queue of members; `keys` were written before -/
structure KQueue where
  seen : Nat := 0
  members : List (Bytes × Val) := []
  keys : List Bytes := []
  closed : Bool := false
  ended : Bool := false
deriving DecidableEq

/-- first in, first out, each key once; `keep` tells what becomes of a member -/
def keyedFifo (keep : Bytes × Val → Bytes × Val) (q : KQueue) : Op → Out × KQueue
  | .write e =>
    if e.key ∈ q.keys then (.refused, q)
    else (.wrote, { q with members := q.members ++ [keep (e.key, e.value)], keys := e.key :: q.keys })
  | .read =>
    match q.members with
    | kv :: m => (.entry { key := kv.1, value := kv.2 }, { q with seen := q.seen + 1, members := m })
    | [] => if q.closed ∧ q.ended = false then (.eof, { q with ended := true }) else (.failed, q)
  | .close => (.closed, { q with closed := true })

/-- what becomes of a member: invalid UTF-8 in its key is replaced, and its value is that of C16 -/
def jsonMember (F : FloatCodec) (kv : Bytes × Val) : Bytes × Val := (toValidUtf8 0 kv.1, Json.norm F kv.2)

/-- the text of the members from number `n` on -/
def mtexts (F : FloatCodec) : Nat → List (Bytes × Val) → Bytes
  | _, [] => []
  | n, kv :: m => (if n = 0 then 123 else 44) :: (jsonStr kv.1 ++ 58 :: (enc F kv.2 ++ mtexts F (n + 1) m))

theorem mtexts_append (F : FloatCodec) (m : List (Bytes × Val)) (n : Nat) (kv : Bytes × Val) :
    mtexts F n (m ++ [kv]) = mtexts F n m ++ (if n + m.length = 0 then 123 else 44) :: (jsonStr kv.1 ++ 58 :: enc F kv.2) := by
  induction m generalizing n with
  | nil => simp [mtexts]
  | cons u m ih => simp [mtexts, ih, Nat.add_comm, Nat.add_left_comm]

/-- what closing adds -/
def mtailOf (closed : Bool) (n : Nat) : Bytes := if closed then (if n = 0 then [123, 125] else [125]) else []

open Json in
theorem numEnd_mtexts (F : FloatCodec) (n : Nat) (m : List (Bytes × Val)) (c : Bool) (k : Nat) : NumEnd (mtexts F (n + 1) m ++ mtailOf c (k + 1)) := by
  cases m with
  | nil =>
    cases c
    · intro c t h; simp [mtexts, mtailOf] at h
    · exact numEnd_cons (by decide) []
  | cons v m => simp only [mtexts, Nat.add_one_ne_zero, if_false]; exact numEnd_cons (by decide) _

def KRel (F : FloatCodec) (b : JBuf) (q : KQueue) : Prop :=
  ∃ ms : List (Bytes × Val), b.r.entriesRead = q.seen ∧ b.r.initialized = decide (q.seen ≠ 0) ∧ (b.w.rowsWritten = 0 ↔ q.seen + ms.length = 0) ∧
    b.w.keysWritten = q.keys ∧ (q.keys ≠ [] → q.seen + ms.length ≠ 0) ∧
    q.members = ms.map (jsonMember F) ∧ (∀ kv ∈ ms, Json.Writable F kv.2) ∧ (q.ended = true → q.closed = true ∧ ms = []) ∧
    b.r.rest = if q.ended then [] else mtexts F q.seen ms ++ mtailOf q.closed (q.seen + ms.length)

open Json in
theorem obj_write (F : FloatCodec) (b : JBuf) (q : KQueue) (e : Entry) (hR : KRel F b q) (hc : q.closed = false) (hW : Writable F e.value)
    (hk : e.key ≠ []) :
    (jsonStep F .object b (.write e)).1 = (keyedFifo (jsonMember F) q (.write e)).1 ∧
    KRel F (jsonStep F .object b (.write e)).2 (keyedFifo (jsonMember F) q (.write e)).2 := by
  obtain ⟨ms, h1, h2, h3, h8, h9, h4, h5, h6, h7⟩ := hR
  have hne : q.ended = false := by
    cases hq : q.ended with
    | false => rfl
    | true => have := (h6 hq).1; rw [hc] at this; cases this
  have hj := jsonOK_writable F _ hW
  by_cases hin : e.key ∈ q.keys
  · have h0 : b.w.rowsWritten ≠ 0 := by
      intro h0
      exact h9 (List.ne_nil_of_mem hin) (h3.mp h0)
    simp only [jsonStep, writeEntry, valBytes, hk, if_false, h8, hin, if_true, keyedFifo, opening, h0, List.append_nil, List.drop_length]
    refine ⟨trivial, ms, h1, h2, ?_, rfl, h9, h4, h5, h6, h7⟩
    have : ¬ (q.seen + ms.length = 0) := fun h => h0 (h3.mpr h)
    simp only [Nat.add_one_ne_zero, false_iff]
    exact this
  · rw [hne, hc] at h7
    simp only [mtailOf, List.append_nil, Bool.false_eq_true, if_false] at h7
    simp only [jsonStep, writeEntry, valBytes, hk, if_false, h8, hin, hj, if_true, keyedFifo]
    refine ⟨trivial, ms ++ [(e.key, e.value)], h1, h2, by simp, rfl, by simp, by simp [h4], ?_, by simp [hne], ?_⟩
    · intro v hv
      rcases List.mem_append.mp hv with hv | hv
      · exact h5 v hv
      · simp at hv; subst hv; exact hW
    · simp only [hne, hc, mtailOf, List.append_nil, Bool.false_eq_true, if_false, mtexts_append, marshal, if_true, List.append_assoc,
        List.drop_append_length, h7, List.append_cancel_left_eq]
      unfold opening separator openCh
      by_cases h0 : b.w.rowsWritten = 0
      · simp [h0, h3.mp h0, enc]
      · rw [if_neg (fun h : q.seen + ms.length = 0 => h0 (h3.mpr h))]; simp [h0, enc]

open Json in
theorem obj_close (F : FloatCodec) (b : JBuf) (q : KQueue) (hR : KRel F b q) (hc : q.closed = false) :
    (jsonStep F .object b .close).1 = (keyedFifo (jsonMember F) q .close).1 ∧
    KRel F (jsonStep F .object b .close).2 (keyedFifo (jsonMember F) q .close).2 := by
  obtain ⟨ms, h1, h2, h3, h8, h9, h4, h5, h6, h7⟩ := hR
  have hne : q.ended = false := by
    cases hq : q.ended with
    | false => rfl
    | true => have := (h6 hq).1; rw [hc] at this; cases this
  rw [hne, hc] at h7
  simp only [mtailOf, List.append_nil, Bool.false_eq_true, if_false] at h7
  simp only [jsonStep, keyedFifo]
  refine ⟨trivial, ms, h1, h2, h3, h8, h9, h4, h5, by simp [hne], ?_⟩
  simp only [hne, h7, mtailOf, Json.close, openCh, closeCh, Bool.false_eq_true, if_false]
  by_cases h0 : b.w.rowsWritten = 0
  · simp [h0, h3.mp h0]
  · rw [if_neg (fun h : q.seen + ms.length = 0 => h0 (h3.mpr h))]; simp [h0]

open Json in
theorem obj_read (F : FloatCodec) (b : JBuf) (q : KQueue) (hR : KRel F b q) :
    (jsonStep F .object b .read).1 = (keyedFifo (jsonMember F) q .read).1 ∧
    KRel F (jsonStep F .object b .read).2 (keyedFifo (jsonMember F) q .read).2 := by
  obtain ⟨ms, h1, h2, h3, h8, h9, h4, h5, h6, h7⟩ := hR
  cases ms with
  | nil =>
    have hq : q.members = [] := by simpa using h4
    simp only [mtexts, List.nil_append, List.length_nil, Nat.add_zero] at h7 h3 h9
    by_cases hx : q.closed = true ∧ q.ended = false
    · have hr : b.r.rest = mtailOf true q.seen := by rw [h7, hx.1, hx.2]; simp
      have hread : readEntry F .object b.r = .eof { b.r with rest := [] } := by
        by_cases h0 : q.seen = 0
        · simp only [readEntry, h2, h0, hr, mtailOf, openCh, closeCh]
          simp [token, skipWS, isWhitespace]
        · have hi : b.r.initialized = true := by simp [h2, h0]
          rw [readEntry, if_pos hi, hr]
          simp [token, skipWS, isWhitespace, mtailOf, closeCh, h0]
      simp only [jsonStep, hread, keyedFifo, hq, hx, and_self, if_true]
      exact ⟨trivial, [], h1, h2, by simpa using h3, h8, by simpa using h9, by simp, by simp, by simp, by simp⟩
    · have hr : b.r.rest = [] := by
        rw [h7]
        cases hc : q.closed <;> cases he : q.ended <;> simp_all [mtailOf]
      have hread : ∃ x, readEntry F .object b.r = .err x b.r := by
        have hb : b.r = ⟨decide (q.seen ≠ 0), q.seen, []⟩ := by rw [← h1, ← h2, ← hr]
        rw [hb]
        by_cases h0 : q.seen = 0
        · exact ⟨.openTop, by simp [readEntry, h0, token, skipWS]⟩
        · exact ⟨.separator, by simp [readEntry, h0, token, skipWS]⟩
      obtain ⟨x, hread⟩ := hread
      simp only [jsonStep, hread, keyedFifo, hq, if_neg hx]
      exact ⟨trivial, [], h1, h2, by simpa using h3, h8, by simpa using h9, by simpa using hq, by simp, by simpa using h6,
        by rw [hr]; simp only [mtexts, List.nil_append, List.length_nil, Nat.add_zero, ← h7, hr]⟩
  | cons kv ms =>
    have he : q.ended = false := by
      cases hq : q.ended with
      | false => rfl
      | true => have := (h6 hq).2; cases this
    have hT := enc_text F kv.2 (h5 kv (by simp))
    have hq : q.members = jsonMember F kv :: ms.map (jsonMember F) := by simpa using h4
    have hlen : q.seen + (kv :: ms).length = (q.seen + ms.length) + 1 := by simp [Nat.add_assoc]
    rw [he, hlen] at h7
    obtain ⟨kt, hkt, hK⟩ : ∃ kt, jsonStr kv.1 = 34 :: (kt ++ [34]) ∧ JsonG.StrBody (toValidUtf8 0 kv.1) kt := ⟨_, rfl, escBody_body kv.1⟩
    simp only [Bool.false_eq_true, if_false, mtexts, List.cons_append, List.append_assoc, hkt, List.nil_append] at h7
    generalize hx : mtexts F (q.seen + 1) ms ++ mtailOf q.closed (q.seen + ms.length + 1) = x at h7
    have hbody : readBody F .object q.seen (34 :: (kt ++ 34 :: 58 :: (enc F kv.2 ++ x))) =
        .entry { key := (jsonMember F kv).1, value := (jsonMember F kv).2 } ⟨true, q.seen + 1, x⟩ := by
      have := readPair_text (fuelFor (34 :: (kt ++ 34 :: 58 :: (enc F kv.2 ++ x)))) (w := []) ws_nil hK (w1 := []) ws_nil (w2 := []) ws_nil hT
        (x := x) (by rw [← hx]; exact numEnd_mtexts F q.seen ms q.closed (q.seen + ms.length)) (by simp only [fuelFor, List.length_append, List.length_cons]; omega)
      simp only [List.nil_append] at this
      simp only [readBody, this, jsonMember]
    have hread : readEntry F .object b.r = .entry { key := (jsonMember F kv).1, value := (jsonMember F kv).2 } ⟨true, q.seen + 1, x⟩ := by
      by_cases h0 : q.seen = 0
      · rw [if_pos h0] at h7
        rw [readEntry, h2, h7]
        simp only [h0, ne_eq, not_true_eq_false, decide_false, Bool.false_eq_true, if_false, openCh, closeCh]
        rw [token_self (by decide)]
        rw [h0] at hbody h1
        simp only [token_ne (show isWhitespace 34 = false by decide) (show (34 : UInt8) ≠ 125 by decide), h1]
        exact hbody
      · rw [if_neg h0] at h7
        rw [readEntry, h2, h7]
        simp only [h0, ne_eq, not_false_eq_true, decide_true, if_true, closeCh]
        rw [token_ne (by decide) (by decide), token_self (by decide)]
        simp only [h1]
        exact hbody
    simp only [jsonStep, hread, keyedFifo, hq]
    refine ⟨trivial, ms, by simp, by simp, ?_, h8, by intro _; simp only; omega, rfl, fun v' hv' => h5 v' (by simp [hv']), by simp [he], ?_⟩
    · rw [h3, hlen]; simp only; omega
    · simp only [he, Bool.false_eq_true, if_false]
      rw [show q.seen + 1 + ms.length = q.seen + ms.length + 1 by omega, hx]

theorem obj_pre (F : FloatCodec) (ops : List Op) (h : ∀ e, .write e ∈ ops → e.key ≠ [] ∧ Json.Writable F e.value) (hc : ∀ o ∈ ops, o ≠ .close) :
    (run (jsonStep F .object) {} ops).1 = (run (keyedFifo (jsonMember F)) {} ops).1 ∧
    (run (keyedFifo (jsonMember F)) {} ops).2.closed = false ∧ KRel F (run (jsonStep F .object) {} ops).2 (run (keyedFifo (jsonMember F)) {} ops).2 := by
  refine run_sim (jsonStep F .object) (keyedFifo (jsonMember F)) (fun b q => q.closed = false ∧ KRel F b q)
    (fun o => o ≠ .close ∧ ∀ e, o = .write e → e.key ≠ [] ∧ Json.Writable F e.value) ?_ ops {} {} ?_ (fun o ho => ⟨hc o ho, fun e he => h e (he ▸ ho)⟩)
  · rintro b q o ⟨h1, h2⟩ ⟨h3, h4⟩
    cases o with
    | close => exact absurd rfl h3
    | write e =>
      obtain ⟨a1, a2⟩ := obj_write F b q e h2 h1 (h4 e rfl).2 (h4 e rfl).1
      refine ⟨a1, ?_, a2⟩
      simp only [keyedFifo]
      split <;> exact h1
    | read =>
      obtain ⟨a1, a2⟩ := obj_read F b q h2
      refine ⟨a1, ?_, a2⟩
      simp only [keyedFifo]
      split
      · exact h1
      · simp [h1]
  · exact ⟨rfl, [], by simp [mtexts, mtailOf]⟩

/-- A buffer of a JSON object is a queue of members.  A key written before is refused and leaves no trace, even when its member was read
already. -/
theorem C92_json_object (F : FloatCodec) (ops : List Op) (ho : Orderly ops) (h : ∀ e, .write e ∈ ops → e.key ≠ [] ∧ Json.Writable F e.value) :
    (run (jsonStep F .object) {} ops).1 = (run (keyedFifo (jsonMember F)) {} ops).1 := by
  rcases ho with ho | ⟨pre, k, hp, rfl⟩
  · exact (obj_pre F ops h ho).1
  · obtain ⟨a1, a2, a3⟩ := obj_pre F pre (fun e he => h e (by simp [he])) hp
    rw [(run_append _ pre _ _).1, (run_append _ pre _ _).1, a1]
    obtain ⟨c1, c2⟩ := obj_close F _ _ a3 a2
    have := run_sim (jsonStep F .object) (keyedFifo (jsonMember F)) (KRel F) (fun o => o = .read)
      (fun b q o hR ho => by subst ho; exact obj_read F b q hR) (List.replicate k .read) _ _ c2 (fun o ho => List.eq_of_mem_replicate ho)
    simp only [run, c1, this.1]

example : (run (jsonStep Json.exF .object) {} [.read, .write { key := b!"a", value := .null }, .read, .write { key := b!"b", value := .bool true },
      .write { key := b!"a", value := .bool false }, .write { key := b!"c", value := .obj [] }, .read, .close, .read, .read, .read]).1 =
    [.failed, .wrote, .entry { key := b!"a", value := .null }, .wrote, .refused, .wrote, .entry { key := b!"b", value := .bool true }, .closed,
      .entry { key := b!"c", value := .obj [] }, .eof, .failed] := by decide +kernel

/-! ### CBOR -/

/-- a member put before the first one with a greater key -/
def insertMember (m : List (Bytes × Val)) (kv : Bytes × Val) : List (Bytes × Val) :=
  m.takeWhile (fun x => ! bytesLt kv.1 x.1) ++ kv :: m.dropWhile fun x => ! bytesLt kv.1 x.1

/-- nothing is handed out before closing, end of file being answered instead; after that the members come out in the order of their keys;
empty keys and keys written before are refused -/
def lateKeyed (q : KQueue) : Op → Out × KQueue
  | .write e =>
    if e.key = [] ∨ e.key ∈ q.keys then (.refused, q)
    else (.wrote, { q with members := insertMember q.members (e.key, e.value), keys := e.key :: q.keys })
  | .read =>
    match q.closed, q.members with
    | true, kv :: m => (.entry { key := kv.1, value := kv.2 }, { q with seen := q.seen + 1, members := m })
    | _, _ => (.eof, q)
  | .close => (.closed, { q with closed := true })

theorem mapSet_insert (m : List (Bytes × Val)) (k : Bytes) (v : Val) (h : mapGet m k = none) : mapSet m k v = insertMember m (k, v) := by
  induction m with
  | nil => rfl
  | cons x m ih =>
    obtain ⟨k', v'⟩ := x
    by_cases hk : k = k'
    · subst hk; simp [mapGet] at h
    · have h' : mapGet m k = none := by simpa [mapGet, hk] using h
      by_cases hl : bytesLt k k' = true
      · simp [mapSet, insertMember, hk, hl]
      · simp only [Bool.not_eq_true] at hl
        have := ih h'
        simp only [insertMember] at this
        simp [mapSet, insertMember, hk, hl, this]

theorem mem_insert {m : List (Bytes × Val)} {kv x : Bytes × Val} : x ∈ insertMember m kv ↔ x = kv ∨ x ∈ m := by
  have h : m = m.takeWhile (fun x => ! bytesLt kv.1 x.1) ++ m.dropWhile fun x => ! bytesLt kv.1 x.1 := (List.takeWhile_append_dropWhile).symm
  constructor
  · intro hx
    rcases List.mem_append.mp hx with hx | hx
    · exact .inr (by rw [h]; exact List.mem_append.mpr (.inl hx))
    · rcases List.mem_cons.mp hx with hx | hx
      · exact .inl hx
      · exact .inr (by rw [h]; exact List.mem_append.mpr (.inr hx))
  · intro hx
    rcases hx with rfl | hx
    · simp [insertMember]
    · rw [h] at hx
      rcases List.mem_append.mp hx with hx | hx
      · exact List.mem_append.mpr (.inl hx)
      · exact List.mem_append.mpr (.inr (by simp [hx]))

theorem length_insert (m : List (Bytes × Val)) (kv : Bytes × Val) : (insertMember m kv).length = m.length + 1 := by
  have h : (m.takeWhile (fun x => ! bytesLt kv.1 x.1) ++ m.dropWhile fun x => ! bytesLt kv.1 x.1).length = m.length := by rw [List.takeWhile_append_dropWhile]
  simp only [List.length_append] at h
  simp only [insertMember, List.length_append, List.length_cons]; omega

theorem mapGet_isSome {m : List (Bytes × Val)} {k : Bytes} : (mapGet m k).isSome = true ↔ ∃ x ∈ m, x.1 = k := by
  induction m with
  | nil => simp [mapGet]
  | cons x m ih =>
    obtain ⟨k', v'⟩ := x
    by_cases hk : k = k'
    · subst hk; simp [mapGet]
    · simp [mapGet, hk, ih, Ne.symm hk]

open Cbor in
def MRel (b : CBuf) (q : KQueue) : Prop :=
  (∀ kv ∈ q.members, kv.1.length ≤ 4096 ∧ Supported kv.2) ∧
  ((q.closed = false ∧ q.seen = 0 ∧ b.r = { inp := [] } ∧ b.w.obj = q.members ∧ ∀ k, k ∈ q.keys ↔ ∃ x ∈ q.members, x.1 = k) ∨
   (q.closed = true ∧ q.seen = 0 ∧ q.members.length < 2^63 ∧ b.r = { inp := Cbor.enc (.obj q.members) }) ∨
   (q.closed = true ∧ q.seen = 0 ∧ q.members = [] ∧ b.r = { inp := [] }) ∨
   (q.closed = true ∧ q.seen ≠ 0 ∧ b.r.rowsRead = q.seen ∧ b.r.length ≠ -1 ∧ b.r.inp = encFields q.members))

open Cbor in
theorem readBody_member (kv : Bytes × Val) (r : Bytes) (n : Nat) (l : Int) (hl : l ≠ -1) (hk : kv.1.length ≤ 4096) (hv : Supported kv.2) :
    readBody .object { rowsRead := n, length := l, inp := encUint 0x60 kv.1.length ++ kv.1 ++ Cbor.enc kv.2 ++ r } =
      .ok ({ key := kv.1, value := kv.2 }, { rowsRead := n + 1, length := l, inp := r }) := by
  have h1 := readStringKey_enc kv.1 (Cbor.enc kv.2 ++ r) hk
  have h2 := readValue_enc kv.2 hv (fuelFor (Cbor.enc kv.2 ++ r)) r (by simp only [fuelFor, List.length_append]; omega)
  simp only [readBody, if_neg hl, List.append_assoc, h1, h2]

open Cbor in
theorem readBody_no_member (n : Nat) (l : Int) (hl : l ≠ -1) : readBody .object { rowsRead := n, length := l, inp := [] } = .error .eof := by
  simp [readBody, hl, readStringKey]

open Cbor in
theorem cborobj_read (b : CBuf) (q : KQueue) (hR : MRel b q) :
    (cborStep .object b .read).1 = (lateKeyed q .read).1 ∧ MRel (cborStep .object b .read).2 (lateKeyed q .read).2 := by
  obtain ⟨hS, hR⟩ := hR
  rcases hR with ⟨h1, h2, h3, h4⟩ | ⟨h1, h2, h3, h4⟩ | ⟨h1, h2, h3, h4⟩ | ⟨h1, h2, h3, h4, h5⟩
  · have hr : cborRead .object b.r = (.error .eof, b.r) := by rw [h3]; rfl
    have hq : lateKeyed q .read = (.eof, q) := by simp only [lateKeyed, h1]
    simp only [cborStep, hr, hq]
    exact ⟨trivial, hS, .inl ⟨h1, h2, h3, h4⟩⟩
  · have hst : start .object b.r = .ok { length := q.members.length, inp := encFields q.members } := by
      rw [h4]
      simp [start, Cbor.enc, topLevel_enc 0xa0 (by simp) _ h3, topByte]
    cases hv : q.members with
    | nil =>
      have hr : cborRead .object b.r = (.error .eof, { length := 0, inp := [] }) := by
        rw [hv] at hst
        simp only [cborRead, hst, encFields]
        rw [readBody_no_member 0 (([] : List (Bytes × Val)).length : Nat) (by simp)]
        rfl
      have hq : lateKeyed q .read = (.eof, q) := by simp only [lateKeyed, h1, hv]
      simp only [cborStep, hr, hq]
      exact ⟨trivial, hS, .inr (.inr (.inl ⟨h1, h2, hv, rfl⟩))⟩
    | cons kv m =>
      have hr : cborRead .object b.r = (.ok { key := kv.1, value := kv.2 }, { rowsRead := 1, length := (kv :: m).length, inp := encFields m }) := by
        rw [hv] at hst
        simp only [cborRead, hst]
        rw [show encFields (kv :: m) = encUint 0x60 kv.1.length ++ kv.1 ++ Cbor.enc kv.2 ++ encFields m from rfl,
          readBody_member kv _ 0 ((kv :: m).length : Nat) (by omega) (hS kv (by simp [hv])).1 (hS kv (by simp [hv])).2]
      have hq : lateKeyed q .read = (.entry { key := kv.1, value := kv.2 }, { q with seen := 1, members := m }) := by
        simp only [lateKeyed, hv, h1, h2]
      simp only [cborStep, hr, hq]
      exact ⟨trivial, fun v' hv' => hS v' (by simp [hv, hv']), .inr (.inr (.inr ⟨h1, by simp, rfl, by simp only; omega, rfl⟩))⟩
  · have hr : cborRead .object b.r = (.error .eof, b.r) := by rw [h4]; rfl
    have hq : lateKeyed q .read = (.eof, q) := by simp only [lateKeyed, h1, h3]
    simp only [cborStep, hr, hq]
    exact ⟨trivial, hS, .inr (.inr (.inl ⟨h1, h2, h3, h4⟩))⟩
  · have hst : start .object b.r = .ok { rowsRead := q.seen, length := b.r.length, inp := encFields q.members } := by
      rw [start, if_neg (by rw [h3]; exact h2), ← h3, ← h5]
    cases hv : q.members with
    | nil =>
      have hr : cborRead .object b.r = (.error .eof, b.r) := by
        simp only [cborRead, hst, hv, encFields]
        rw [readBody_no_member _ _ h4]
        simp only [hv, encFields] at h5
        rw [← h3, ← h5]
      have hq : lateKeyed q .read = (.eof, q) := by simp only [lateKeyed, h1, hv]
      simp only [cborStep, hr, hq]
      exact ⟨trivial, hS, .inr (.inr (.inr ⟨h1, h2, h3, h4, h5⟩))⟩
    | cons kv m =>
      have hr : cborRead .object b.r = (.ok { key := kv.1, value := kv.2 }, { rowsRead := q.seen + 1, length := b.r.length, inp := encFields m }) := by
        simp only [cborRead, hst, hv]
        rw [show encFields (kv :: m) = encUint 0x60 kv.1.length ++ kv.1 ++ Cbor.enc kv.2 ++ encFields m from rfl,
          readBody_member kv _ _ _ h4 (hS kv (by simp [hv])).1 (hS kv (by simp [hv])).2]
      have hq : lateKeyed q .read = (.entry { key := kv.1, value := kv.2 }, { q with seen := q.seen + 1, members := m }) := by
        simp only [lateKeyed, hv, h1]
      simp only [cborStep, hr, hq]
      exact ⟨trivial, fun v' hv' => hS v' (by simp [hv, hv']), .inr (.inr (.inr ⟨h1, by simp, rfl, h4, rfl⟩))⟩

open Cbor in
theorem cborobj_write (b : CBuf) (q : KQueue) (e : Entry) (hc : q.closed = false) (hR : MRel b q) (hk : e.key.length ≤ 4096) (hv : Supported e.value) :
    (cborStep .object b (.write e)).1 = (lateKeyed q (.write e)).1 ∧ (lateKeyed q (.write e)).2.closed = false ∧
    (lateKeyed q (.write e)).2.members.length ≤ q.members.length + 1 ∧ MRel (cborStep .object b (.write e)).2 (lateKeyed q (.write e)).2 := by
  obtain ⟨hS, hR⟩ := hR
  rcases hR with ⟨_, h2, h3, h4, h5⟩ | ⟨h1, _⟩ | ⟨h1, _⟩ | ⟨h1, _⟩
  · have hR : MRel b q := ⟨hS, .inl ⟨hc, h2, h3, h4, h5⟩⟩
    by_cases h0 : e.key = []
    · simp only [cborStep, writeEntry, h0, if_true, lateKeyed, true_or]
      exact ⟨rfl, hc, by simp, hR⟩
    · by_cases hin : e.key ∈ q.keys
      · have hg : (mapGet b.w.obj e.key).isSome = true := by rw [h4]; exact mapGet_isSome.mpr ((h5 _).mp hin)
        simp only [cborStep, writeEntry, h0, if_false, hg, if_true, lateKeyed, hin, or_true]
        exact ⟨rfl, hc, by simp, hR⟩
      · have hg : ¬ (mapGet b.w.obj e.key).isSome = true := by rw [h4]; exact fun h => hin ((h5 _).mpr (mapGet_isSome.mp h))
        have hg' : mapGet q.members e.key = none := by rw [← h4]; simpa using hg
        simp only [cborStep, writeEntry, h0, if_false, hg, lateKeyed, hin, or_self, Bool.false_eq_true]
        refine ⟨rfl, hc, by rw [length_insert]; exact Nat.le_refl _, ?_, .inl ⟨hc, h2, h3, ?_, ?_⟩⟩
        · intro x hx
          rcases mem_insert.mp hx with rfl | hx
          · exact ⟨hk, hv⟩
          · exact hS x hx
        · simp only [h4]; exact mapSet_insert _ _ _ hg'
        · intro k
          simp only [List.mem_cons, h5 k, mem_insert]
          constructor
          · rintro (rfl | ⟨x, hx, rfl⟩)
            · exact ⟨_, .inl rfl, rfl⟩
            · exact ⟨x, .inr hx, rfl⟩
          · rintro ⟨x, rfl | hx, rfl⟩
            · exact .inl rfl
            · exact .inr ⟨x, hx, rfl⟩
  all_goals (rw [hc] at h1; cases h1)

open Cbor in
theorem cborobj_pre : ∀ (ops : List Op) (b : CBuf) (q : KQueue), (∀ e, .write e ∈ ops → e.key.length ≤ 4096 ∧ Supported e.value) → (∀ o ∈ ops, o ≠ .close) →
    q.closed = false → MRel b q →
    (run (cborStep .object) b ops).1 = (run lateKeyed q ops).1 ∧ (run lateKeyed q ops).2.closed = false ∧
    (run lateKeyed q ops).2.members.length ≤ q.members.length + ops.length ∧ MRel (run (cborStep .object) b ops).2 (run lateKeyed q ops).2
  | [], b, q, _, _, hc, hR => ⟨rfl, hc, by simp [run], hR⟩
  | o :: ops, b, q, hs, hn, hc, hR => by
    have key : (cborStep .object b o).1 = (lateKeyed q o).1 ∧ (lateKeyed q o).2.closed = false ∧
        (lateKeyed q o).2.members.length ≤ q.members.length + 1 ∧ MRel (cborStep .object b o).2 (lateKeyed q o).2 := by
      cases o with
      | close => exact absurd rfl (hn .close (by simp))
      | read =>
        obtain ⟨a1, a2⟩ := cborobj_read b q hR
        have hq : lateKeyed q .read = (.eof, q) := by simp only [lateKeyed, hc]
        exact ⟨a1, by rw [hq]; exact hc, by rw [hq]; simp, a2⟩
      | write e => exact cborobj_write b q e hc hR (hs e (by simp)).1 (hs e (by simp)).2
    obtain ⟨k1, k2, k3, k4⟩ := key
    obtain ⟨r1, r2, r3, r4⟩ := cborobj_pre ops _ _ (fun e he => hs e (by simp [he])) (fun o' ho' => hn o' (by simp [ho'])) k2 k4
    exact ⟨by simp only [run, k1, r1], r2, by simp only [run, List.length_cons]; omega, r4⟩

/-- A buffer of a CBOR object hands out nothing before it is closed and answers end of file meanwhile; once closed its members come out in
the order of their keys, and then end of file, every time.  Empty keys and keys written before are refused and leave no trace. -/
theorem C92_cbor_object (ops : List Op) (ho : Orderly ops) (hl : ops.length < 2^63)
    (h : ∀ e, .write e ∈ ops → e.key.length ≤ 4096 ∧ Cbor.Supported e.value) :
    (run (cborStep .object) {} ops).1 = (run lateKeyed {} ops).1 := by
  have h0 : MRel {} {} := ⟨by simp, .inl ⟨rfl, rfl, rfl, rfl, by simp⟩⟩
  rcases ho with ho | ⟨pre, k, hp, rfl⟩
  · exact (cborobj_pre ops {} {} h ho rfl h0).1
  · obtain ⟨a1, a2, a3, a4, a5⟩ := cborobj_pre pre {} {} (fun e he => h e (by simp [he])) hp rfl h0
    rw [(run_append _ pre _ _).1, (run_append _ pre _ _).1, a1]
    have hlen : (run lateKeyed {} pre).2.members.length < 2^63 := by
      simp only [List.length_append, List.length_cons] at hl
      simp only [List.length_nil] at a3
      omega
    generalize (run (cborStep .object) {} pre).2 = b at a5 ⊢
    generalize (run lateKeyed {} pre).2 = q at a2 a3 a4 a5 hlen ⊢
    have c2 : MRel (cborStep .object b .close).2 (lateKeyed q .close).2 := by
      rcases a5 with ⟨_, h2, h3, h4, _⟩ | ⟨h1, _⟩ | ⟨h1, _⟩ | ⟨h1, _⟩
      · refine ⟨a4, .inr (.inl ⟨rfl, h2, hlen, ?_⟩)⟩
        simp [cborStep, h3, h4, Cbor.close, lateKeyed]
      all_goals (rw [a2] at h1; cases h1)
    have := run_sim (cborStep .object) lateKeyed MRel (fun o => o = .read)
      (fun b q o hR ho => by subst ho; exact cborobj_read b q hR) (List.replicate k .read) _ _ c2 (fun o ho => List.eq_of_mem_replicate ho)
    have c1 : (cborStep .object b .close).1 = (lateKeyed q .close).1 := rfl
    simp only [run, c1, this.1]

example : (run (cborStep .object) {} [.read, .write { key := b!"b", value := .null }, .write { key := b!"", value := .null }, .read, .write { key := b!"a", value := .bool true },
      .write { key := b!"b", value := .bool false }, .close, .read, .read, .read, .read]).1 =
    [.eof, .wrote, .refused, .eof, .wrote, .refused, .closed, .entry { key := b!"a", value := .bool true }, .entry { key := b!"b", value := .null }, .eof, .eof] := by
  decide +kernel

end Verif.EntryBuffer
