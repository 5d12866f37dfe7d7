import Verif.Model.Render
import Verif.Lemmas.JsonBufSrc
import Verif.Props.JsonBuf
import Verif.Props.Streams
import Verif.Props.Diff
/-
C48: what templates are given of a dataset, and what rendering leaves of its files.
-/
set_option autoImplicit false
namespace Verif.Render
open Streams

/-! ## Pages -/

/-- entries as a value: an array, or an object with the last value for every key -/
def valueOf : TopLevel → List Entry → Val
  | .array, es => .arr (es.map (·.value))
  | .object, es => .obj (mapOf (es.map fun e => (e.key, e.value)))

theorem readAll_drains {σ : Type} (rd : Reader σ) (tl : TopLevel) (s s' : σ) (es : List Entry) (x : RErr) (h : Drains rd s es x s') (n : Nat)
    (hn : es.length < n) :
    readAll rd tl n s = some (if x.text = b!"EOF" then .ok (valueOf tl es) else .error (es.length + 1, x.text), s') := by
  cases tl with
  | array => exact C49_array rd s s' es x h n hn
  | object =>
    obtain ⟨m, a, b⟩ := h
    obtain ⟨k, rfl⟩ : ∃ k, n = es.length + (k + 1) := ⟨n - es.length - 1, by omega⟩
    unfold readAll
    simp only
    rw [readAllObject_yields a, readAllObject, b]
    simp only [Nat.zero_add, Option.map_some, valueOf, mapOf, List.foldl_map]
    split <;> rfl

theorem drop_take_eq {es : List Entry} {o l : Nat} : (es.take (o + l)).drop o = (es.drop o).take l := by
  rw [List.drop_take]; congr 1; omega

theorem readPage_page {σ : Type} (rd : Reader σ) (tl : TopLevel) (s s' : σ) (es : List Entry) (x : RErr) (h : Drains rd s es x s') (o l n : Nat)
    (hn : es.length < n) :
    (o + l ≤ es.length → ∃ s'', Yields rd s (es.take (o + l)) s'' ∧ readPage rd tl o l n s = some (.ok (valueOf tl ((es.drop o).take l)), s'')) ∧
    (es.length < o + l →
      readPage rd tl o l n s = some (if x.text = b!"EOF" then .ok (valueOf tl ((es.drop o).take l)) else .error ((es.drop o).length + 1, x.text), s')) := by
  have hp : readPage rd tl o l n s = (readAll (paged rd) tl n { offset := o, limit := l, inner := s }).map fun r => (r.1, r.2.inner) := by
    unfold readPage; rw [if_pos (by omega)]
  rw [hp]
  constructor
  · intro hle
    obtain ⟨m, hy, _⟩ := h
    obtain ⟨s'', h1, _⟩ := (show Yields rd s (es.take (o + l) ++ es.drop (o + l)) m by rw [List.take_append_drop]; exact hy).split
    have := C12_full_page rd s s'' _ o l h1 (by simp; omega)
    rw [drop_take_eq] at this
    refine ⟨s'', h1, ?_⟩
    rw [readAll_drains (paged rd) tl _ _ _ _ this n (by simp; omega)]
    rfl
  · intro hlt
    obtain ⟨p, hd, rfl⟩ := C12_partial_page rd s s' es x o l h (.inr (by omega))
    rw [readAll_drains (paged rd) tl _ _ _ _ hd n (by simp; omega)]
    have e : (es.drop o).take l = es.drop o := List.take_of_length_le (by simp; omega)
    rw [e]; rfl

/-- what a template gets from a body with these entries -/
def page (tl : TopLevel) (es : List Entry) (offset limit : Int) : Val :=
  if 0 ≤ offset ∧ 0 ≤ limit then valueOf tl ((es.drop offset.toNat).take limit.toNat) else valueOf tl es

/-- C48: a page, for every entry reader: exactly the entries from `o` on, at most `l`; the body file has then what the reader took
for them, so what the reader has not taken is lost. -/
theorem C48_page {σ : Type} (E : Src σ) (st : Doc.Structure) (body : Bytes) (tl : TopLevel) (s s' : σ) (es : List Entry) (x : RErr)
    (ho : E.openReader st body = .ok s) (ht : getTopLevelType st.schema = some tl) (h : Drains (E.read st) s es x s') (o l n : Nat) (hn : es.length < n) :
    (o + l ≤ es.length → ∃ s'', Yields (E.read st) s (es.take (o + l)) s'' ∧
      bodyEntries E (some st) n o l body = some (.ok (valueOf tl ((es.drop o).take l)), body.take (body.length - (E.unread s'').length))) ∧
    (es.length < o + l → x.text = b!"EOF" →
      bodyEntries E (some st) n o l body = some (.ok (valueOf tl ((es.drop o).take l)), body.take (body.length - (E.unread s').length))) ∧
    (es.length < o + l → x.text ≠ b!"EOF" → bodyEntries E (some st) n o l body = some (.error (.reading x.text), E.unread s')) := by
  obtain ⟨h1, h2⟩ := readPage_page (E.read st) tl s s' es x h o l n hn
  have e : bodyEntries E (some st) n o l body = (readPage (E.read st) tl o l n s).map fun r =>
      match r.1 with
      | .ok v => (.ok v, body.take (body.length - (E.unread r.2).length))
      | .error (_, t) => (.error (.reading t), E.unread r.2) := by
    unfold bodyEntries; simp only [ho, ht]; rfl
  rw [e]
  refine ⟨fun hle => ?_, fun hlt hx => ?_, fun hlt hx => ?_⟩
  · obtain ⟨s'', a, b⟩ := h1 hle
    exact ⟨s'', a, by rw [b]; rfl⟩
  · rw [h2 hlt, if_pos hx]; rfl
  · rw [h2 hlt, if_neg hx]; rfl

/-- C48: everything, also if just one argument is negative -/
theorem C48_all {σ : Type} (E : Src σ) (st : Doc.Structure) (body : Bytes) (tl : TopLevel) (s s' : σ) (es : List Entry) (x : RErr)
    (ho : E.openReader st body = .ok s) (ht : getTopLevelType st.schema = some tl) (h : Drains (E.read st) s es x s') (n : Nat) (hn : es.length < n)
    (offset limit : Int) (hneg : offset < 0 ∨ limit < 0) :
    bodyEntries E (some st) n offset limit body =
      some (if x.text = b!"EOF" then (.ok (valueOf tl es), body.take (body.length - (E.unread s').length)) else (.error (.reading x.text), E.unread s')) ∧
    allBodyEntries E (some st) n body = bodyEntries E (some st) n offset limit body := by
  have key : ∀ o l : Int, o < 0 ∨ l < 0 → bodyEntries E (some st) n o l body =
      some (if x.text = b!"EOF" then (.ok (valueOf tl es), body.take (body.length - (E.unread s').length)) else (.error (.reading x.text), E.unread s')) := by
    intro o l hneg
    unfold bodyEntries readPage
    simp only [ho, ht]
    rw [if_neg (by omega), readAll_drains (E.read st) tl _ _ _ _ h n hn]
    split <;> rfl
  refine ⟨key _ _ hneg, ?_⟩
  rw [key _ _ hneg]
  exact key 0 (-1) (.inr (by decide))

/-- C48: no structure, no opening, no type: errors, and what has been read is lost -/
theorem C48_errors {σ : Type} (E : Src σ) (n : Nat) (o l : Int) (body : Bytes) :
    bodyEntries E none n o l body = some (.error .noStructure, body) ∧
    (∀ st rest, E.openReader st body = .error rest → bodyEntries E (some st) n o l body = some (.error .opening, rest)) ∧
    ∀ st s, E.openReader st body = .ok s → getTopLevelType st.schema = none → bodyEntries E (some st) n o l body = some (.error .topLevel, E.unread s) :=
  ⟨rfl, fun st rest h => by simp [bodyEntries, h], fun st s h ht => by simp [bodyEntries, h, ht]⟩

/-! ## JSON bodies -/

section Json
open Json (indexed keyed isWhitespace isNumCh openCh closeCh fuelFor)
open JsonBuf JsonG

theorem drains_json (F : FloatCodec) (E : Env) (size : Nat) (st : Doc.Structure) (tl : TopLevel) (ht : getTopLevelType st.schema = some tl) :
    ∀ (n : Nat) (r : JsonBuf.Reader) (es : List Entry), readLoop F E tl n r = (es, .eof) →
      es.length < n ∧ ∃ r', Drains ((jsonSrc F E size).read st) r es .eof r'
  | 0, r, es, h => by simp [readLoop] at h
  | n + 1, r, es, h => by
    have hr : (jsonSrc F E size).read st r = match readEntry F E tl r with
        | .entry e r => (.entry e, r)
        | .eof r => (.fail .eof, r)
        | .err _ r => (.fail (.other b!"json"), r)
        | .panic => (.fail (.other b!"panic"), r) := by simp only [jsonSrc, ht]; rfl
    rw [readLoop] at h
    cases e : readEntry F E tl r with
    | entry en r1 =>
      rw [e] at h hr
      simp only [Prod.mk.injEq] at h
      obtain ⟨rfl, h2⟩ := h
      obtain ⟨hl, r', m, hy, hf⟩ := drains_json F E size st tl ht n r1 (readLoop F E tl n r1).1 (Prod.ext rfl h2)
      exact ⟨by simp; omega, r', m, .cons hr hy, hf⟩
    | eof r1 =>
      rw [e] at h hr
      simp only [Prod.mk.injEq, and_true] at h
      subst h
      exact ⟨by simp, r1, r, .nil r, hr⟩
    | err x r1 => rw [e] at h; simp at h
    | panic => rw [e] at h; simp at h

/-- after a read from a reader over a text that fits the buffer, nothing is left to deliver -/
theorem read_empty (F : FloatCodec) (E : Env) (size : Nat) (st : Doc.Structure) (r : JsonBuf.Reader) (hs : (peek r.st).src = [])
    (res : RRes) (r' : JsonBuf.Reader) (h : (jsonSrc F E size).read st r = (res, r')) (hp : res ≠ .fail (.other b!"panic")) :
    r'.st.src = [] := by
  have hsrc := readEntry_src F E ((getTopLevelType st.schema).getD .array) r
  simp only [jsonSrc] at h
  rw [hs] at hsrc
  cases e : readEntry F E ((getTopLevelType st.schema).getD .array) r with
  | entry a b => rw [e] at h hsrc; obtain ⟨_, rfl⟩ := Prod.mk.inj h; exact List.suffix_nil.1 hsrc
  | eof b => rw [e] at h hsrc; obtain ⟨_, rfl⟩ := Prod.mk.inj h; exact List.suffix_nil.1 hsrc
  | err a b => rw [e] at h hsrc; obtain ⟨_, rfl⟩ := Prod.mk.inj h; exact List.suffix_nil.1 hsrc
  | panic => rw [e] at h; obtain ⟨rfl, _⟩ := Prod.mk.inj h; exact absurd rfl hp

theorem peek_src_nil {st : St} (h : st.src = []) : (peek st).src = [] := List.suffix_nil.1 (h ▸ peek_suffix st)

theorem yields_empty (F : FloatCodec) (E : Env) (size : Nat) (st : Doc.Structure) {r r' : JsonBuf.Reader} {es : List Entry}
    (h : Yields ((jsonSrc F E size).read st) r es r') (hs : (peek r.st).src = []) : (peek r'.st).src = [] ∧ (es ≠ [] → r'.st.src = []) := by
  induction h with
  | nil s => exact ⟨hs, fun h => absurd rfl h⟩
  | cons h hy ih =>
    have h1 := read_empty F E size st _ hs _ _ h (by simp)
    obtain ⟨i1, i2⟩ := ih (peek_src_nil h1)
    refine ⟨i1, fun _ => ?_⟩
    cases hy with
    | nil => exact h1
    | cons _ _ => exact i2 (by simp)

/-- a JSON body: its entries in the order of the text -/
inductive Entries (F : FloatCodec) : TopLevel → List Entry → Bytes → Prop
  | array (l : List Val) (s : Bytes) : Doc F (.arr l) s → Entries F .array (indexed 0 l) s
  | empty (w w1 w2 : Bytes) : WS w → WS w1 → WS w2 → Entries F .object [] (w ++ 123 :: (w1 ++ 125 :: w2))
  | object (ms : List (Bytes × Val)) (w u w2 : Bytes) : WS w → Members F ms u → WS w2 → Entries F .object (keyed ms) (w ++ 123 :: (u ++ 125 :: w2))

theorem entries_read {F : FloatCodec} (E : Env) {tl : TopLevel} {es : List Entry} {s : Bytes} (size : Nat) (h : Entries F tl es s) :
    JsonBuf.readAll F E tl size [] s = (es, .eof) := by
  cases h with
  | array l _ h => exact C18_array_delivered F E size [] l s h
  | empty w w1 w2 hw h1 _ =>
    have hb := body_obj0 F hw h1 w2
    have := (readAll_clean F E .object size [] (w ++ 123 :: (w1 ++ 125 :: w2))).2 (by rw [hb])
    rwa [hb] at this
  | object ms w u w2 hw hu _ =>
    have hb := body_members hw hu w2
    have := (readAll_clean F E .object size [] (w ++ 123 :: (u ++ 125 :: w2))).2 (by rw [hb])
    rwa [hb] at this

/-- C48: a JSON body that fits the buffer: every call gets its page, or everything, and the body stays as it is, unless the call asks
for no entries at all from the beginning. -/
theorem C48_json (F : FloatCodec) (E : Env) (size : Nat) (st : Doc.Structure) (tl : TopLevel) (ht : getTopLevelType st.schema = some tl)
    (body : Bytes) (es : List Entry) (hb : Entries F tl es body) (hs : body.length ≤ max size 16) (n : Nat) (hn : body.length < n)
    (offset limit : Int) (hz : ¬ (offset = 0 ∧ limit = 0)) :
    bodyEntries (jsonSrc F E size) (some st) n offset limit body = some (.ok (page tl es offset limit), body) := by
  have hr := entries_read E size hb
  unfold JsonBuf.readAll at hr
  obtain ⟨hl, r', hd⟩ := drains_json F E size st tl ht _ _ _ hr
  have hopen : (jsonSrc F E size).openReader st body = .ok { st := JsonBuf.new size [] body } := by simp only [jsonSrc, ht]
  have h0 : (peek (JsonBuf.new size [] body)).src = [] := peek_all size body hs
  have hun : ∀ s'' : JsonBuf.Reader, s''.st.src = [] → body.take (body.length - ((jsonSrc F E size).unread s'').length) = body := by
    intro s'' h; simp [jsonSrc, h]
  have hr' : r'.st.src = [] := by
    obtain ⟨m, hy, hf⟩ := hd
    exact read_empty F E size st m (yields_empty F E size st hy h0).1 _ _ hf (by simp)
  by_cases hneg : offset < 0 ∨ limit < 0
  · rw [(C48_all (jsonSrc F E size) st body tl _ _ es .eof hopen ht hd n (by omega) offset limit hneg).1, if_pos (show RErr.eof.text = b!"EOF" from rfl), hun r' hr', page, if_neg (by omega)]
  · obtain ⟨o, rfl⟩ : ∃ o : Nat, offset = o := ⟨offset.toNat, by omega⟩
    obtain ⟨l, rfl⟩ : ∃ l : Nat, limit = l := ⟨limit.toNat, by omega⟩
    obtain ⟨h1, h2, _⟩ := C48_page (jsonSrc F E size) st body tl _ _ es .eof hopen ht hd o l n (by omega)
    rw [page, if_pos (by omega)]
    by_cases hle : o + l ≤ es.length
    · obtain ⟨s'', hy, e⟩ := h1 hle
      have := (yields_empty F E size st hy h0).2 (by
        intro e
        have h : (es.take (o + l)).length = o + l := by simp; omega
        rw [e] at h; simp at h; omega)
      rw [e, hun s'' this]; rfl
    · rw [h2 (by omega) rfl, hun r' hr']; rfl

/-- C48: asking for no entries from the beginning reads nothing, so every body is lost. -/
theorem C48_json_no_entries (F : FloatCodec) (E : Env) (size : Nat) (st : Doc.Structure) (tl : TopLevel) (ht : getTopLevelType st.schema = some tl)
    (body : Bytes) (n : Nat) : bodyEntries (jsonSrc F E size) (some st) (n + 1) 0 0 body = some (.ok (valueOf tl []), []) := by
  have hd : Drains (paged ((jsonSrc F E size).read st)) ⟨0, 0, { st := JsonBuf.new size [] body }⟩ [] .eof ⟨0, 0, { st := JsonBuf.new size [] body }⟩ :=
    ⟨_, .nil _, paged_zero _ 0 (by omega) _⟩
  have e := readAll_drains _ tl _ _ _ _ hd (n + 1) (by simp)
  unfold bodyEntries readPage
  simp only [jsonSrc, ht] at e ⊢
  rw [if_pos (by omega), e]
  simp [JsonBuf.new, RErr.text]

/-! ### A body larger than the buffer -/

/-- an array of 0 and 1 with `k` spaces between them -/
def wide (k : Nat) : Bytes := 91 :: 48 :: 32 :: (List.replicate k 32 ++ b!",1]")

theorem current_solid (E : Env) (st : St) (c : UInt8) (t : Bytes) (hb : st.buf = c :: t) (hc : isWhitespace c = false) :
    current E st = (⟨st.buf, st.size - st.pos - st.buf.length⟩, { st with prev := 0 }) := by
  unfold current span
  simp [hb, hc]

theorem span_one (E : Env) (p : UInt8 → Bool) (n : Nat) (b : Slice) (st : St) (c d : UInt8) (t : Bytes) (hb : b.data = c :: d :: t) (hc : p c = true)
    (hd : p d = false) : span E p (n + 2) b 0 st = (b, 1, st) := by
  rw [span, if_neg (by rw [hb]; simp)]
  simp only [hb, List.getElem?_cons_zero, hc, if_true]
  rw [span, if_neg (by rw [hb]; simp)]
  simp [hb, hd]

theorem entry_zero (F : FloatCodec) (E : Env) (r : JsonBuf.Reader) (t : Bytes) (hi : r.initialized = false) (hr : r.entriesRead = 0)
    (hb : (peek r.st).buf = 91 :: 48 :: 32 :: t) :
    ∃ r', readEntry F E .array r = .entry { index := 0, value := .int 0 } r' ∧ r'.initialized = true ∧ r'.st.buf = 32 :: t ∧ r'.st.src = (peek r.st).src ∧
      r'.st.size = (peek r.st).size ∧ r'.st.eof = (peek r.st).eof := by
  generalize hst : peek r.st = st at hb
  have c1 := current_solid E st 91 _ hb (by decide)
  have t1 : token E 91 st = (true, discard 1 { st with prev := 0 }) := by
    unfold token; rw [c1]; simp [hb]
  generalize hst1 : discard 1 { st with prev := 0 } = st1 at t1
  have hb1 : st1.buf = 48 :: 32 :: t := by rw [← hst1]; simp [JsonBuf.discard, hb]
  have c2 := current_solid E st1 48 _ hb1 (by decide)
  have t2 : token E 93 st1 = (false, { st1 with prev := 0 }) := by
    unfold token; rw [c2]; simp [hb1]
  have c3 := current_solid E { st1 with prev := 0 } 48 _ hb1 (by decide)
  have hn : readNumber F E { st1 with prev := 0 } = .ok (.int 0) { discard 1 { st1 with prev := 0 } with prev := 0 } := by
    unfold readNumber
    rw [c3]
    have hs := span_one E isNumCh (t.length + 1 + st1.src.length) ⟨st1.buf, st1.size - st1.pos - st1.buf.length⟩ { st1 with prev := 0 } 48 32 t hb1
      (by decide) (by decide)
    rw [show t.length + 1 + st1.src.length + 2 = st1.buf.length + st1.src.length + 1 by rw [hb1]; simp; omega] at hs
    dsimp only at hs ⊢
    rw [hs]
    simp only [hb1]
    rfl
  have hv : ∀ f, readValue F E (f + 1) { st1 with prev := 0 } = .ok (.int 0) { discard 1 { st1 with prev := 0 } with prev := 0 } := by
    intro f
    rw [readValue, c3]
    dsimp only
    rw [show st1.buf.head? = some 48 by rw [hb1]; rfl]
    dsimp only
    rw [if_neg (by decide), if_neg (by decide), if_neg (by decide), if_neg (by decide), if_pos (by decide)]
    exact hn
  refine ⟨⟨true, 1, { discard 1 { st1 with prev := 0 } with prev := 0 }⟩, ?_, rfl, ?_, ?_, ?_, ?_⟩
  · unfold readEntry
    dsimp only
    rw [hi, hst]
    simp only [openCh, closeCh, t1, t2, Bool.false_eq_true, if_false, hr]
    unfold readBody
    dsimp only
    obtain ⟨f, hf⟩ : ∃ f, fuelFor st1.rest = f + 1 := ⟨_, rfl⟩
    rw [hf, hv f]
    rfl
  · simp [JsonBuf.discard, hb1]
  all_goals (rw [← hst1]; simp [JsonBuf.discard])

/-- the first read fills the buffer -/
theorem peek_first (size : Nat) (t : Bytes) (ht : t ≠ []) (hk : max size 16 ≤ t.length) (k : Nat)  :
    (fillLoop (k + 1) (JsonBuf.new size [] t)) = { JsonBuf.new size [] t with buf := t.take (max size 16), src := t.drop (max size 16) } := by
  have hl : (JsonBuf.new size [] t).buf.length < blockSize ∧ (JsonBuf.new size [] t).buf.length < (JsonBuf.new size [] t).size ∧ (JsonBuf.new size [] t).eof = false :=
    ⟨by simp [JsonBuf.new, blockSize], by simp [JsonBuf.new]; omega, rfl⟩
  rw [fillLoop, if_pos hl]
  have hf : fill (JsonBuf.new size [] t) = { JsonBuf.new size [] t with buf := t.take (max size 16), src := t.drop (max size 16) } := by
    unfold fill
    rw [if_neg (by exact ht)]
    simp [JsonBuf.new, St.portion]
  rw [hf]
  cases k with
  | zero => rfl
  | succ k =>
    rw [fillLoop, if_neg]
    intro h
    have := h.2.1
    simp [JsonBuf.new] at this
    omega

theorem peek_first' (size : Nat) (t : Bytes) (ht : t ≠ []) (hk : max size 16 ≤ t.length) :
    (peek (JsonBuf.new size [] t)).buf = t.take (max size 16) ∧ (peek (JsonBuf.new size [] t)).src = t.drop (max size 16) ∧
    (peek (JsonBuf.new size [] t)).size = max size 16 ∧ (peek (JsonBuf.new size [] t)).eof = false := by
  have := peek_first size t ht hk t.length
  unfold peek
  dsimp only
  rw [show (JsonBuf.new size [] t).src.length + 1 = t.length + 1 from rfl, this]
  split <;> exact ⟨rfl, rfl, rfl, rfl⟩

/-- a text that ends in the spaces after the first entry -/
theorem second_fails (F : FloatCodec) (E : Env) (r : JsonBuf.Reader) (s : Bytes) (hi : r.initialized = true) (h : Inv r.st s) (hs : Json.skipWS s = []) :
    ∃ r', readEntry F E .array r = .err .separator r' := by
  obtain ⟨i1, _⟩ := peek_inv h
  obtain ⟨ok, st1, e1, _, h1⟩ := token_spec E 93 i1
  have n1 : ∀ c, Json.token c s = none := by intro c; simp [Json.token, hs]
  rcases h1 with ⟨_, q, hq, _⟩ | ⟨rfl, _, j1⟩
  · rw [n1] at hq; simp at hq
  rw [hs] at j1
  obtain ⟨ok, st2, e2, _, h2⟩ := token_spec E 44 j1
  rcases h2 with ⟨_, q, hq, _⟩ | ⟨rfl, _, j2⟩
  · simp [Json.token, Json.skipWS] at hq
  refine ⟨{ r with st := st2 }, ?_⟩
  unfold readEntry
  dsimp only
  rw [hi]
  simp only [if_true, closeCh, e1, e2]

theorem skipWS_spaces (k : Nat) : Json.skipWS (List.replicate k 32) = [] := by
  induction k with
  | zero => rfl
  | succ k ih => rw [List.replicate_succ, Json.skipWS, List.dropWhile_cons_of_pos (by decide)]; exact ih

/-- C48: for every size of the buffer there is a valid JSON body, an array of two numbers, of which a template that asks for the first
entry leaves a beginning only: asked for everything afterwards, there is an error and then nothing is left. -/
theorem C48_json_large (F : FloatCodec) (E : Env) (size : Nat) (st : Doc.Structure) (ht : getTopLevelType st.schema = some .array) (n : Nat) :
    ∃ body rest : Bytes, Entries F .array (indexed 0 [.int 0, .int 1]) body ∧ rest ≠ [] ∧ rest.length < body.length ∧ rest <+: body ∧
      bodyEntries (jsonSrc F E size) (some st) (n + 2) 0 1 body = some (.ok (.arr [.int 0]), rest) ∧
      bodyEntries (jsonSrc F E size) (some st) (n + 2) 0 (-1) rest = some (.error (.reading b!"json"), []) := by
  generalize hN : max size 16 = N
  have hN16 : 16 ≤ N := by omega
  have hlen : (wide N).length = N + 6 := by simp [wide]
  have htake : (wide N).take N = 91 :: 48 :: 32 :: List.replicate (N - 3) 32 := by
    obtain ⟨M, rfl⟩ : ∃ M, N = M + 3 := ⟨N - 3, by omega⟩
    simp [wide, List.take_append]
  have hread : ∀ r, (jsonSrc F E size).read st r = match readEntry F E .array r with
        | .entry e r => (.entry e, r)
        | .eof r => (.fail .eof, r)
        | .err _ r => (.fail (.other b!"json"), r)
        | .panic => (.fail (.other b!"panic"), r) := by intro r; simp only [jsonSrc, ht]; rfl
  refine ⟨wide N, (wide N).take N, ?_, ?_, ?_, List.take_prefix _ _, ?_, ?_⟩
  · refine .array _ _ ⟨[], wide N, [], by simp [WS], ?_, by simp [WS], by simp⟩
    have h0 : Text F (.int (0 : Nat)) b!"0" := .nat _ 0 .zero (by decide) (by decide)
    have h1 : Text F (.int (1 : Nat)) b!"1" := .nat _ 1 (.nonzero 49 [] (by decide) (by decide) (by simp [Digits])) (by decide) (by decide)
    have hel : Elems F [.int (0 : Nat), .int (1 : Nat)] _ :=
      .cons (.int (0 : Nat)) [] b!"0" (32 :: List.replicate N 32) [.int (1 : Nat)] _ (by simp [WS]) h0 (by simp [WS])
        (.one _ [] b!"1" [] (by simp [WS]) h1 (by simp [WS]))
    have := Text.arr _ _ hel
    simpa [wide] using this
  · rw [htake]; simp
  · rw [List.length_take, hlen]; omega
  · have hp := peek_first' size (wide N) (by simp [wide]) (by rw [hlen]; omega)
    rw [hN, htake] at hp
    obtain ⟨r', e, _, _, hsrc, _, _⟩ := entry_zero F E { st := JsonBuf.new size [] (wide N) } _ rfl rfl hp.1
    have hy : Drains (paged ((jsonSrc F E size).read st)) ⟨0, 1, { st := JsonBuf.new size [] (wide N) }⟩ [{ index := 0, value := .int 0 }] .eof ⟨0, 0, r'⟩ :=
      C12_full_page _ _ _ [{ index := 0, value := .int 0 }] 0 1 (.cons (by rw [hread, e]) (.nil _)) rfl
    have hopen : (jsonSrc F E size).openReader st (wide N) = .ok { st := JsonBuf.new size [] (wide N) } := by simp only [jsonSrc, ht]
    unfold bodyEntries readPage
    simp only [hopen, ht]
    rw [if_pos (by omega), readAll_drains _ .array _ _ _ _ hy (n + 2) (by simp)]
    simp only [jsonSrc, hsrc, hp.2.1, Option.map_some]
    rw [if_pos (show RErr.eof.text = b!"EOF" from rfl)]
    simp only [valueOf, List.map_cons, List.map_nil, List.length_drop, hlen]
    rw [show N + 6 - (N + 6 - N) = N by omega, htake]
  · generalize hr : (wide N).take N = rest
    have hrl : rest.length = N := by rw [← hr, List.length_take, hlen]; omega
    rw [htake] at hr
    have hp := peek_first' size rest (by rw [← hr]; simp) (by omega)
    rw [hN, List.take_of_length_le (by omega), List.drop_eq_nil_of_le (by omega)] at hp
    have hp1 := hp.1
    rw [← hr] at hp1
    rw [hr] at hp1
    obtain ⟨r', e, hi, hbuf, hsrc, hsize, heof⟩ := entry_zero F E { st := JsonBuf.new size [] rest } _ rfl rfl (hp.1.trans hr.symm)
    obtain ⟨r2, e2⟩ := second_fails F E r' (32 :: List.replicate (N - 3) 32) hi
      ⟨by rw [hbuf, hsrc, hp.2.1, List.append_nil], by rw [hsize, hp.2.2.1]; exact hN16, by rw [heof, hp.2.2.2]; simp⟩ (by
        have := skipWS_spaces (N - 3 + 1); rwa [List.replicate_succ] at this)
    have hd : Drains ((jsonSrc F E size).read st) { st := JsonBuf.new size [] rest } [{ index := 0, value := .int 0 }] (.other b!"json") r2 :=
      ⟨r', .cons (by rw [hread, e]) (.nil _), by rw [hread, e2]⟩
    have hopen : (jsonSrc F E size).openReader st rest = .ok { st := JsonBuf.new size [] rest } := by simp only [jsonSrc, ht]
    rw [(C48_all _ st rest .array _ _ _ _ hopen ht hd (n + 2) (by simp) 0 (-1) (.inr (by decide))).1, if_neg (by decide)]
    have : r2.st.src = [] := by
      refine read_empty F E size st r' (peek_src_nil (by rw [hsrc]; exact hp.2.1)) (.fail (.other b!"json")) r2 (by rw [hread, e2]) (by decide)
    simp only [jsonSrc, this]
    rfl

end Json

/-! ## Templates -/

/-- the template never asks for no entries from the beginning, whatever answers it gets -/
inductive Asks : Tmpl → Prop
  | done (text : Bytes) : Asks (.done text)
  | fail : Asks .fail
  | call (offset limit : Int) (k : Val → Tmpl) : ¬ (offset = 0 ∧ limit = 0) → (∀ v, Asks (k v)) → Asks (.call offset limit k)

/-- what a template produces if all its calls are answered from the same pages -/
def answer (pages : Int → Int → Val) : Tmpl → Option Bytes
  | .done text => some text
  | .fail => none
  | .call offset limit k => answer pages (k (pages offset limit))

/-- C48: for every template, with a JSON body that fits the buffer: however often and in whatever order it asks, it gets the pages
of the same body; afterwards, also if it fails by itself, the body is as it was. -/
theorem C48_template (F : FloatCodec) (E : JsonBuf.Env) (size : Nat) (st : Doc.Structure) (tl : TopLevel) (ht : getTopLevelType st.schema = some tl)
    (body : Bytes) (es : List Entry) (hb : Entries F tl es body) (hs : body.length ≤ max size 16) (n : Nat) (hn : body.length < n) (t : Tmpl) (h : Asks t) :
    exec (jsonSrc F E size) (some st) n t body = some (answer (page tl es) t, body) := by
  induction h with
  | done text => rfl
  | fail => rfl
  | call o l k hz _ ih =>
    rw [exec, C48_json F E size st tl ht body es hb hs n hn o l hz]
    exact ih _

/-- C48: a call that fails ends the template, with the body as that call left it -/
theorem C48_call_fails {σ : Type} (E : Src σ) (st : Option Doc.Structure) (n : Nat) (o l : Int) (k : Val → Tmpl) (body rest : Bytes) (e : Err)
    (h : bodyEntries E st n o l body = some (.error e, rest)) : exec E st n (.call o l k) body = some (none, rest) := by
  simp [exec, h]

/-- C48: so the calls of a template are not independent: for every size of the buffer there is a valid body for which a template that asks for everything
fails and loses the body because it asked for the first entry before -/
theorem C48_template_large (F : FloatCodec) (E : JsonBuf.Env) (size : Nat) (st : Doc.Structure) (ht : getTopLevelType st.schema = some .array) (n : Nat) (text : Bytes) :
    ∃ body : Bytes, Entries F .array (Json.indexed 0 [.int 0, .int 1]) body ∧
      exec (jsonSrc F E size) (some st) (n + 2) (.call 0 1 fun _ => .call 0 (-1) fun _ => .done text) body = some (none, []) := by
  obtain ⟨body, rest, hb, _, _, _, h1, h2⟩ := C48_json_large F E size st ht n
  refine ⟨body, hb, ?_⟩
  rw [exec, h1]
  simp only
  rw [exec, h2]

/-- C48: also after asking for no entries there is nothing left to ask for -/
theorem C48_template_lost (F : FloatCodec) (E : JsonBuf.Env) (size : Nat) (st : Doc.Structure) (tl : TopLevel) (ht : getTopLevelType st.schema = some tl)
    (body : Bytes) (n : Nat) (k : Val → Tmpl) :
    exec (jsonSrc F E size) (some st) (n + 1) (.call 0 0 k) body = exec (jsonSrc F E size) (some st) (n + 1) (k (valueOf tl [])) [] := by
  rw [exec, C48_json_no_entries F E size st tl ht body n]

/-! ## Rendering -/

/-- C48: rendering needs a viz component with format "html" and its script; the script stays available, whatever happens afterwards. -/
theorem C48_render {σ : Type} (F : FloatCodec) (E : Src σ) (L : Lib) (n : Nat) (ds : Doc.Dataset) (fs : Files) :
    (ds.viz = none → render F E L n ds fs = some (.error .noViz, fs)) ∧
    (∀ viz, ds.viz = some viz → viz.format ≠ b!"html" → render F E L n ds fs = some (.error .format, fs)) ∧
    (∀ out fs', fs.scriptFails = false → render F E L n ds fs = some (out, fs') → fs'.script = fs.script ∧ fs'.scriptFails = false) ∧
    (∀ html fs', render F E L n ds fs = some (.page html, fs') →
      ∃ viz m t, ds.viz = some viz ∧ viz.format = b!"html" ∧ viz.scriptFile.isSome ∧ vizDataset F ds = some m ∧ L.parse fs.script = some t ∧
        exec E ds.structure_ n (t ds m) fs.body = some (some html, fs'.body)) := by
  refine ⟨fun h => by simp [render, h], fun viz h hf => by simp [render, h, hf], fun out fs' hs h => ?_, fun html fs' h => ?_⟩
  all_goals
    unfold render renderHTML at h
    split at h
    · simp at h <;> simp [← h, hs]
    split at h
    · simp at h <;> simp [← h, hs]
    split at h
    · simp at h <;> simp [← h, hs]
    split at h
    · simp at h <;> simp_all
    split at h
    · simp at h <;> simp [← h, hs]
    split at h
    · simp at h <;> simp [← h, hs]
    rw [Option.map_eq_some_iff] at h
    obtain ⟨r, hr, h⟩ := h
    obtain ⟨h1, rfl⟩ := Prod.mk.inj h
  · simp [hs]
  · rename_i _ viz hv hf hsf _ _ m hm _ t ht
    refine ⟨viz, m, t, hv, by simpa using hf, by simpa [Option.isSome_iff_ne_none] using hsf, hm, ht, ?_⟩
    obtain ⟨a, b⟩ := r
    cases a with
    | none => simp at h1
    | some a => simp at h1; subst h1; exact hr

/-- C48: with a viz component of format "html", a missing script file panics; a script that cannot be read is lost, and every other error leaves the files
as they are: a dataset without JSON form, a script that is no template -/
theorem C48_render_errors {σ : Type} (F : FloatCodec) (E : Src σ) (L : Lib) (n : Nat) (ds : Doc.Dataset) (viz : Doc.Viz) (fs : Files)
    (hv : ds.viz = some viz) (hf : viz.format = b!"html") :
    (viz.scriptFile = none → render F E L n ds fs = some (.panic, fs)) ∧
    (viz.scriptFile.isSome → fs.scriptFails = true → render F E L n ds fs = some (.error .script, { fs with script := [] })) ∧
    (viz.scriptFile.isSome → fs.scriptFails = false → (ds.enc = none ∨ ∃ v, ds.enc = some v ∧ jsonOK v = false) →
      render F E L n ds fs = some (.error .marshal, fs)) ∧
    (∀ m, viz.scriptFile.isSome → fs.scriptFails = false → vizDataset F ds = some m → L.parse fs.script = none →
      render F E L n ds fs = some (.error .parsing, fs)) := by
  have hr : render F E L n ds fs = renderHTML F E L n ds viz fs := by simp [render, hv, hf]
  rw [hr]
  unfold renderHTML
  refine ⟨fun h => by simp [h], fun h hs => ?_, fun h hs he => ?_, fun m h hs hm hp => ?_⟩
  · rw [if_neg (by simpa [Option.isNone_iff_eq_none] using Option.isSome_iff_ne_none.mp h), if_pos hs]
  · have : vizDataset F ds = none := by
      unfold vizDataset
      rcases he with he | ⟨v, he, hj⟩
      · rw [he]
      · rw [he]; simp [hj]
    rw [if_neg (by simpa [Option.isNone_iff_eq_none] using Option.isSome_iff_ne_none.mp h), if_neg (by simp [hs]), this]
  · rw [if_neg (by simpa [Option.isNone_iff_eq_none] using Option.isSome_iff_ne_none.mp h), if_neg (by simp [hs]), hm]
    simp only [hp]

/-- C48: rendering a dataset with a JSON body that fits the buffer, by a template that never asks for no entries: the result follows
from the body's pages, and the script and the body are as before. -/
theorem C48_render_json (F : FloatCodec) (E : JsonBuf.Env) (size : Nat) (L : Lib) (ds : Doc.Dataset) (viz : Doc.Viz) (st : Doc.Structure) (tl : TopLevel)
    (m : List (Bytes × Val)) (t : Doc.Dataset → List (Bytes × Val) → Tmpl) (fs : Files) (es : List Entry) (n : Nat)
    (hv : ds.viz = some viz) (hf : viz.format = b!"html") (hsf : viz.scriptFile.isSome) (hst : ds.structure_ = some st)
    (ht : getTopLevelType st.schema = some tl) (hss : fs.scriptFails = false) (hm : vizDataset F ds = some m) (hp : L.parse fs.script = some t)
    (hb : Entries F tl es fs.body) (hs : fs.body.length ≤ max size 16) (hn : fs.body.length < n) (ha : Asks (t ds m)) :
    render F (jsonSrc F E size) L n ds fs =
      some (match answer (page tl es) (t ds m) with | some html => .page html | none => .error .executing, fs) := by
  obtain ⟨script, fails, body⟩ := fs
  simp only at hss hp hb hs hn
  subst hss
  unfold render renderHTML
  have h1 : viz.scriptFile.isNone = false := by cases h : viz.scriptFile <;> simp_all
  simp only [hv, hf, h1, hm, hp, hst]
  rw [C48_template F E size st tl ht body es hb hs n hn (t ds m) ha]
  cases answer (page tl es) (t ds m) <;> simp

/-! ## The tree of the dataset -/

/-- C48: the tree templates get has, for every field of the dataset, what a JSON reader sees of it. -/
theorem C48_tree (F : FloatCodec) (ds : Doc.Dataset) (cm : Option Val) (hc : Doc.encComp Doc.Commit.enc ds.commit = some cm) (he : ds.viz.isSome)
    (hf : Diff.Fine F (.obj (Doc.encFields (ds.fields cm)))) :
    ∃ m, vizDataset F ds = some m ∧ ∀ n, mapGet m n = Diff.seen F (ds.fields cm) n := by
  have henc : ds.enc = some (.obj (Doc.encFields (ds.fields cm))) := by
    unfold Doc.Dataset.enc
    rw [if_neg, hc]; rfl
    intro h
    have := h.2
    unfold Doc.Dataset.isEmpty at this
    cases hv : ds.viz with
    | none => simp [hv] at he
    | some v => simp [hv] at this
  have hn : (ds.fields cm).map (·.1) = [b!"body", b!"bodyBytes", b!"bodyPath", b!"commit", b!"id", b!"meta", b!"name", b!"path", b!"peername",
      b!"previousPath", b!"profileID", b!"readme", b!"numVersions", b!"qri", b!"structure", b!"stats", b!"transform", b!"viz"] := rfl
  have hnd : ((ds.fields cm).map (·.1)).Nodup := by rw [hn]; decide +kernel
  have hvalid : ∀ kv ∈ Doc.encFields (ds.fields cm), ValidUtf8 kv.1 := by
    intro kv hkv
    have : kv.1 ∈ (ds.fields cm).map (·.1) := List.mem_map.mpr ⟨_, Diff.mem_encFields hkv, rfl⟩
    rw [hn] at this
    apply Diff.validAscii
    revert this
    generalize kv.1 = n
    revert n
    decide +kernel
  have hu := JsonStd.unmarshal_enc F (.obj (Doc.encFields (ds.fields cm))) [] hf.nums hf.depth Json.ws_nil
  rw [List.append_nil] at hu
  obtain ⟨w, hw⟩ := Option.isSome_iff_exists.mp hf.reads
  rw [hw] at hu
  rw [JsonStd.jnorm, Option.map_eq_some_iff] at hw
  obtain ⟨m', h1, rfl⟩ := hw
  obtain ⟨k1, k2⟩ := Diff.jnormF_get F _ m' h1 hvalid
  have hs := Doc.keysSorted_putFields (ds.fields cm) (m := []) (by simp [KeysSorted])
  rw [Json.mapOf_sorted (Diff.keysSorted_of_keys k1 hs)] at hu
  refine ⟨m', ?_, fun n => ?_⟩
  · unfold vizDataset
    rw [henc]
    simp only [hf.ok, if_true, hu]
  · rw [k2, Diff.mapGet_encFields _ hnd]; rfl

/-! ## Functions for templates -/

def units : List Bytes := [b!"byte", b!"KB", b!"MB", b!"GB", b!"TB", b!"PB"]

/-- C48: sizes are in the largest unit that does not exceed them, up to petabytes, rounded down; the unit gets an "s" unless the number
is one, and bytes are the unit of negative numbers. -/
theorem C48_sizes (l : Int) :
    ∃ k unit, units[k]? = some unit ∧ (k = 0 ∨ (1024 : Int) ^ k ≤ l) ∧ (k = 5 ∨ l < (1024 : Int) ^ (k + 1)) ∧
      printByteInfo l = fmtInt (if l < 0 then l else l / 1024 ^ k) ++ b!" " ++ unit ++ (if (if l < 0 then l else l / 1024 ^ k) = 1 then [] else b!"s") := by
  have td : ∀ k : Nat, 0 ≤ l → l.tdiv (1024 ^ k) = if l < 0 then l else l / 1024 ^ k := by
    intro k h; rw [if_neg (by omega)]; exact Int.tdiv_eq_ediv_of_nonneg h
  have fin : ∀ (v : Int) (name : Bytes), fmtInt v ++ b!" " ++ (if v ≠ 1 then name ++ b!"s" else name) =
      fmtInt v ++ b!" " ++ name ++ (if v = 1 then [] else b!"s") := by
    intro v name; by_cases h : v = 1 <;> simp [h]
  unfold printByteInfo
  by_cases h5 : (2 : Int) ^ 50 ≤ l
  · refine ⟨5, b!"PB", rfl, .inr (by omega), .inl rfl, ?_⟩
    rw [if_pos h5, ← td 5 (by omega)]; exact fin _ _
  rw [if_neg h5]
  by_cases h4 : (2 : Int) ^ 40 ≤ l
  · refine ⟨4, b!"TB", rfl, .inr (by omega), .inr (by omega), ?_⟩
    rw [if_pos h4, ← td 4 (by omega)]; exact fin _ _
  rw [if_neg h4]
  by_cases h3 : (2 : Int) ^ 30 ≤ l
  · refine ⟨3, b!"GB", rfl, .inr (by omega), .inr (by omega), ?_⟩
    rw [if_pos h3, ← td 3 (by omega)]; exact fin _ _
  rw [if_neg h3]
  by_cases h2 : (2 : Int) ^ 20 ≤ l
  · refine ⟨2, b!"MB", rfl, .inr (by omega), .inr (by omega), ?_⟩
    rw [if_pos h2, ← td 2 (by omega)]; exact fin _ _
  rw [if_neg h2]
  by_cases h1 : (2 : Int) ^ 10 ≤ l
  · refine ⟨1, b!"KB", rfl, .inr (by omega), .inr (by omega), ?_⟩
    rw [if_pos h1, ← td 1 (by omega)]; exact fin _ _
  rw [if_neg h1]
  refine ⟨0, b!"byte", rfl, .inl rfl, .inr (by omega), ?_⟩
  have e : (if l < 0 then l else l / 1024 ^ 0) = l := by split <;> simp
  rw [e]; exact fin _ _

/-- C48: `isType` knows five names, and tells exactly the values of that type; null and byte strings have none of them. -/
theorem C48_isType (v : Val) (t : Bytes) :
    (isType v t = none ↔ t ∉ [b!"string", b!"object", b!"array", b!"boolean", b!"number"]) ∧
    (isType v t = some true ↔ (t = b!"string" ∧ ∃ s, v = .str s) ∨ (t = b!"object" ∧ ∃ m, v = .obj m) ∨ (t = b!"array" ∧ ∃ l, v = .arr l) ∨
      (t = b!"boolean" ∧ ∃ b, v = .bool b) ∨ (t = b!"number" ∧ ((∃ x, v = .f64 x) ∨ (∃ i, v = .gint i) ∨ ∃ i, v = .int i))) := by
  unfold isType
  constructor
  · simp only [List.mem_cons, List.not_mem_nil, or_false, not_or]
    by_cases h1 : t = b!"string"
    · simp [h1]
    by_cases h2 : t = b!"object"
    · simp [h2]
    by_cases h3 : t = b!"array"
    · simp [h3]
    by_cases h4 : t = b!"boolean"
    · simp [h4]
    by_cases h5 : t = b!"number"
    · simp [h5]
    simp [h1, h2, h3, h4, h5]
  · by_cases h1 : t = b!"string"
    · subst h1; cases v <;> simp
    by_cases h2 : t = b!"object"
    · subst h2; cases v <;> simp
    by_cases h3 : t = b!"array"
    · subst h3; cases v <;> simp
    by_cases h4 : t = b!"boolean"
    · subst h4; cases v <;> simp
    by_cases h5 : t = b!"number"
    · subst h5; cases v <;> simp
    simp [h1, h2, h3, h4, h5]

example : [0, 1, 1023, 1024, 5000000, 2 ^ 61, -1].map printByteInfo =
    [b!"0 bytes", b!"1 byte", b!"1023 bytes", b!"1 KB", b!"4 MBs", b!"2048 PBs", b!"-1 bytes"] := by decide +kernel

example : isType (.gint 3) b!"number" = some true ∧ isType .null b!"null" = none ∧ isType (.bytes b!"x") b!"string" = some false := by decide +kernel

/-- C48: the title -/
theorem C48_title (ds : Doc.Dataset) :
    (∀ m, ds.meta_ = some m → m.title ≠ [] → title ds = m.title) ∧
    ((∀ m, ds.meta_ = some m → m.title = []) → title ds = ds.peername ++ b!"/" ++ ds.name) := by
  unfold title
  cases h : ds.meta_ with
  | none => simp
  | some m => refine ⟨fun m' e => by cases e; intro h; simp [h], fun hh => by simp [hh m rfl]⟩

/-! ## Examples -/

section Examples
open JsonBuf (exE)
open Json (exF)

def exSt : Doc.Structure := { schema := some [(b!"type", .str b!"array")] }

/-- pages of a body, again and again; everything; no entries, and then the body is gone -/
example : getTopLevelType exSt.schema = some .array ∧
    bodyEntries (jsonSrc exF exE 32) (some exSt) 40 1 2 b!"[\"a\", 2 ,[3],null]" = some (.ok (.arr [.int 2, .arr [.int 3]]), b!"[\"a\", 2 ,[3],null]") ∧
    bodyEntries (jsonSrc exF exE 32) (some exSt) 40 3 5 b!"[\"a\", 2 ,[3],null]" = some (.ok (.arr [.null]), b!"[\"a\", 2 ,[3],null]") ∧
    bodyEntries (jsonSrc exF exE 32) (some exSt) 40 (-1) 1 b!"[\"a\", 2 ]" = some (.ok (.arr [.str b!"a", .int 2]), b!"[\"a\", 2 ]") ∧
    bodyEntries (jsonSrc exF exE 32) (some exSt) 40 0 0 b!"[\"a\", 2 ]" = some (.ok (.arr []), []) ∧
    allBodyEntries (jsonSrc exF exE 32) (some exSt) 40 [] = some (.error (.reading b!"json"), []) := by decide +kernel

/-- a template that asks for two pages -/
def exT : Tmpl := .call 0 1 fun v => .call 1 1 fun w =>
  match v, w with
  | .arr [.int 1], .arr [.str s] => .done s
  | _, _ => .fail

example : exec (jsonSrc exF exE 16) (some exSt) 40 exT b!"[1,\"x\"]" = some (some b!"x", b!"[1,\"x\"]") ∧
    exec (jsonSrc exF exE 16) (some exSt) 40 exT b!"[1,2]" = some (none, b!"[1,2]") ∧
    exec (jsonSrc exF exE 16) (some exSt) 40 exT (wide 16) = some (none, []) ∧
    exec (jsonSrc exF exE 32) (some exSt) 40 exT (wide 16) = some (none, wide 16) := by decide +kernel

def exDs : Doc.Dataset := { name := b!"n", peername := b!"p", structure_ := some exSt, viz := some { format := b!"html", scriptFile := some 0 } }

def exLib : Lib := ⟨fun s => if s = b!"T" then some fun ds m => .call 1 1 fun v =>
  if v = .arr [.str b!"x"] then .done (title ds ++ (match mapGet m b!"name" with | some (.str s) => b!" " ++ s | _ => [])) else .fail else none⟩

example : render exF (jsonSrc exF exE 16) exLib 40 exDs { script := b!"T", body := b!"[1,\"x\"]" } =
      some (.page b!"p/n n", { script := b!"T", body := b!"[1,\"x\"]" }) ∧
    render exF (jsonSrc exF exE 16) exLib 40 { exDs with viz := none } { script := b!"T", body := [] } = some (.error .noViz, { script := b!"T", body := [] }) ∧
    render exF (jsonSrc exF exE 16) exLib 40 exDs { script := b!"U", body := [] } = some (.error .parsing, { script := b!"U", body := [] }) := by
  decide +kernel

end Examples

end Verif.Render
