import Verif.Lemmas.JsonEnc
import Verif.Lemmas.JsonTotal
/- Reading and writing whole bodies. -/
namespace Verif.Json
open JsonG

theorem elems_length {F : FloatCodec} {l : List Val} {t : Bytes} (h : Elems F l t) : l.length ≤ t.length := by
  induction l generalizing t with
  | nil => simp
  | cons v l ih =>
    cases h with
    | one _ w t w' hw ht hw' =>
      obtain ⟨c, t', rfl, _⟩ := text_head ht
      simp; omega
    | cons _ w t w' _ t' hw ht hw' hl => have := ih hl; simp; omega

theorem members_length {F : FloatCodec} {l : List (Bytes × Val)} {t : Bytes} (h : Members F l t) :
    l.length ≤ t.length := by
  induction l generalizing t with
  | nil => simp
  | cons v l ih =>
    cases h with
    | one => simp; omega
    | cons k v w kt w1 w2 t w' m t' hw hk hw1 hw2 ht hw' hm => have := ih hm; simp; omega

theorem readTop_elems {F : FloatCodec} {l : List Val} {t : Bytes} (h : Elems F l t) (n : Nat) (i : Int) (r : Bytes)
    (hn : l.length ≤ n) : ∃ e st, readBody F .array i (t ++ 93 :: r) = .entry e st ∧
      e :: (readLoop F .array n st).1 = indexed i l ∧ (readLoop F .array n st).2 = .eof := by
  induction l generalizing t n i with
  | nil => cases h
  | cons v l ih =>
    cases h with
    | one _ w t w' hw ht hw' =>
      have hr : readValue F (fuelFor (w ++ (t ++ (w' ++ 93 :: r)))) (w ++ (t ++ (w' ++ 93 :: r))) = .ok v (w' ++ 93 :: r) := by
        rw [readValue_ws hw _ _ _ (by unfold fuelFor; omega)]
        exact readValue_text ht _ _ (by unfold fuelFor; simp; omega) (numEnd_ws hw' (by decide) _)
      refine ⟨{ index := i, value := v }, ⟨true, i + 1, w' ++ 93 :: r⟩, ?_, ?_⟩
      · rw [List.append_assoc, List.append_assoc]; simp only [readBody, hr]
      · cases n with
        | zero => simp at hn
        | succ n =>
          simp [readLoop, readEntry, closeCh, token_ws hw', token_self (show isWhitespace 93 = false by decide), indexed]
    | cons _ w t w' _ t' hw ht hw' hl =>
      have hr : readValue F (fuelFor (w ++ (t ++ (w' ++ 44 :: (t' ++ 93 :: r))))) (w ++ (t ++ (w' ++ 44 :: (t' ++ 93 :: r)))) =
          .ok v (w' ++ 44 :: (t' ++ 93 :: r)) := by
        rw [readValue_ws hw _ _ _ (by unfold fuelFor; omega)]
        exact readValue_text ht _ _ (by unfold fuelFor; simp; omega) (numEnd_ws hw' (by decide) _)
      refine ⟨{ index := i, value := v }, ⟨true, i + 1, w' ++ 44 :: (t' ++ 93 :: r)⟩, ?_, ?_⟩
      · rw [show w ++ (t ++ (w' ++ 44 :: t')) ++ 93 :: r = w ++ (t ++ (w' ++ 44 :: (t' ++ 93 :: r))) by simp]
        simp only [readBody, hr]
      · cases n with
        | zero => simp at hn
        | succ n =>
          obtain ⟨e, st, h1, h2, h3⟩ := ih hl n (i + 1) (by simpa using hn)
          simp only [readLoop, readEntry, closeCh, token_ws hw', if_true,
            token_self (show isWhitespace 44 = false by decide),
            token_ne (show isWhitespace 44 = false by decide) (show (44 : UInt8) ≠ 93 by decide), h1, h2, h3, indexed]
          simp

theorem readTop_members {F : FloatCodec} {m : List (Bytes × Val)} {t : Bytes} (h : Members F m t) (n : Nat) (i : Int)
    (r : Bytes) (hn : m.length ≤ n) : ∃ e st, readBody F .object i (t ++ 125 :: r) = .entry e st ∧
      e :: (readLoop F .object n st).1 = keyed m ∧ (readLoop F .object n st).2 = .eof := by
  induction m generalizing t n i with
  | nil => cases h
  | cons kv m ih =>
    obtain ⟨k, v⟩ := kv
    have key : ∀ (f : Nat) (w kt w1 w2 t x : Bytes), WS w → StrBody k kt → WS w1 → WS w2 → Text F v t → NumEnd x →
        2 * t.length + 2 ≤ f →
        readPair F f (w ++ 34 :: (kt ++ 34 :: (w1 ++ 58 :: (w2 ++ (t ++ x))))) = .ok (k, v) x := by
      intro f w kt w1 w2 t x hw hk hw1 hw2 ht hx hf
      cases f with
      | zero => omega
      | succ f =>
        have hs : readString (34 :: (kt ++ 34 :: (w1 ++ 58 :: (w2 ++ (t ++ x))))) =
            .ok k (w1 ++ 58 :: (w2 ++ (t ++ x))) := by
          simp only [readString, skipWS_cons (show isWhitespace 34 = false by decide), if_true, readStringBody_text hk]
        simp only [readPair, readString_ws hw, hs, token_ws hw1, token_self (show isWhitespace 58 = false by decide)]
        rw [readValue_ws hw2 _ _ _ (by omega), readValue_text ht f _ (by omega) hx]
    cases h with
    | one _ _ w kt w1 w2 t w' hw hk hw1 hw2 ht hw' =>
      have hr := key (fuelFor (w ++ 34 :: (kt ++ 34 :: (w1 ++ 58 :: (w2 ++ (t ++ (w' ++ 125 :: r))))))) w kt w1 w2 t
        (w' ++ 125 :: r) hw hk hw1 hw2 ht (numEnd_ws hw' (by decide) _) (by unfold fuelFor; simp; omega)
      refine ⟨{ key := k, value := v }, ⟨true, i + 1, w' ++ 125 :: r⟩, ?_, ?_⟩
      · rw [show w ++ 34 :: (kt ++ 34 :: (w1 ++ 58 :: (w2 ++ (t ++ w')))) ++ 125 :: r =
          w ++ 34 :: (kt ++ 34 :: (w1 ++ 58 :: (w2 ++ (t ++ (w' ++ 125 :: r))))) by simp]
        simp only [readBody, hr]
      · cases n with
        | zero => simp at hn
        | succ n =>
          simp [readLoop, readEntry, closeCh, token_ws hw', token_self (show isWhitespace 125 = false by decide), keyed]
    | cons _ _ w kt w1 w2 t w' _ t' hw hk hw1 hw2 ht hw' hm =>
      have hr := key (fuelFor (w ++ 34 :: (kt ++ 34 :: (w1 ++ 58 :: (w2 ++ (t ++ (w' ++ 44 :: (t' ++ 125 :: r)))))))) w kt w1 w2 t
        (w' ++ 44 :: (t' ++ 125 :: r)) hw hk hw1 hw2 ht (numEnd_ws hw' (by decide) _) (by unfold fuelFor; simp; omega)
      refine ⟨{ key := k, value := v }, ⟨true, i + 1, w' ++ 44 :: (t' ++ 125 :: r)⟩, ?_, ?_⟩
      · rw [show w ++ 34 :: (kt ++ 34 :: (w1 ++ 58 :: (w2 ++ (t ++ (w' ++ 44 :: t'))))) ++ 125 :: r =
          w ++ 34 :: (kt ++ 34 :: (w1 ++ 58 :: (w2 ++ (t ++ (w' ++ 44 :: (t' ++ 125 :: r)))))) by simp]
        simp only [readBody, hr]
      · cases n with
        | zero => simp at hn
        | succ n =>
          obtain ⟨e, st, h1, h2, h3⟩ := ih hm n (i + 1) (by simpa using hn)
          simp only [readLoop, readEntry, closeCh, token_ws hw', if_true,
            token_self (show isWhitespace 44 = false by decide),
            token_ne (show isWhitespace 44 = false by decide) (show (44 : UInt8) ≠ 125 by decide), h1, h2, h3]
          simp [keyed]

theorem readAll_elems {F : FloatCodec} {l : List Val} {t w : Bytes} (hw : WS w) (h : Elems F l t) (r : Bytes) :
    readAll F .array (w ++ 91 :: (t ++ 93 :: r)) = (indexed 0 l, .eof) := by
  have hlen := elems_length h
  obtain ⟨w', c, t', hw', ht', h1, h2⟩ := elems_head h
  have hnone : token 93 (t ++ 93 :: r) = none := by
    rw [ht', List.append_assoc, token_ws hw']; exact token_ne h1 h2 _
  have hL : (w ++ 91 :: (t ++ 93 :: r)).length = w.length + t.length + r.length + 2 := by simp; omega
  obtain ⟨e, st, h3, h4, h5⟩ := readTop_elems h (w ++ 91 :: (t ++ 93 :: r)).length 0 r (by omega)
  simp only [readAll, readLoop, readEntry, openCh, closeCh, Bool.false_eq_true, if_false, token_ws hw,
    token_self (show isWhitespace 91 = false by decide), hnone, h3, h4, h5]

theorem readAll_arr0 (F : FloatCodec) {w w' : Bytes} (hw : WS w) (hw' : WS w') (r : Bytes) :
    readAll F .array (w ++ 91 :: (w' ++ 93 :: r)) = ([], .eof) := by
  simp only [readAll, readLoop, readEntry, openCh, closeCh, Bool.false_eq_true, if_false, token_ws hw, token_ws hw',
    token_self (show isWhitespace 91 = false by decide), token_self (show isWhitespace 93 = false by decide)]

theorem readAll_members {F : FloatCodec} {m : List (Bytes × Val)} {t w : Bytes} (hw : WS w) (h : Members F m t) (r : Bytes) :
    readAll F .object (w ++ 123 :: (t ++ 125 :: r)) = (keyed m, .eof) := by
  have hlen := members_length h
  obtain ⟨w', t', hw', ht'⟩ := members_head h
  have hnone : token 125 (t ++ 125 :: r) = none := by
    rw [ht', List.append_assoc, token_ws hw']; exact token_ne (by decide) (by decide) _
  have hL : (w ++ 123 :: (t ++ 125 :: r)).length = w.length + t.length + r.length + 2 := by simp; omega
  obtain ⟨e, st, h3, h4, h5⟩ := readTop_members h (w ++ 123 :: (t ++ 125 :: r)).length 0 r (by omega)
  simp only [readAll, readLoop, readEntry, openCh, closeCh, Bool.false_eq_true, if_false, token_ws hw,
    token_self (show isWhitespace 123 = false by decide), hnone, h3, h4, h5]

theorem readAll_obj0 (F : FloatCodec) {w w' : Bytes} (hw : WS w) (hw' : WS w') (r : Bytes) :
    readAll F .object (w ++ 123 :: (w' ++ 125 :: r)) = ([], .eof) := by
  simp only [readAll, readLoop, readEntry, openCh, closeCh, Bool.false_eq_true, if_false, token_ws hw, token_ws hw',
    token_self (show isWhitespace 123 = false by decide), token_self (show isWhitespace 125 = false by decide)]

/-! ### The writer -/

/-- line break of the pretty writer -/
def nl (indent : Bytes) : Bytes := if indent = [] then [] else [10]

theorem ws_nl (indent : Bytes) : WS (nl indent) := by
  unfold nl; split
  · exact ws_nil
  · exact ws_cons (by decide) ws_nil

/-- bytes of one entry -/
def entryText (F : FloatCodec) (tl : TopLevel) (indent : Bytes) (e : Entry) : Bytes :=
  match tl with
  | .array => marshal F indent e.value
  | .object => marshal F indent (.str e.key) ++ 58 :: marshal F indent e.value

/-- bytes after the first row -/
def tailText (F : FloatCodec) (tl : TopLevel) (indent : Bytes) : List Entry → Bytes
  | [] => []
  | e :: es => 44 :: (nl indent ++ (entryText F tl indent e ++ tailText F tl indent es))

theorem valBytes_ok {F : FloatCodec} {tl : TopLevel} {indent : Bytes} {keys : List Bytes} {e : Entry} {d : Bytes}
    {keys' : List Bytes} (h : valBytes F tl indent keys e = (.ok d, keys')) :
    d = entryText F tl indent e ∧ jsonOK e.value = true := by
  cases tl with
  | array =>
    simp only [valBytes] at h
    injection h with h _
    split at h
    · rename_i hj; injection h with h; exact ⟨h.symm, hj⟩
    · simp at h
  | object =>
    simp only [valBytes] at h
    split at h
    · simp at h
    · split at h
      · simp at h
      · injection h with h _
        split at h
        · rename_i hj; injection h with h; exact ⟨h.symm, hj⟩
        · simp at h

theorem writeEntry_cases (F : FloatCodec) (tl : TopLevel) (indent : Bytes) (e : Entry) (w : WState) :
    (∃ keys, writeEntry F tl indent e w = (.ok (), ⟨w.rowsWritten + 1, keys,
      w.out ++ opening tl w.rowsWritten ++ separator indent w.rowsWritten ++ entryText F tl indent e⟩) ∧ jsonOK e.value = true) ∨
    (∃ x keys, writeEntry F tl indent e w = (.error x, ⟨w.rowsWritten + 1, keys, w.out ++ opening tl w.rowsWritten⟩)) := by
  unfold writeEntry
  split
  · rename_i d keys h; left; have := valBytes_ok h; exact ⟨keys, by rw [this.1], this.2⟩
  · rename_i x keys h; right; exact ⟨x, keys, rfl⟩

theorem writeLoop_tail (F : FloatCodec) (tl : TopLevel) (indent : Bytes) (es : List Entry) (w : WState)
    (hw : w.rowsWritten ≠ 0) :
    (writeLoop F tl indent es w).2.out = w.out ++ tailText F tl indent (accepted es (writeLoop F tl indent es w).1) ∧
    (writeLoop F tl indent es w).2.rowsWritten ≠ 0 ∧
    (∀ e ∈ accepted es (writeLoop F tl indent es w).1, jsonOK e.value = true) := by
  induction es generalizing w with
  | nil => simp [writeLoop, accepted, tailText, hw]
  | cons e es ih =>
    simp only [writeLoop]
    rcases writeEntry_cases F tl indent e w with ⟨keys, h, hj⟩ | ⟨x, keys, h⟩
    · rw [h]
      obtain ⟨h1, h2, h3⟩ := ih ⟨w.rowsWritten + 1, keys,
        w.out ++ opening tl w.rowsWritten ++ separator indent w.rowsWritten ++ entryText F tl indent e⟩ (by simp)
      refine ⟨?_, h2, ?_⟩
      · rw [h1]
        simp [accepted, tailText, opening, separator, hw, nl]
      · intro e' he'
        simp only [accepted, List.zip_cons_cons, List.filter_cons_of_pos, List.map_cons, List.mem_cons] at he'
        rcases he' with rfl | he'
        · exact hj
        · exact h3 e' he'
    · rw [h]
      obtain ⟨h1, h2, h3⟩ := ih ⟨w.rowsWritten + 1, keys, w.out ++ opening tl w.rowsWritten⟩ (by simp)
      refine ⟨?_, h2, ?_⟩
      · rw [h1]
        simp [accepted, opening, hw]
      · intro e' he'
        exact h3 e' (by simpa [accepted] using he')

/-- the output when the first write succeeded (or there was none) -/
theorem writeAll_text (F : FloatCodec) (tl : TopLevel) (indent : Bytes) (es : List Entry)
    (hfirst : ∀ x, (writeAll F tl indent es).1.head? ≠ some (.error x)) :
    (es = [] ∧ (writeAll F tl indent es).2 = [openCh tl, closeCh tl]) ∨
    ∃ e acc, accepted es (writeAll F tl indent es).1 = e :: acc ∧
      (∀ e' ∈ e :: acc, jsonOK e'.value = true) ∧
      (writeAll F tl indent es).2 =
        openCh tl :: (nl indent ++ (entryText F tl indent e ++ tailText F tl indent acc) ++ nl indent ++ [closeCh tl]) := by
  cases es with
  | nil => left; simp [writeAll, writeLoop, close]
  | cons e es =>
    right
    simp only [writeAll, writeLoop] at hfirst ⊢
    rcases writeEntry_cases F tl indent e {} with ⟨keys, h, hj⟩ | ⟨x, keys, h⟩
    · rw [h] at hfirst ⊢
      obtain ⟨h1, h2, h3⟩ := writeLoop_tail F tl indent es ⟨0 + 1, keys,
        [] ++ opening tl 0 ++ separator indent 0 ++ entryText F tl indent e⟩ (by simp)
      refine ⟨e, accepted es _, by simp only [accepted, List.zip_cons_cons, List.filter_cons_of_pos, List.map_cons]; rfl, ?_, ?_⟩
      · intro e' he'
        simp only [List.mem_cons] at he'
        rcases he' with rfl | he'
        · exact hj
        · exact h3 e' he'
      · simp only [close, if_neg h2, h1]
        simp [opening, separator, nl]
    · rw [h] at hfirst
      exact absurd rfl (hfirst x)

theorem marshal_text {F : FloatCodec} {indent : Bytes} (hi : WS indent) {v : Val} (h : Writable F v) :
    ∃ w t, WS w ∧ Text F (norm F v) t ∧ marshal F indent v = w ++ t := by
  unfold marshal
  split
  · exact ⟨[], _, ws_nil, enc_text F v h, rfl⟩
  · exact ⟨indent, _, hi, encP_text F hi hi v 0 h, rfl⟩

theorem marshal_key {F : FloatCodec} {indent : Bytes} (hi : WS indent) (k : Bytes) :
    ∃ w t, WS w ∧ StrBody (toValidUtf8 0 k) t ∧ marshal F indent (.str k) = w ++ 34 :: (t ++ [34]) := by
  unfold marshal
  split
  · exact ⟨[], _, ws_nil, escBody_body k, rfl⟩
  · exact ⟨indent, _, hi, escBody_body k, by simp [encP, enc, jsonStr]⟩

theorem arrayText_elems {F : FloatCodec} {indent : Bytes} (hi : WS indent) (e : Entry) (es : List Entry)
    (h : ∀ e' ∈ e :: es, Writable F e'.value) :
    Elems F (normL F ((e :: es).map Entry.value))
      (nl indent ++ (entryText F .array indent e ++ tailText F .array indent es) ++ nl indent) := by
  induction es generalizing e with
  | nil =>
    obtain ⟨w, t, hw, ht, he⟩ := marshal_text hi (h e (by simp))
    simpa [entryText, tailText, he, normL] using
      Elems.one _ (nl indent ++ w) t (nl indent) (ws_append (ws_nl _) hw) ht (ws_nl _)
  | cons e' es ih =>
    obtain ⟨w, t, hw, ht, he⟩ := marshal_text hi (h e (by simp))
    have := ih e' (fun x hx => h x (List.mem_cons_of_mem _ hx))
    simpa [entryText, tailText, he, normL] using
      Elems.cons _ (nl indent ++ w) t [] _ _ (ws_append (ws_nl _) hw) ht ws_nil this

theorem objectText_members {F : FloatCodec} {indent : Bytes} (hi : WS indent) (e : Entry) (es : List Entry)
    (h : ∀ e' ∈ e :: es, Writable F e'.value) :
    Members F (normMembers F (e :: es))
      (nl indent ++ (entryText F .object indent e ++ tailText F .object indent es) ++ nl indent) := by
  induction es generalizing e with
  | nil =>
    obtain ⟨w, t, hw, ht, he⟩ := marshal_text hi (h e (by simp))
    obtain ⟨wk, kt, hwk, hkt, hke⟩ := marshal_key (F := F) hi e.key
    simpa [entryText, tailText, he, hke, normMembers] using
      Members.one _ _ (nl indent ++ wk) kt [] w t (nl indent) (ws_append (ws_nl _) hwk) hkt ws_nil hw ht (ws_nl _)
  | cons e' es ih =>
    obtain ⟨w, t, hw, ht, he⟩ := marshal_text hi (h e (by simp))
    obtain ⟨wk, kt, hwk, hkt, hke⟩ := marshal_key (F := F) hi e.key
    have := ih e' (fun x hx => h x (List.mem_cons_of_mem _ hx))
    simpa [entryText, tailText, he, hke, normMembers] using
      Members.cons _ _ (nl indent ++ wk) kt [] w t [] _ _ (ws_append (ws_nl _) hwk) hkt ws_nil hw ht ws_nil this

end Verif.Json
