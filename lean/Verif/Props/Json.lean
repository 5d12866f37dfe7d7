import Verif.Lemmas.JsonMain
/-
Properties C16, C17, C19, C51, C52: the JSON body reader and writer.

`F` is the float/text conversion of `strconv`; every theorem holds for any such conversion.
`indent` is the configured pretty-print indent (empty for compact output).
-/
namespace Verif.Json
open JsonG

/-- a float codec for the examples: knows 0.5 only -/
def exF : FloatCodec :=
  { fmt := fun _ => b!"0.5", parse := fun s => if s = b!"0.5" then some 0x3FE0000000000000 else none }

/-! ## C16 – round trip -/

/-- C16 (arrays): all writes succeed and reading the output returns the same values in order,
numbered from 0, then end-of-file. -/
theorem C16_array_roundtrip (F : FloatCodec) (indent : Bytes) (hi : WS indent) (es : List Entry)
    (hs : ∀ e ∈ es, Supported F e.value) :
    (∀ r ∈ (writeAll F .array indent es).1, r = .ok ()) ∧
    readAll F .array (writeAll F .array indent es).2 = (indexed 0 (es.map Entry.value), .eof) := by
  have hW : ∀ e ∈ es, Writable F e.value := fun e he => (writable_supported F _ (hs e he)).1
  have hok : (writeAll F .array indent es).1 = es.map fun _ => .ok () :=
    writeLoop_array_ok F indent es (fun e he => jsonOK_writable F _ (hW e he)) {}
  refine ⟨by rw [hok]; simp, ?_⟩
  have hacc : accepted es (writeAll F .array indent es).1 = es := by rw [hok]; exact accepted_all es
  have hn : normL F (es.map Entry.value) = es.map Entry.value :=
    normL_supported (by simpa using hs)
  rcases writeAll_array_elems hi es (fun e he _ => hW e he) (by rw [hok]; cases es <;> simp) with
    ⟨h1, h2⟩ | ⟨t, h1, h2⟩
  · rw [hacc] at h1; subst h1; rw [h2]; exact readAll_arr0 F ws_nil ws_nil []
  · rw [hacc, hn] at h1; rw [h2]; exact readAll_elems ws_nil h1 []

example : (∀ e ∈ [{ value := .arr [.int 300, .null, .f64 0x3FE0000000000000] },
      { value := .obj [(b!"a", .str b!"x<y\n"), (b!"b", .int (-9223372036854775808))] }],
      Supported exF (e : Entry).value) ∧
    readAll exF .array (writeAll exF .array b!"  " [{ value := .arr [.int 300, .null, .f64 0x3FE0000000000000] },
      { value := .obj [(b!"a", .str b!"x<y\n"), (b!"b", .int (-9223372036854775808))] }]).2
  = ([{ index := 0, value := .arr [.int 300, .null, .f64 0x3FE0000000000000] },
      { index := 1, value := .obj [(b!"a", .str b!"x<y\n"), (b!"b", .int (-9223372036854775808))] }], .eof) := by
  refine ⟨?_, by decide +kernel⟩
  have hf : FloatOK exF 0x3FE0000000000000 :=
    ⟨[], b!"0", b!".5", .inl rfl, .zero, .frac b!"5" (by decide) (by simp [Digits, isDigit]), rfl, rfl⟩
  have v : ∀ c : Nat, c < 128 → ∀ s, ValidUtf8 s → ValidUtf8 (UInt8.ofNat c :: s) := by
    intro c hc s hs
    have := ValidUtf8.cons c s (by unfold ValidRune; omega) hs
    simpa [utf8Enc, hc] using this
  simp only [List.mem_cons, List.not_mem_nil, or_false, forall_eq_or_imp, forall_eq]
  refine ⟨?_, ?_⟩
  · simp only [Supported, SupportedL, hf, IsInt64]; decide
  · simp only [Supported, SupportedF, IsInt64]
    refine ⟨by simp [KeysSorted]; decide, v 97 (by omega) _ .nil, ?_, v 98 (by omega) _ .nil, by decide, trivial⟩
    exact v 120 (by omega) _ (v 60 (by omega) _ (v 121 (by omega) _ (v 10 (by omega) _ .nil)))

/-- C16 (objects): with distinct non-empty keys all writes succeed and reading the output
returns the same keys and values in the order they were written. -/
theorem C16_object_roundtrip (F : FloatCodec) (indent : Bytes) (hi : WS indent) (es : List Entry)
    (hs : ∀ e ∈ es, Supported F e.value) (hk : ∀ e ∈ es, e.key ≠ [] ∧ ValidUtf8 e.key)
    (hnd : (es.map (·.key)).Nodup) :
    (∀ r ∈ (writeAll F .object indent es).1, r = .ok ()) ∧
    readAll F .object (writeAll F .object indent es).2 = (keyed (es.map fun e => (e.key, e.value)), .eof) := by
  have hW : ∀ e ∈ es, Writable F e.value := fun e he => (writable_supported F _ (hs e he)).1
  have hok : (writeAll F .object indent es).1 = es.map fun _ => .ok () :=
    writeLoop_object_ok F indent es (fun e he => jsonOK_writable F _ (hW e he)) (fun e he => (hk e he).1) hnd {} (by simp)
  refine ⟨by rw [hok]; simp, ?_⟩
  have hacc : accepted es (writeAll F .object indent es).1 = es := by rw [hok]; exact accepted_all es
  have hn : normMembers F es = es.map fun e => (e.key, e.value) := by
    apply List.map_congr_left
    intro e he
    rw [toValidUtf8_valid (hk e he).2, (writable_supported F _ (hs e he)).2]
  rcases writeAll_object_members hi es (fun e he _ => hW e he) (by rw [hok]; cases es <;> simp) with
    ⟨h1, h2⟩ | ⟨t, h1, h2⟩
  · rw [hacc] at h1; subst h1; rw [h2]; exact readAll_obj0 F ws_nil ws_nil []
  · rw [hacc, hn] at h1; rw [h2]; exact readAll_members ws_nil h1 []

example : readAll exF .object (writeAll exF .object []
    [{ key := b!"b", value := .int 1 }, { key := b!"a", value := .arr [.obj []] }]).2
  = ([{ key := b!"b", value := .int 1 }, { key := b!"a", value := .arr [.obj []] }], .eof) := by decide +kernel

/-- What happens outside the round-trip domain (arrays): every value comes back as the value its
text denotes – byte strings as base64 text, invalid UTF-8 replaced, integral floats as integers. -/
theorem C16_array_normalised (F : FloatCodec) (indent : Bytes) (hi : WS indent) (es : List Entry)
    (hW : ∀ e ∈ es, Writable F e.value) :
    readAll F .array (writeAll F .array indent es).2 = (indexed 0 (normL F (es.map Entry.value)), .eof) := by
  have hok : (writeAll F .array indent es).1 = es.map fun _ => .ok () :=
    writeLoop_array_ok F indent es (fun e he => jsonOK_writable F _ (hW e he)) {}
  have hacc : accepted es (writeAll F .array indent es).1 = es := by rw [hok]; exact accepted_all es
  rcases writeAll_array_elems hi es (fun e he _ => hW e he) (by rw [hok]; cases es <;> simp) with
    ⟨h1, h2⟩ | ⟨t, h1, h2⟩
  · rw [hacc] at h1; subst h1; rw [h2]; exact readAll_arr0 F ws_nil ws_nil []
  · rw [hacc] at h1; rw [h2]; exact readAll_elems ws_nil h1 []

example : readAll exF .array (writeAll exF .array [] [{ value := .bytes [1, 2, 3] }, { value := .str [0xff] },
    { value := .gint 7 }]).2
  = ([{ index := 0, value := .str b!"AQID" }, { index := 1, value := .str [0xef, 0xbf, 0xbd] },
      { index := 2, value := .int 7 }], .eof) := by decide +kernel

/-- The round trip is false for large floats: a float that is printed as plain digits of 2^63 or
more is written without complaint, and the body cannot be read back. -/
theorem C16_large_float_unreadable (F : FloatCodec) (x : UInt64) (hx : floatFinite x = true) (n : Nat)
    (hn : 2^63 ≤ n) (hF : F.fmt x = fmtNat n) :
    writeAll F .array [] [{ value := .f64 x }] = ([.ok ()], 91 :: (fmtNat n ++ [93])) ∧
    readAll F .array (91 :: (fmtNat n ++ [93])) = ([], .err .atoi) := by
  constructor
  · simp [writeAll, writeLoop, writeEntry, valBytes, jsonOK, hx, opening, separator, marshal, enc, hF, close, openCh, closeCh]
  · obtain ⟨c, t, ht, hc⟩ := intPart_ne (fmtNat_intPart n)
    have hdig : ∀ d ∈ fmtNat n, isDigit d = true := fmtNatF_digits _ _
    have hnum : ∀ d ∈ fmtNat n, isNumCh d = true := fun d hd => by simp [isNumCh, hdig d hd]
    have hcw : isWhitespace c = false := notWS_digit hc
    have hc93 : c ≠ 93 := by rintro rfl; exact absurd hc (by decide)
    have htake : (fmtNat n ++ [93]).takeWhile isNumCh = fmtNat n := by
      rw [List.takeWhile_append_of_pos hnum]; simp [isNumCh, isDigit, isFloatCh]
    have hnf : (fmtNat n).any isFloatCh = false := by
      rw [List.any_eq_false]
      intro d hd
      have := (isDigit_iff d).mp (hdig d hd)
      simp only [isFloatCh, Bool.or_eq_true, decide_eq_true_eq]
      rintro (((rfl | rfl) | rfl) | rfl) <;> simp at this
    have hat : atoi (fmtNat n) = none := by
      have hp := parseNat_fmtNat n
      rw [ht] at hp ⊢
      have hd := (isDigit_iff c).mp hc
      have h1 : c ≠ 45 := by rintro rfl; simp at hd
      have h2 : c ≠ 43 := by rintro rfl; simp at hd
      simp only [atoi, h1, h2, or_self, if_false, hp]
      rw [if_neg (by unfold IsInt64; omega)]
    have hrv : readValue F (fuelFor (fmtNat n ++ [93])) (fmtNat n ++ [93]) =
        .err .atoi ((fmtNat n ++ [93]).dropWhile isNumCh) := by
      have hcn : c ≠ 110 ∧ c ≠ 116 ∧ c ≠ 102 ∧ c ≠ 34 := by
        have hd := (isDigit_iff c).mp hc
        refine ⟨?_, ?_, ?_, ?_⟩ <;> (rintro rfl; simp at hd)
      have : readNumber F (fmtNat n ++ [93]) = .err .atoi ((fmtNat n ++ [93]).dropWhile isNumCh) := by
        simp only [readNumber, convNumber, htake, hnf, hat, Bool.false_eq_true, if_false]
      rw [← this, ht, List.cons_append]
      unfold fuelFor
      simp only [readValue, skipWS_cons hcw, hcn, if_false, hc, or_true, if_true]
    simp only [readAll, readLoop, readEntry, openCh, closeCh, Bool.false_eq_true, if_false,
      token_self (show isWhitespace 91 = false by decide)]
    have : token 93 (fmtNat n ++ [93]) = none := by rw [ht, List.cons_append]; exact token_ne hcw hc93 _
    rw [this]
    simp only [readBody, hrv]

example : readAll exF .array (b!"[100000000000000000000]") = ([], .err .atoi) := by decide +kernel

/-! ## C17 – the writer's output is one well-formed container -/

/-- C17.  Unless the very first write is rejected, the output is a JSON array (object) of exactly the
accepted entries, whatever is rejected later on. -/
theorem C17_output_wellformed (F : FloatCodec) (tl : TopLevel) (indent : Bytes) (hi : WS indent)
    (es : List Entry) (hW : ∀ e ∈ es, jsonOK e.value = true → Writable F e.value)
    (hfirst : ∀ x, (writeAll F tl indent es).1.head? ≠ some (.error x)) :
    Doc F (denotes F tl (accepted es (writeAll F tl indent es).1)) (writeAll F tl indent es).2 := by
  refine ⟨[], (writeAll F tl indent es).2, [], ws_nil, ?_, ws_nil, by simp⟩
  cases tl with
  | array =>
    rcases writeAll_array_elems hi es hW hfirst with ⟨h1, h2⟩ | ⟨t, h1, h2⟩
    · rw [h1, h2]; exact Text.arr0 [] ws_nil
    · rw [h2]; exact Text.arr _ t h1
  | object =>
    rcases writeAll_object_members hi es hW hfirst with ⟨h1, h2⟩ | ⟨t, h1, h2⟩
    · rw [h1, h2]; exact Text.obj0 [] ws_nil
    · rw [h2]; exact Text.obj _ t h1

/-- in the middle a duplicate key, an empty key and a NaN are rejected -/
example : writeAll exF .object [] [{ key := b!"a", value := .int 1 }, { key := b!"a", value := .int 2 },
    { key := [], value := .int 2 }, { key := b!"n", value := .f64 0x7FF8000000000000 }, { key := b!"b", value := .null }]
  = ([.ok (), .error .dupKey, .error .emptyKey, .error .marshal, .ok ()], b!"{\"a\":1,\"b\":null}") := rfl

/-- After a rejected first write the output is an empty container if nothing is accepted, and otherwise,
whatever follows, not the JSON text of anything. -/
theorem C17_first_rejected_malformed (F : FloatCodec) (tl : TopLevel) (indent : Bytes) (es : List Entry) (x : WErr)
    (hfirst : (writeAll F tl indent es).1.head? = some (.error x)) :
    (accepted es (writeAll F tl indent es).1 = [] → Doc F (denotes F tl []) (writeAll F tl indent es).2) ∧
    (accepted es (writeAll F tl indent es).1 ≠ [] → ∀ v, ¬ Doc F v (writeAll F tl indent es).2) := by
  cases es with
  | nil => simp [writeAll, writeLoop] at hfirst
  | cons e es =>
    simp only [writeAll, writeLoop] at hfirst ⊢
    rcases writeEntry_cases F tl indent e {} with ⟨keys, h, hj⟩ | ⟨y, keys, h⟩
    · rw [h] at hfirst; simp at hfirst
    · rw [h]
      obtain ⟨h1, h2, h3⟩ := writeLoop_tail F tl indent es ⟨0 + 1, keys, [] ++ opening tl 0⟩ (by simp)
      have hacc : accepted (e :: es) (.error y :: (writeLoop F tl indent es ⟨0 + 1, keys, [] ++ opening tl 0⟩).1) =
          accepted es (writeLoop F tl indent es ⟨0 + 1, keys, [] ++ opening tl 0⟩).1 := by simp [accepted]
      have hc : close tl indent (writeLoop F tl indent es ⟨0 + 1, keys, [] ++ opening tl 0⟩).2 =
          openCh tl :: (tailText F tl indent (accepted es (writeLoop F tl indent es ⟨0 + 1, keys, [] ++ opening tl 0⟩).1) ++
            (nl indent ++ [closeCh tl])) := by
        simp only [close, if_neg h2, h1]
        simp [opening, nl]
      change (accepted (e :: es) (.error y :: (writeLoop F tl indent es ⟨0 + 1, keys, [] ++ opening tl 0⟩).1) = [] → Doc F _
          (close tl indent (writeLoop F tl indent es ⟨0 + 1, keys, [] ++ opening tl 0⟩).2)) ∧
        (accepted (e :: es) (.error y :: (writeLoop F tl indent es ⟨0 + 1, keys, [] ++ opening tl 0⟩).1) ≠ [] → ∀ v, ¬ Doc F v
          (close tl indent (writeLoop F tl indent es ⟨0 + 1, keys, [] ++ opening tl 0⟩).2))
      rw [hacc, hc]
      constructor
      · intro ha
        rw [ha]
        refine ⟨[], _, [], ws_nil, ?_, ws_nil, by simp only [List.nil_append, List.append_nil]; rfl⟩
        cases tl with
        | array => exact Text.arr0 (nl indent) (ws_nl indent)
        | object => exact Text.obj0 (nl indent) (ws_nl indent)
      · intro ha v
        cases hx : accepted es (writeLoop F tl indent es ⟨0 + 1, keys, [] ++ opening tl 0⟩).1 with
        | nil => exact absurd hx ha
        | cons a acc =>
          rw [tailText, List.cons_append]
          exact comma_not_doc F v _ (by cases tl <;> simp [openCh]) _

/-- writing NaN (an error) and then 1 (accepted) yields `[,1]` -/
example : writeAll exF .array [] [{ value := .f64 0x7FF8000000000000 }, { value := .int 1 }] = ([.error .marshal, .ok ()], b!"[,1]") := rfl

/-! ## C19 – clean end-of-file means everything was delivered -/

/-- C19 is false: this body holds two elements, a nested array with an oversized number and the
number 6.  The reader returns an empty array, then 5, then a clean end-of-file; 6 is lost. -/
theorem C19_silent_loss (F : FloatCodec) :
    readAll F .array b!"[[99999999999999999999,5],6]" =
      ([{ index := 0, value := .arr [] }, { index := 1, value := .int 5 }], .eof) := rfl

/-- A surrogate pair escape, the RFC's way to write a character outside the basic plane (here U+1F600),
comes out as two question marks, without an error. -/
theorem C19_surrogate_pair_lost (F : FloatCodec) :
    readAll F .array b!"[\"\\ud83d\\ude00\"]" = ([{ index := 0, value := .str b!"??" }], .eof) := rfl

/-- C19: every element of every well-formed array document whose integers fit 64 bits is delivered, in
order (any whitespace, any escapes but surrogate pairs). -/
theorem C19_array_delivered (F : FloatCodec) (l : List Val) (s : Bytes) (h : Doc F (.arr l) s) :
    readAll F .array s = (indexed 0 l, .eof) := by
  obtain ⟨w, t, w', hw, ht, hw', rfl⟩ := h
  rcases text_arr ht with ⟨rfl, w1, h1, rfl⟩ | ⟨u, hu, rfl⟩
  · simpa [indexed] using readAll_arr0 F hw h1 w'
  · simpa using readAll_elems hw hu w'

example : readAll exF .array b!" [ \"\\u00e9\\/\" ,\t[1 , -2]\n, 0.5,{\"a\" : null}]" =
    ([{ index := 0, value := .str [0xc3, 0xa9, 47] }, { index := 1, value := .arr [.int 1, .int (-2)] },
      { index := 2, value := .f64 0x3FE0000000000000 }, { index := 3, value := .obj [(b!"a", .null)] }], .eof) := by
  decide +kernel

/-- C19 for object documents: the members are delivered in document order. -/
theorem C19_object_delivered (F : FloatCodec) (m : List (Bytes × Val)) (s : Bytes) (h : Doc F (.obj m) s) :
    ∃ ms, mapOf ms = m ∧ readAll F .object s = (keyed ms, .eof) := by
  obtain ⟨w, t, w', hw, ht, hw', rfl⟩ := h
  rcases text_obj ht with ⟨rfl, w1, h1, rfl⟩ | ⟨ms, u, rfl, hu, rfl⟩
  · exact ⟨[], rfl, by simpa [keyed] using readAll_obj0 F hw h1 w'⟩
  · exact ⟨ms, rfl, by simpa using readAll_members hw hu w'⟩

example : readAll exF .object b!"{ \"b\":1, \"a\" : [true] } " =
    ([{ key := b!"b", value := .int 1 }, { key := b!"a", value := .arr [.bool true] }], .eof) := by decide +kernel

/-! ## C51 – reading is total -/

/-- C51: on every byte input, well-formed or not, calling `ReadEntry` repeatedly ends after at
most one entry per input byte, with end-of-file or a proper error. -/
theorem C51_reader_total (F : FloatCodec) (tl : TopLevel) (s : Bytes) :
    (readAll F tl s).1.length ≤ s.length ∧
      ((readAll F tl s).2 = .eof ∨ ∃ e, e ≠ .fuel ∧ (readAll F tl s).2 = .err e) := by
  have h := tot_readLoop F tl (s.length + 1) { rest := s } (by simp)
  refine ⟨h.1, ?_⟩
  have h2 := h.2
  change (readAll F tl s).2 ≠ _ ∧ (readAll F tl s).2 ≠ _ at h2
  cases h3 : (readAll F tl s).2 with
  | eof => left; rfl
  | err e => right; exact ⟨e, by rintro rfl; exact h2.2 h3, rfl⟩
  | outOfCalls => exact absurd h3 h2.1

example : readAll exF .array b!"[1,]]" = ([{ index := 0, value := .int 1 }, { index := 1, value := .null }], .eof) ∧
    readAll exF .array b!"[1 2" = ([{ index := 0, value := .int 1 }], .err .separator) := by
  decide +kernel

/-! ## C52 – truncation is noticed -/

/-- C52 (arrays): if a JSON document is cut anywhere before its closing bracket, reading what is left does
not end in a clean end-of-file. -/
theorem C52_array_truncation (F : FloatCodec) (l : List Val) (w t : Bytes) (hw : WS w) (ht : Text F (.arr l) t)
    (p q : Bytes) (e : w ++ t = p ++ q) (hq : q ≠ []) :
    ∃ x, (readAll F .array p).2 = .err x := by
  have h := readAll_array_cut hw ht e hq
  rcases (C51_reader_total F .array p).2 with h' | ⟨x, _, h'⟩
  · exact absurd h' h
  · exact ⟨x, h'⟩

/-- C52 (objects) -/
theorem C52_object_truncation (F : FloatCodec) (m : List (Bytes × Val)) (w t : Bytes) (hw : WS w) (ht : Text F (.obj m) t)
    (p q : Bytes) (e : w ++ t = p ++ q) (hq : q ≠ []) :
    ∃ x, (readAll F .object p).2 = .err x := by
  have h := readAll_object_cut hw ht e hq
  rcases (C51_reader_total F .object p).2 with h' | ⟨x, _, h'⟩
  · exact absurd h' h
  · exact ⟨x, h'⟩

/-- C52 (writer output): no proper prefix of a written array body reads cleanly. -/
theorem C52_written_array_truncation (F : FloatCodec) (indent : Bytes) (hi : WS indent) (es : List Entry)
    (hW : ∀ e ∈ es, Writable F e.value) (p q : Bytes) (e : (writeAll F .array indent es).2 = p ++ q) (hq : q ≠ []) :
    ∃ x, (readAll F .array p).2 = .err x := by
  have hok : (writeAll F .array indent es).1 = es.map fun _ => .ok () :=
    writeLoop_array_ok F indent es (fun e he => jsonOK_writable F _ (hW e he)) {}
  rcases writeAll_array_elems hi es (fun e he _ => hW e he) (by rw [hok]; cases es <;> simp) with
    ⟨-, h2⟩ | ⟨t, h1, h2⟩
  · exact C52_array_truncation F [] [] _ ws_nil (Text.arr0 [] ws_nil) p q (by rw [h2] at e; simpa using e) hq
  · exact C52_array_truncation F _ [] _ ws_nil (Text.arr _ t h1) p q (by rw [h2] at e; simpa using e) hq

example : ∀ n ∈ List.range 12, (readAll exF .array (b!"[[1,{}],\"a\"]".take n)).2 ≠ .eof := by decide +kernel

end Verif.Json
