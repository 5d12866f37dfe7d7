import Verif.Lemmas.JsonBufTop
import Verif.Props.Json
/-
C18: what a JSON reader delivers, for every size of its buffer and every way its bytes arrive.
-/
set_option autoImplicit false
namespace Verif.JsonBuf
open Json JsonG

/-- an environment for examples -/
def exE : Env := ⟨fun _ => 0⟩

/-- C18: as long as nothing is wrong with the text, the size of the buffer and the portions in which the bytes arrive do not matter:
the reader delivers the entries before the first error, and reports the end of the body if there is none. -/
theorem C18_clean (F : FloatCodec) (E : Env) (tl : TopLevel) (size : Nat) (reads : List Nat) (s : Bytes) :
    (JsonClean.body F tl s).1 <+: (readAll F E tl size reads s).1 ∧
      ((JsonClean.body F tl s).2 = true → readAll F E tl size reads s = ((JsonClean.body F tl s).1, .eof)) :=
  readAll_clean F E tl size reads s

example : JsonClean.body exF .array b!"[ \"a\\u00e9b\" , {\"k\":[1,,true]} ,\n nul" =
    ([{ index := 0, value := .str [97, 0xc3, 0xa9, 98] },
      { index := 1, value := .obj [(b!"k", .arr [.int 1, .null, .bool true])] }], false) ∧
    readAll exF exE .array 16 [0, 3, 1] b!"[ \"a\\u00e9b\" , {\"k\":[1,,true]} ,\n nul" =
      ([{ index := 0, value := .str [97, 0xc3, 0xa9, 98] },
        { index := 1, value := .obj [(b!"k", .arr [.int 1, .null, .bool true])] }], .err .null) := by decide +kernel

example : JsonClean.body exF .object b!"{\"b\":\"0123456789012345678901\", \"a\": 0.5 }" =
    ([{ key := b!"b", value := .str b!"0123456789012345678901" }, { key := b!"a", value := .f64 0x3FE0000000000000 }], true) := by
  decide +kernel

/-- C18: every well-formed array document whose integers fit 64 bits is read in full, whatever the buffer and the portions. -/
theorem C18_array_delivered (F : FloatCodec) (E : Env) (size : Nat) (reads : List Nat) (l : List Val) (s : Bytes)
    (h : Doc F (.arr l) s) : readAll F E .array size reads s = (indexed 0 l, .eof) := by
  obtain ⟨w, t, w', hw, ht, hw', rfl⟩ := h
  rcases text_arr ht with ⟨rfl, w1, h1, rfl⟩ | ⟨u, hu, rfl⟩
  · have hb := body_arr0 F hw h1 w'
    have := (readAll_clean F E .array size reads (w ++ 91 :: (w1 ++ 93 :: w'))).2 (by rw [hb])
    rw [hb] at this; simpa [indexed] using this
  · have hb := body_elems hw hu w'
    have := (readAll_clean F E .array size reads (w ++ 91 :: (u ++ 93 :: w'))).2 (by rw [hb])
    rw [hb] at this; simpa using this

example : readAll exF exE .array 16 [2, 0, 0, 7, 1] b!" [ \"\\u00e9\\/\" ,\t[1 , -2]\n, 0.5,{\"a\" : null}]" =
    ([{ index := 0, value := .str [0xc3, 0xa9, 47] }, { index := 1, value := .arr [.int 1, .int (-2)] },
      { index := 2, value := .f64 0x3FE0000000000000 }, { index := 3, value := .obj [(b!"a", .null)] }], .eof) := by
  decide +kernel

/-- C18 for object documents. -/
theorem C18_object_delivered (F : FloatCodec) (E : Env) (size : Nat) (reads : List Nat) (m : List (Bytes × Val)) (s : Bytes)
    (h : Doc F (.obj m) s) : ∃ ms, mapOf ms = m ∧ readAll F E .object size reads s = (keyed ms, .eof) := by
  obtain ⟨w, t, w', hw, ht, hw', rfl⟩ := h
  rcases text_obj ht with ⟨rfl, w1, h1, rfl⟩ | ⟨ms, u, rfl, hu, rfl⟩
  · have hb := body_obj0 F hw h1 w'
    have := (readAll_clean F E .object size reads (w ++ 123 :: (w1 ++ 125 :: w'))).2 (by rw [hb])
    rw [hb] at this
    exact ⟨[], rfl, by simpa [keyed] using this⟩
  · have hb := body_members hw hu w'
    have := (readAll_clean F E .object size reads (w ++ 123 :: (u ++ 125 :: w'))).2 (by rw [hb])
    rw [hb] at this
    exact ⟨ms, rfl, by simpa using this⟩

example : readAll exF exE .object 16 [1, 1, 1] b!"{ \"b\":1, \"a\" : [true, \"0123456789\\n\"] } " =
    ([{ key := b!"b", value := .int 1 }, { key := b!"a", value := .arr [.bool true, .str b!"0123456789\n"] }], .eof) := by
  decide +kernel

/-- C18 and C16: what a JSON writer wrote of supported values comes back through every buffer. -/
theorem C18_written_array (F : FloatCodec) (E : Env) (size : Nat) (reads : List Nat) (indent : Bytes) (hi : WS indent)
    (es : List Entry) (hs : ∀ e ∈ es, Supported F e.value) :
    readAll F E .array size reads (writeAll F .array indent es).2 = (indexed 0 (es.map Entry.value), .eof) := by
  have hW : ∀ e ∈ es, Writable F e.value := fun e he => (writable_supported F _ (hs e he)).1
  have hok : (writeAll F .array indent es).1 = es.map fun _ => .ok () :=
    writeLoop_array_ok F indent es (fun e he => jsonOK_writable F _ (hW e he)) {}
  have hd := C17_output_wellformed F .array indent hi es (fun e he _ => hW e he)
    (by rw [hok]; cases es <;> simp)
  rw [hok, accepted_all] at hd
  have hn : normL F (es.map Entry.value) = es.map Entry.value := normL_supported (by simpa using hs)
  simp only [denotes, hn] at hd
  exact C18_array_delivered F E size reads _ _ hd

example : readAll exF exE .array 16 [4] (writeAll exF .array [] [{ value := .str b!"x<y" }, { value := .arr [.int 300] }]).2 =
    ([{ index := 0, value := .str b!"x<y" }, { index := 1, value := .arr [.int 300] }], .eof) := by decide +kernel

/-- C18: a text of any kind, malformed ones too, that is in the buffer as a whole with four bytes to spare is read like the plain text,
errors included; it gets there as a whole if the source delivers it at once or it has at most 4096 bytes. -/
theorem C18_whole (F : FloatCodec) (E : Env) (tl : TopLevel) (size : Nat) (reads : List Nat) (s : Bytes)
    (h : s.length + 4 ≤ size) (h2 : reads = [] ∨ s.length ≤ 4096) :
    readAll F E tl size reads s = ((Json.readAll F tl s).1, endOf (Json.readAll F tl s).2) :=
  readAll_whole F E tl size reads s h h2

example : readAll exF exE .array 32 [0, 0, 5] b!"[[99999999999999999999,5],6]" =
    ([{ index := 0, value := .arr [] }, { index := 1, value := .int 5 }], .eof) ∧
    readAll exF exE .array 32 [1] b!"[\"\\u12\", tru" = ([{ index := 0, value := .str b!"?" }], .err .true) := by decide +kernel

/-- the texts that stop every reader: an open string with a backslash as its last byte but one, after `n` plain characters -/
def trap (n : Nat) : Bytes := 91 :: 34 :: (List.replicate n 97 ++ [92, 34])

theorem scanStr_trap : ∀ n, scanStr (List.replicate n 97 ++ [92, 34]) = none
  | 0 => rfl
  | n + 1 => by
    rw [List.replicate_succ, List.cons_append, scanStr.eq_def]
    simp [scanStr_trap n]

/-- C18 is false of malformed texts: whatever the size of the buffer, a text one byte longer, an open string, whose last byte but one is
a backslash, makes the reader panic (index out of range), while a larger buffer lets it report an error. -/
theorem C18_panic_at_every_size (F : FloatCodec) (E : Env) (size : Nat) (hs : 16 ≤ size) :
    readAll F E .array size [] (trap (size - 3)) = ([], .panic) ∧
      ∀ size' reads, size + 5 ≤ size' → (reads = [] ∨ size < 4096) →
        readAll F E .array size' reads (trap (size - 3)) = ([], .err .stringClose) := by
  have hlen : (trap (size - 3)).length = size + 1 := by simp [trap]; omega
  constructor
  · obtain ⟨n, rfl⟩ : ∃ n, size = n + 3 := ⟨size - 3, by omega⟩
    simp only [Nat.add_sub_cancel] at hlen ⊢
    have hB : (trap n).take (n + 3) = 91 :: 34 :: (List.replicate n 97 ++ [92]) := by
      have : trap n = (91 :: 34 :: (List.replicate n 97 ++ [92])) ++ [34] := by simp [trap]
      rw [this, List.take_left' (by simp)]
    have hS : (trap n).drop (n + 3) = [34] := by
      have : trap n = (91 :: 34 :: (List.replicate n 97 ++ [92])) ++ [34] := by simp [trap]
      rw [this, List.drop_left' (by simp)]
    have hP : peek (new (n + 3) [] (trap n)) =
        { size := n + 3, pos := 0, buf := 91 :: 34 :: (List.replicate n 97 ++ [92]), src := [34] } := by
      have h1 : fillLoop ((new (n + 3) [] (trap n)).src.length + 1) (new (n + 3) [] (trap n)) =
          { size := n + 3, pos := 0, buf := 91 :: 34 :: (List.replicate n 97 ++ [92]), src := [34] } := by
        have h2 : fill (new (n + 3) [] (trap n)) =
            { size := n + 3, pos := 0, buf := 91 :: 34 :: (List.replicate n 97 ++ [92]), src := [34] } := by
          have hm : max (n + 3) 16 = n + 3 := by omega
          have hne : trap n ≠ [] := by simp [trap]
          simp only [fill, new, hm, if_neg hne, St.portion, List.length_nil, Nat.sub_zero, hB, hS, List.nil_append, List.tail_nil]
        rw [fillLoop, if_pos (by simp [new, blockSize]; omega), h2, show (new (n + 3) [] (trap n)).src.length = n + 3 + 1 from hlen, fillLoop,
          if_neg (by simp)]
      unfold peek
      rw [h1]
      simp only
      rw [if_neg (by simp [blockSize])]
    have hE : ∀ st : St, Inv st [34] → (peek st).buf = [34] := by
      intro st hi
      have := peek_inv hi
      have h1 := this.1.rest
      have h2 := this.2.2.2
      cases hb : (peek st).buf with
      | nil => rw [hb] at h2; simp at h2
      | cons c t =>
        rw [hb] at h1; simp at h1
        rw [h1.1, h1.2.1]
    have hR : readEntry F E .array { st := new (n + 3) [] (trap n) } = .panic := by
      simp only [readEntry, hP, Bool.false_eq_true, if_false, openCh, closeCh]
      rw [token_yes E rfl (by decide)]
      simp only
      rw [token_no E (c := 34) (d := 93) (t := List.replicate n 97 ++ [92]) rfl (by decide) (by decide)]
      simp only
      generalize hg : fuelFor _ = g
      obtain ⟨f, rfl⟩ : ∃ f, g = f + 1 := ⟨g - 1, by unfold fuelFor at hg; omega⟩
      simp only [readBody, readValue]
      rw [current_nows E (c := 34) (t := List.replicate n 97 ++ [92]) rfl (by decide)]
      simp only [List.head?_cons, readString]
      rw [if_neg (by decide), if_neg (by decide), if_neg (by decide), if_pos trivial,
        current_nows E (c := 34) (t := List.replicate n 97 ++ [92]) rfl (by decide)]
      simp only [List.head?_cons, if_true, discard]
      rw [show (34 :: (List.replicate n 97 ++ [92]) : Bytes).length + [(34 : UInt8)].length + 1 = 4 + n by simp; omega, scan_plain]
      · rw [scan, if_neg (by simp; omega)]
        have h92 : (34 :: (List.replicate n 97 ++ [92]) : Bytes)[1 + n]? = some 92 := by
          rw [show 1 + n = n + 1 by omega, List.getElem?_cons_succ, List.getElem?_append_right (by simp)]; simp
        simp only [h92, if_true]
        rw [scan, if_pos (by simp)]
        simp only [extend]
        rw [hE _ ⟨by simp [discard], by simp [discard]; omega, by simp [discard]⟩]
        simp
        rw [List.getElem?_eq_none (by simp; omega)]
      · intro j h1 h2
        refine ⟨97, ?_, by decide, by decide⟩
        obtain ⟨k, rfl⟩ : ∃ k, j = k + 1 := ⟨j - 1, by omega⟩
        rw [List.getElem?_cons_succ, List.getElem?_append_left (by simp; omega)]
        rw [List.getElem?_replicate, if_pos (by omega)]
    simp only [readAll, readLoop, hR]
  · intro size' reads h1 h2
    rw [readAll_whole F E .array size' reads _ (by omega) (h2.imp_right fun h => by omega)]
    have : Json.readAll F .array (trap (size - 3)) = ([], .err .stringClose) := by
      have ht : ∀ s, Json.token 91 (91 :: s) = some s := fun s => token_self (show isWhitespace 91 = false by decide) s
      obtain ⟨f, hf⟩ : ∃ f, fuelFor (34 :: (List.replicate (size - 3) 97 ++ [92, 34])) = f + 1 :=
        ⟨_, (Nat.succ_pred (by unfold fuelFor; omega)).symm⟩
      simp only [Json.readAll, Json.readLoop, Json.readEntry, trap, openCh, closeCh, Bool.false_eq_true, if_false, ht,
        token_ne (show isWhitespace 34 = false by decide) (show (34 : UInt8) ≠ 93 by decide), Json.readBody, hf, Json.readValue,
        skipWS_cons (show isWhitespace 34 = false by decide), Json.readStringBody, scanStr_trap, if_true]
      simp
    rw [this]; rfl

example : readAll exF exE .array 16 [] b!"[\"aaaaaaaaaaaaa\\\"" = ([], .panic) ∧
    readAll exF exE .array 21 [] b!"[\"aaaaaaaaaaaaa\\\"" = ([], .err .stringClose) := by decide +kernel

/-- C18 is false of malformed texts: the misspelt word `n`, whose error a nested array ignores, is passed over together with what is
behind it if the buffer ends there; so one size delivers an entry more, and the end of the body instead of an error. -/
theorem C18_error_depends_on_buffer :
    readAll exF exE .array 16 [] b!"            [[n],2]" =
      ([{ index := 0, value := .arr [] }, { index := 1, value := .int 2 }], .eof) ∧
    readAll exF exE .array 32 [] b!"            [[n],2]" = 
      ([{ index := 0, value := .arr [] }], .err .separator) := by decide +kernel

/-- C18 is false of malformed texts: an escape `\u` cut off by the closing quote makes the reader panic (slice bounds out of range) if
the buffer ends too soon after it, and stands for a question mark otherwise. -/
theorem C18_cut_escape_depends_on_buffer (F : FloatCodec) (E : Env) :
    readAll F E .array 16 [] b!"[\"aaaaaaaaa\\u1\"]" = ([], .panic) ∧
    readAll F E .array 17 [] b!"[\"aaaaaaaaa\\u1\"]" = ([{ index := 0, value := .str b!"aaaaaaaaa?" }], .eof) := ⟨rfl, rfl⟩

/-- hence the entries and the end of a body are not a function of its bytes alone. -/
theorem C18_not_function_of_bytes :
    ¬ ∀ (F : FloatCodec) (E : Env) (size size' : Nat) (s : Bytes), readAll F E .array size [] s = readAll F E .array size' [] s := by
  intro h
  have h1 := C18_error_depends_on_buffer
  have := h exF exE 16 32 b!"            [[n],2]"
  rw [h1.1, h1.2] at this
  simp at this

end Verif.JsonBuf
