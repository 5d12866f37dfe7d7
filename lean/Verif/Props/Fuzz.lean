import Verif.Lemmas.JsonBufTotal
import Verif.Model.Fuzz
import Verif.Props.JsonOthers
/- C51 for every buffer, and C91: the entry point of the fuzzer. -/
set_option autoImplicit false
namespace Verif.JsonBuf
open Json JsonG

/-- C51 for every size of the buffer, every way the bytes arrive and every text, malformed ones too: calling `ReadEntry` repeatedly ends after at most one
entry per input byte, with end-of-file, a proper error or a panic; no loop of the reader goes on for ever. -/
theorem C51_buffered_total (F : FloatCodec) (E : Env) (tl : TopLevel) (size : Nat) (reads : List Nat) (s : Bytes) :
    (readAll F E tl size reads s).1.length ≤ s.length ∧
      ((readAll F E tl size reads s).2 = .eof ∨ (readAll F E tl size reads s).2 = .panic ∨ ∃ e, e ≠ .fuel ∧ (readAll F E tl size reads s).2 = .err e) := by
  have h := totB_readLoop F E tl (s.length + 1) { st := new size reads s } s.length ⟨s, new_inv size reads s, Nat.le_refl _⟩ (by omega)
  change (readAll F E tl size reads s).1.length ≤ _ ∧ (readAll F E tl size reads s).2 ≠ _ ∧ (readAll F E tl size reads s).2 ≠ _ at h
  refine ⟨h.1, ?_⟩
  cases h3 : (readAll F E tl size reads s).2 with
  | eof => exact .inl rfl
  | panic => exact .inr (.inl rfl)
  | err e => exact .inr (.inr ⟨e, by rintro rfl; exact h.2.2 h3, rfl⟩)
  | outOfCalls => exact absurd h3 h.2.1

example : readAll exF exE .array 16 [0, 2] b!"[[[[[[[[[[[[[[[[[[[[\"" =
      ([{ index := 0, value := .arr [] }], .err .separator) ∧
    readAll exF exE .object 16 [] b!"{\"a\":tru,,,,,,,,,,,,,,,,,,,,,," = ([], .err .true) ∧
    readAll exF exE .array 16 [] b!"[,,,,,,,,,,,,,,,,,,]" = (indexed 0 (List.replicate 18 .null ++ [.null]), .eof) := by decide +kernel

/-- the texts that stop the reader of an object: an open key with a backslash as its last byte but one, after `n` plain characters -/
def keyTrap (n : Nat) : Bytes := 123 :: 34 :: (List.replicate n 97 ++ [92, 34])

theorem keyTrap_panics (F : FloatCodec) (E : Env) (n : Nat) (hn : 13 ≤ n) : readAll F E .object (n + 3) [] (keyTrap n) = ([], .panic) := by
  have hlen : (keyTrap n).length = n + 3 + 1 := by simp [keyTrap]
  have hB : (keyTrap n).take (n + 3) = 123 :: 34 :: (List.replicate n 97 ++ [92]) := by
    have : keyTrap n = (123 :: 34 :: (List.replicate n 97 ++ [92])) ++ [34] := by simp [keyTrap]
    rw [this, List.take_left' (by simp)]
  have hS : (keyTrap n).drop (n + 3) = [34] := by
    have : keyTrap n = (123 :: 34 :: (List.replicate n 97 ++ [92])) ++ [34] := by simp [keyTrap]
    rw [this, List.drop_left' (by simp)]
  have hP : peek (new (n + 3) [] (keyTrap n)) =
      { size := n + 3, pos := 0, buf := 123 :: 34 :: (List.replicate n 97 ++ [92]), src := [34] } := by
    have h1 : fillLoop ((new (n + 3) [] (keyTrap n)).src.length + 1) (new (n + 3) [] (keyTrap n)) =
        { size := n + 3, pos := 0, buf := 123 :: 34 :: (List.replicate n 97 ++ [92]), src := [34] } := by
      have h2 : fill (new (n + 3) [] (keyTrap n)) =
          { size := n + 3, pos := 0, buf := 123 :: 34 :: (List.replicate n 97 ++ [92]), src := [34] } := by
        have hm : max (n + 3) 16 = n + 3 := by omega
        have hne : keyTrap n ≠ [] := by simp [keyTrap]
        simp only [fill, new, hm, if_neg hne, St.portion, List.length_nil, Nat.sub_zero, hB, hS, List.nil_append, List.tail_nil]
      rw [fillLoop, if_pos (by simp [new, blockSize]), h2, show (new (n + 3) [] (keyTrap n)).src.length = n + 3 + 1 from hlen, fillLoop,
        if_neg (by simp)]
    unfold peek
    rw [h1]
    simp only
    rw [if_neg (by simp [blockSize])]
  have hE : ∀ st : St, Inv st [34] → (peek st).buf = [34] := by
    intro st hi
    have := peek_inv hi
    have h1 := this.1.rest
    have h2 := this.2.2.2
    cases hb : (peek st).buf with
    | nil => rw [hb] at h2; simp at h2
    | cons c t =>
      rw [hb] at h1; simp at h1
      rw [h1.1, h1.2.1]
  have hR : readEntry F E .object { st := new (n + 3) [] (keyTrap n) } = .panic := by
    simp only [readEntry, hP, Bool.false_eq_true, if_false, openCh, closeCh]
    rw [token_yes E rfl (by decide)]
    simp only
    rw [token_no E (c := 34) (d := 125) (t := List.replicate n 97 ++ [92]) rfl (by decide) (by decide)]
    simp only
    generalize hg : fuelFor _ = g
    obtain ⟨f, rfl⟩ : ∃ f, g = f + 1 := ⟨g - 1, by unfold fuelFor at hg; omega⟩
    simp only [readBody, readPair, readString]
    rw [current_nows E (c := 34) (t := List.replicate n 97 ++ [92]) rfl (by decide)]
    simp only [List.head?_cons, if_true, discard]
    rw [show (34 :: (List.replicate n 97 ++ [92]) : Bytes).length + [(34 : UInt8)].length + 1 = 4 + n by simp; omega, scan_plain]
    · rw [scan, if_neg (by simp; omega)]
      have h92 : (34 :: (List.replicate n 97 ++ [92]) : Bytes)[1 + n]? = some 92 := by
        rw [show 1 + n = n + 1 by omega, List.getElem?_cons_succ, List.getElem?_append_right (by simp)]; simp
      simp only [h92, if_true]
      rw [scan, if_pos (by simp)]
      simp only [extend]
      rw [hE _ ⟨by simp [discard], by simp [discard]; omega, by simp [discard]⟩]
      simp
    · intro j h1 h2
      refine ⟨97, ?_, by decide, by decide⟩
      obtain ⟨k, rfl⟩ : ∃ k, j = k + 1 := ⟨j - 1, by omega⟩
      rw [List.getElem?_cons_succ, List.getElem?_append_left (by simp; omega)]
      rw [List.getElem?_replicate, if_pos (by omega)]
  simp only [readAll, readLoop, hR]

end Verif.JsonBuf

namespace Verif.Fuzz
open Json JsonG JsonBuf

/-- C91: `Fuzz` comes to an end on every input: it returns 0 or 1, or panics. -/
theorem C91_total (F : FloatCodec) (E : Env) (data : Bytes) : fuzz F E data = .returns 0 ∨ fuzz F E data = .returns 1 ∨ fuzz F E data = .panics := by
  unfold fuzz run
  rcases (C51_buffered_total F E .object bufferSize [] data).2 with h | h | ⟨e, _, h⟩ <;> rw [h] <;> simp

/-- C91: on up to 262140 bytes it does not panic. -/
theorem C91_no_panic (F : FloatCodec) (E : Env) (data : Bytes) (h : data.length ≤ 262140) :
    fuzz F E data = .returns (if (Json.readAll F .object data).2 = .eof then 1 else 0) := by
  unfold fuzz run
  rw [C18_whole F E .object bufferSize [] data (by unfold bufferSize; omega) (.inl rfl)]
  rcases (C51_reader_total F .object data).2 with h | ⟨e, _, h⟩ <;> rw [h] <;> simp [endOf]

/-- C91: it returns 1 for every JSON object whose numbers fit, however long, with whitespace before it and anything behind it. -/
theorem C91_objects (F : FloatCodec) (E : Env) (m : List (Bytes × Tree)) (w t r : Bytes) (hw : WS w) (h : Spells (.obj m) t) (hn : AllF (NumFits F) (fun _ => True) m) :
    fuzz F E (w ++ (t ++ r)) = .returns 1 := by
  unfold fuzz run
  rw [readAll_spellsF F E bufferSize [] hw h hn r]

/-- C91: it returns 0 for what does not begin with an opening brace, however long. -/
theorem C91_other (F : FloatCodec) (E : Env) (w r : Bytes) (hw : WS w) (hr : ∀ c, r.head? = some c → isWhitespace c = false ∧ c ≠ 123) :
    fuzz F E (w ++ r) = .returns 0 := by
  have ht : Json.token 123 (w ++ r) = none := by
    unfold Json.token
    rw [Json.skipWS_ws hw]
    cases r with
    | nil => rfl
    | cons c t =>
      have := hr c rfl
      rw [skipWS_cons this.1]
      simp [this.2]
  unfold fuzz
  generalize bufferSize = size
  obtain ⟨ok, st', e, _, hc⟩ := token_spec E 123 (peek_inv (new_inv size [] (w ++ r))).1
  rcases hc with ⟨_, r', hr', _⟩ | ⟨rfl, _, _⟩
  · rw [ht] at hr'; cases hr'
  · have hR : JsonBuf.readEntry F E .object { st := new size [] (w ++ r) } = .err .openTop { st := st' } := by
      simp only [JsonBuf.readEntry, Bool.false_eq_true, if_false, openCh, e]
    have : (JsonBuf.readAll F E .object size [] (w ++ r)).2 = .err .openTop := by
      simp only [JsonBuf.readAll, JsonBuf.readLoop, hR]
    unfold run
    rw [this]

example (E : Env) : fuzz exF E b!" [1]" = .returns 0 ∧ fuzz exF E [] = .returns 0 :=
  ⟨C91_other exF E b!" " b!"[1]" (by unfold WS; decide) (by decide), C91_other exF E [] [] (by unfold WS; decide) (by decide)⟩

example : fuzz exF exE b!" {\"a\":[1,2],\"b\":null} junk" = .returns 1 ∧ fuzz exF exE b!"{\"a\":[1,2]" = .returns 0 ∧
    fuzz exF exE b!"{\"a\":,}" = .returns 0 ∧ fuzz exF exE b!"{\"a\":}" = .returns 1 := by decide +kernel

/-- a number that does not fit -/
example : fuzz exF exE b!"{\"a\":99999999999999999999}" = .returns 0 ∧ run exF exE 16 b!"{\"aaaaaaaaaaaaa\\\"" = .panics ∧
    run exF exE 21 b!"{\"aaaaaaaaaaaaa\\\"" = .returns 0 := by decide +kernel

theorem strText_plain (n : Nat) {t : Bytes} (h : StrText t) : StrText (List.replicate n 97 ++ t) := by
  induction n with
  | zero => exact h
  | succ n ih => exact .plain 97 (by decide) (by decide) (by decide) ih

theorem run_panics {F : FloatCodec} {E : Env} {size : Nat} {s : Bytes} (h : JsonBuf.readAll F E .object size [] s = ([], .panic)) : run F E size s = .panics := by
  unfold run
  rw [h]

/-- C91: an object of five bytes more than the buffer, cut off after one byte more than the buffer, makes it panic. -/
theorem C91_cut_panics (F : FloatCodec) (E : Env) :
    ∃ m p, Spells (.obj m) (p ++ b!"\":0}") ∧ AllF (NumFits F) (fun _ => True) m ∧ p.length = 262145 ∧ fuzz F E p = .panics := by
  refine ⟨[(List.replicate 262141 97 ++ [92, 34], .num b!"0")], keyTrap 262141, ?_, ?_, ?_, ?_⟩
  · have h := Spells.obj _ _ (SpellsF.one (List.replicate 262141 97 ++ [92, 34]) (.num b!"0") [] [] [] b!"0" [] (by unfold WS; decide)
      (strText_plain _ (.esc 34 (by decide) .nil)) (by unfold WS; decide) (by unfold WS; decide)
      (.num _ ⟨[], b!"0", [], .inl rfl, .zero, .inl rfl, rfl⟩) (by unfold WS; decide))
    generalize (262141 : Nat) = n at h ⊢
    simpa [keyTrap] using h
  · simp only [AllF, Tree.All, and_true, true_and]
    exact ((C88_integers F b!"0" 0 .zero (by decide)).1).2 (by decide)
  · have : ∀ n, (keyTrap n).length = n + 4 := by intro n; simp [keyTrap]
    rw [this]
  · have := keyTrap_panics F E 262141 (by omega)
    have hb : bufferSize = 262141 + 3 := by decide
    exact (congrArg (fun z => run F E z (keyTrap 262141)) hb).trans (run_panics this)

end Verif.Fuzz
