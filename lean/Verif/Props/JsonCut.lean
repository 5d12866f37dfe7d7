import Verif.Lemmas.JsonBufCut
import Verif.Props.Fuzz
/- C52 for every buffer and for the texts of others: cut JSON bodies. -/
set_option autoImplicit false
namespace Verif.JsonBuf
open Json JsonG

/-- C52 for every size of the buffer, every way the bytes arrive and every array of RFC 8259 whose numbers fit: cut anywhere before its closing
bracket, it does not read to a clean end of file, but to an error or, with an open string, to a panic (C18). -/
theorem C52_buffered_array (F : FloatCodec) (E : Env) (size : Nat) (reads : List Nat) (l : List Tree) (w t : Bytes) (hw : WS w) (h : Spells (.arr l) t)
    (hn : AllL (NumFits F) (fun _ => True) l) (p q : Bytes) (e : w ++ t = p ++ q) (hq : q ≠ []) :
    (readAll F E .array size reads p).2 = .panic ∨ ∃ x, x ≠ .fuel ∧ (readAll F E .array size reads p).2 = .err x := by
  rcases (C51_buffered_total F E .array size reads p).2 with h' | h' | h'
  · exact absurd h' (readAll_cutL F E size reads hw h hn p q e hq)
  · exact .inl h'
  · exact .inr h'

/-- C52 for objects, for every size of the buffer -/
theorem C52_buffered_object (F : FloatCodec) (E : Env) (size : Nat) (reads : List Nat) (m : List (Bytes × Tree)) (w t : Bytes) (hw : WS w) (h : Spells (.obj m) t)
    (hn : AllF (NumFits F) (fun _ => True) m) (p q : Bytes) (e : w ++ t = p ++ q) (hq : q ≠ []) :
    (readAll F E .object size reads p).2 = .panic ∨ ∃ x, x ≠ .fuel ∧ (readAll F E .object size reads p).2 = .err x := by
  rcases (C51_buffered_total F E .object size reads p).2 with h' | h' | h'
  · exact absurd h' (readAll_cutF F E size reads hw h hn p q e hq)
  · exact .inl h'
  · exact .inr h'

/-- C52: what fits the buffer with four bytes to spare, and comes at once or is short, does not panic: if it is cut, reading ends in an error. -/
theorem C52_fitting (F : FloatCodec) (E : Env) (size : Nat) (reads : List Nat) (T : Tree) (w t : Bytes) (hw : WS w) (h : Spells T t)
    (hn : T.All (NumFits F) (fun _ => True)) (p q : Bytes) (e : w ++ t = p ++ q) (hq : q ≠ []) (hs : p.length + 4 ≤ size) (hr : reads = [] ∨ p.length ≤ 4096) :
    (∀ l, T = .arr l → ∃ x, (readAll F E .array size reads p).2 = .err x) ∧ (∀ m, T = .obj m → ∃ x, (readAll F E .object size reads p).2 = .err x) := by
  have np : ∀ tl, (readAll F E tl size reads p).2 ≠ .panic := by
    intro tl
    rw [C18_whole F E tl size reads p hs hr]
    rcases (C51_reader_total F tl p).2 with h | ⟨e, _, h⟩ <;> rw [h] <;> simp [endOf]
  constructor
  · rintro l rfl
    rcases C52_buffered_array F E size reads l w t hw h (by simpa only [Tree.All] using hn) p q e hq with h' | ⟨x, _, h'⟩
    · exact absurd h' (np _)
    · exact ⟨x, h'⟩
  · rintro m rfl
    rcases C52_buffered_object F E size reads m w t hw h (by simpa only [Tree.All] using hn) p q e hq with h' | ⟨x, _, h'⟩
    · exact absurd h' (np _)
    · exact ⟨x, h'⟩

/-- all cuts of a text, with the smallest buffer and bytes that come one by one -/
example : ∀ n ∈ List.range 42, (readAll exF exE .array 16 [0, 0, 3] (b!"[[1,{\"a\\ud834\":null}], \"abcdefgh\" , false]".take n)).2 ≠ .eof := by decide +kernel

example : ∀ n ∈ List.range 34, (readAll exF exE .object 16 [2] (b!"{\"k\" : [[true,-1]] , \"\\u00e9\":null}".take n)).2 ≠ .eof := by decide +kernel

/-- C52 fails for numbers that do not fit: an error in the first element of an array is swallowed, and the text may be cut by a bracket -/
theorem C52_swallowed (F : FloatCodec) (E : Env) (size : Nat) (reads : List Nat) (hs : 26 ≤ size) :
    ∃ l p, Spells (.arr l) (p ++ b!"]") ∧ readAll F E .array size reads p = ([{ index := 0, value := .arr [] }], .eof) := by
  refine ⟨[.arr [.num b!"9999999999999999999"]], b!"[[9999999999999999999]", ?_, ?_⟩
  · have hd : IntPart b!"9999999999999999999" := .nonzero 57 _ (by decide) (by decide) (by unfold Digits; decide)
    exact .arr _ b!"[9999999999999999999]" (.one _ [] _ [] ws_nil (.arr _ b!"9999999999999999999" (.one _ [] _ [] ws_nil
      (.num _ ⟨[], _, [], .inl rfl, hd, .inl rfl, rfl⟩) ws_nil)) ws_nil)
  · rw [C18_whole F E .array size reads _ (by exact hs) (.inr (by decide))]
    rfl

end Verif.JsonBuf

namespace Verif.Fuzz
open Json JsonG JsonBuf

/-- C91: it does not return 1 for an object that is cut off, however long; within 262140 bytes it returns 0. -/
theorem C91_cut (F : FloatCodec) (E : Env) (m : List (Bytes × Tree)) (w t : Bytes) (hw : WS w) (h : Spells (.obj m) t) (hn : AllF (NumFits F) (fun _ => True) m)
    (p q : Bytes) (e : w ++ t = p ++ q) (hq : q ≠ []) :
    (fuzz F E p = .returns 0 ∨ fuzz F E p = .panics) ∧ (p.length ≤ 262140 → fuzz F E p = .returns 0) := by
  have h1 : fuzz F E p = .returns 0 ∨ fuzz F E p = .panics := by
    unfold fuzz run
    rcases C52_buffered_object F E bufferSize [] m w t hw h hn p q e hq with h' | ⟨x, _, h'⟩ <;> rw [h'] <;> simp
  refine ⟨h1, fun hl => ?_⟩
  rcases h1 with h1 | h1
  · exact h1
  · rw [C91_no_panic F E p hl] at h1
    cases h1

end Verif.Fuzz
