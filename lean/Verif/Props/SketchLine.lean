import Verif.Props.SketchText
/- C31: lines with more than two numbers. -/
set_option autoImplicit false
namespace Verif.Sketch
open Scan FloatText

theorem lineEnds_more {c : UInt8} (h1 : 33 ≤ c) (h2 : c < 127) (q : Bytes) : lineEnds (32 :: c :: q) = false := by
  have hd : utf8Dec (c :: q) = (c.toNat, 1) := by
    rw [utf8Dec.eq_def]
    have : c.toNat < 128 := Nat.lt_trans (UInt8.lt_iff_toNat_lt.1 h2) (by decide)
    simp [this]
  have hs : isSpace c.toNat = false := by
    have : ∀ c : UInt8, 33 ≤ c ∧ c < 127 → isSpace c.toNat = false := by
      refine Scan.every_byte ?_
      decide +kernel
    exact this c ⟨h1, h2⟩
  have : skip (c :: q) = c :: q := by
    rw [skip, List.length_cons, skipN, if_neg]
    rw [hd]
    simp [hs]
  simp [lineEnds, skip_space, this]

/-- a line with something behind the two numbers -/
theorem pairLine_more (x y : UInt64) {c : UInt8} (h1 : 33 ≤ c) (h2 : c < 127) {q : Bytes} (hq : (10 : UInt8) ∉ q) (r : Bytes) :
    pairLine (fmtG x ++ 32 :: (fmtG y ++ 32 :: c :: q) ++ 10 :: r) = (some (canon x), some (canon y), none) := by
  have hn : (10 : UInt8) ∉ fmtG x ++ 32 :: (fmtG y ++ 32 :: c :: q) := by
    have h10 : (10 : UInt8) ≠ c := by
      rintro rfl
      revert h1; decide
    simp only [List.mem_append, List.mem_cons, not_or]
    exact ⟨tok_newline (tok_fmtG x), by decide, tok_newline (tok_fmtG y), by decide, h10, hq⟩
  unfold pairLine
  rw [cut_plain hn]
  simp only [scan_first, scan_space, lineEnds_more h1 h2]
  rfl

/-- **C31**: a line of a bin with something behind its two numbers is an error; the bins of the lines before it are all there is. -/
theorem C31_long_line (h0 h : Sketch UInt64) (hl : h.cs.length < 2 ^ 44) (j : Nat) (hj : j < h.cs.length) (x y : UInt64) (c : UInt8) (h1 : 33 ≤ c) (h2 : c < 127)
    (q r : Bytes) (hq : (10 : UInt8) ∉ q) :
    unmarshal h0 (b!"1\n" ++ (fmtInt h.cs.length ++ 10 :: (linesOf (h.cs.take j) ++ (fmtG x ++ 32 :: (fmtG y ++ 32 :: c :: q) ++ 10 :: r)))) =
      ({ cs := (h.cs.take j).map canonC, cap := h.cs.length + 1, count := sumOf 0 (h.cs.take j), min := h0.min, max := h0.max }, .err) := by
  have hj' : (h.cs.take j).length + (h.cs.length - (h.cs.take j).length) = h.cs.length := by
    simp only [List.length_take]; omega
  rw [unmarshal_header _ _ (by unfold IsInt64; omega), if_neg (by unfold maxCentroids; omega)]
  have := readCentroids_lines (h.cs.take j) (h.cs.length - (h.cs.take j).length) (fmtG x ++ 32 :: (fmtG y ++ 32 :: c :: q) ++ 10 :: r)
    { h0 with cs := [], cap := ((h.cs.length : Int) + 1).toNat, count := 0 }
  rw [hj'] at this
  rw [Int.toNat_natCast, this]
  cases e : h.cs.length - (h.cs.take j).length with
  | zero => simp only [List.length_take] at e; omega
  | succ n =>
    simp only [readCentroids, List.nil_append, pairLine_more x y h1 h2 hq r]
    rfl

example : unmarshal sample b!"1\n2\n0.5 1\n9 -3 7\n0.5 12.5\n" = ({ sample with cs := [⟨0x3FE0000000000000, Ieee.ofInt 1⟩], count := Ieee.ofInt 1 }, .err) := by
  decide +kernel

/-- **C31**: with something behind the least and greatest values there is an error, though everything has been loaded. -/
theorem C31_long_extrema (h0 h : Sketch UInt64) (hl : h.cs.length < 2 ^ 44) (x y : UInt64) (c : UInt8) (h1 : 33 ≤ c) (h2 : c < 127)
    (q r : Bytes) (hq : (10 : UInt8) ∉ q) :
    unmarshal h0 (b!"1\n" ++ (fmtInt h.cs.length ++ 10 :: (linesOf h.cs ++ (fmtG x ++ 32 :: (fmtG y ++ 32 :: c :: q) ++ 10 :: r)))) =
      ({ cs := h.cs.map canonC, cap := h.cs.length + 1, count := sumOf 0 h.cs, min := canon x, max := canon y }, .err) := by
  rw [unmarshal_header _ _ (by unfold IsInt64; omega), if_neg (by unfold maxCentroids; omega)]
  have := readCentroids_lines h.cs 0 (fmtG x ++ 32 :: (fmtG y ++ 32 :: c :: q) ++ 10 :: r)
    { h0 with cs := [], cap := ((h.cs.length : Int) + 1).toNat, count := 0 }
  rw [Nat.add_zero] at this
  rw [Int.toNat_natCast, this]
  simp only [readCentroids, List.nil_append, pairLine_more x y h1 h2 hq r]
  rfl

example : unmarshal sample b!"1\n1\n0.5 1\n1 3 x\n" =
    ({ cs := [⟨0x3FE0000000000000, Ieee.ofInt 1⟩], cap := 2, count := Ieee.ofInt 1, min := Ieee.ofInt 1, max := Ieee.ofInt 3 }, .err) := by decide +kernel

end Verif.Sketch
