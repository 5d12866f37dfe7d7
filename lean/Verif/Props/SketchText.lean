import Verif.Model.SketchText
import Verif.Lemmas.Scan
import Verif.Lemmas.JsonEnc
import Verif.Props.DsgenArgs
import Verif.Props.Sketch
/-
C31 on bytes: a sketch is saved as text, and loaded from text that may be damaged.
-/
set_option autoImplicit false
namespace Verif.Sketch
open Scan FloatText JsonG

/-! ### lines with a whole number -/

theorem says_digits (ds : Bytes) (h : Digits ds) : Dsgen.Says 10 ds (natOf ds) := by
  refine ⟨ds.map fun c => c.toNat - 48, ?_, ?_⟩
  · induction ds with
    | nil => exact .nil
    | cons c ds ih =>
      refine .cons ?_ (ih fun d hd => h d (by simp [hd]))
      have := h c (by simp)
      simp only [isDigit, Bool.and_eq_true, decide_eq_true_eq, UInt8.le_iff_toNat_le] at this
      have e1 : (48 : UInt8).toNat = 48 := rfl
      have e2 : (57 : UInt8).toNat = 57 := rfl
      unfold Dsgen.DigitOf
      simp only
      omega
  · rw [List.foldl_map]
    rfl

theorem intPart_digits {ds : Bytes} (h : IntPart ds) : Digits ds ∧ ds ≠ [] := by
  cases h with
  | zero => exact ⟨by intro c hc; simp at hc; subst hc; decide, by simp⟩
  | nonzero c t h1 h2 h3 =>
    refine ⟨?_, by simp⟩
    intro d hd
    rcases List.mem_cons.1 hd with rfl | hd
    · exact h1
    · exact h3 d hd

theorem written_intPart {ds : Bytes} (h : IntPart ds) : Dsgen.Written ds (natOf ds) := by
  have hd := intPart_digits h
  cases h with
  | zero => exact .inr (.inl ⟨[], rfl, [], .nil, rfl⟩)
  | nonzero c t h1 h2 h3 => exact .inl ⟨by simp, by simpa using h2, says_digits _ hd.1⟩

theorem no_underscore {ds : Bytes} (h : Digits ds) : (95 : UInt8) ∉ ds := by
  intro h'
  have := h _ h'
  revert this
  decide

theorem parseInt0_intPart {ds : Bytes} (h : IntPart ds) (hl : natOf ds < 2 ^ 63) : parseInt0 ds = some (natOf ds : Int) := by
  have hd := intPart_digits h
  refine (Dsgen.C86_number ds (no_underscore hd.1) _).2 ⟨⟨by omega, by omega⟩, natOf ds, .inl ⟨?_, ?_, written_intPart h, rfl⟩⟩
  all_goals
    intro e
    obtain ⟨c, t, rfl⟩ := List.exists_cons_of_ne_nil hd.2
    simp at e
    subst e
    have := hd.1 _ (List.mem_cons_self ..)
    revert this
    decide

theorem parseInt0_fmtInt (k : Int) (hk : IsInt64 k) : parseInt0 (fmtInt k) = some k := by
  have h63 := hk
  unfold IsInt64 at h63
  unfold fmtInt
  split
  · refine (Dsgen.C86_number _ ?_ k).2 ⟨hk, (-k).toNat, .inr (.inr ⟨_, rfl, ?_, by omega⟩)⟩
    · have := no_underscore (fmtNat_digits (-k).toNat)
      simp [this]
    · have := written_intPart (Json.fmtNat_intPart (-k).toNat)
      rwa [natOf_fmtNat] at this
  · have := parseInt0_intPart (Json.fmtNat_intPart k.toNat) (by rw [natOf_fmtNat]; omega)
    rw [natOf_fmtNat] at this
    rw [this]
    congr
    omega

theorem scanInt_text {sg ds : Bytes} (hs : sg = [] ∨ sg = [45]) (h : IntPart ds) : scanInt (sg ++ ds) = (parseInt0 (sg ++ ds)).map fun i => (i, []) := by
  have hd := intPart_digits h
  have hdec : ∀ c, isDigit c = true → decDigit c = true ∧ sign c = false ∧ Plain c := by
    refine every_byte ?_
    decide +kernel
  have e0 : skip (sg ++ ds) = sg ++ ds := by
    rcases hs with rfl | rfl
    · obtain ⟨c, t, rfl⟩ := List.exists_cons_of_ne_nil hd.2
      exact skip_plain (hdec c (hd.1 c (by simp))).2.2 t
    · exact skip_plain (by decide) ds
  have e1 : (accept sign { rest := sg ++ ds }).2 = ⟨sg, ds⟩ := by
    rcases hs with rfl | rfl
    · rw [List.nil_append, accept_no]
      intro c hc
      obtain ⟨d, t, rfl⟩ := List.exists_cons_of_ne_nil hd.2
      simp at hc
      subst hc
      exact (hdec d (hd.1 d (by simp))).2.1
    · rfl
  unfold scanInt
  simp only [e0, e1]
  rw [if_neg (by simp [hd.2])]
  cases h with
  | zero =>
    have e2 : basePrefix ⟨sg, [48]⟩ = (fun c => (48 ≤ c && c ≤ 55) || c = 95, true, ⟨sg ++ [48], []⟩) := rfl
    rw [e2]
    simp only [Bool.true_eq_false, false_and, if_false]
    simp only [acceptAll, List.takeWhile_nil, List.dropWhile_nil, List.append_nil]
    cases parseInt0 (sg ++ [48]) <;> rfl
  | nonzero c t h1 h2 h3 =>
    have e2 : basePrefix ⟨sg, c :: t⟩ = (decDigit, false, ⟨sg, c :: t⟩) := by
      unfold basePrefix
      rw [accept_no]
      intro d hd
      simp at hd
      subst hd
      simpa using h2
    rw [e2]
    simp only
    rw [if_neg (by rw [accept_yes (hdec c h1).1]; simp)]
    have e3 : acceptAll decDigit ⟨sg, c :: t⟩ = ⟨sg ++ c :: t, []⟩ := by
      have := acceptAll_run (ok := decDigit) (buf := sg) (a := c :: t) (r := []) (fun d hd' => (hdec d (hd.1 d hd')).1) (by simp)
      rwa [List.append_nil] at this
    rw [e3]
    cases parseInt0 (sg ++ c :: t) <;> rfl

theorem fmtInt_split (k : Int) : ∃ sg ds, fmtInt k = sg ++ ds ∧ (sg = [] ∨ sg = [45]) ∧ IntPart ds := by
  unfold fmtInt
  split
  · exact ⟨[45], _, rfl, .inr rfl, Json.fmtNat_intPart _⟩
  · exact ⟨[], _, rfl, .inl rfl, Json.fmtNat_intPart _⟩

theorem no_newline {sg ds : Bytes} (hs : sg = [] ∨ sg = [45]) (hd : Digits ds) : (10 : UInt8) ∉ sg ++ ds := by
  intro h
  rcases List.mem_append.1 h with h | h
  · rcases hs with rfl | rfl
    · simp at h
    · revert h; decide
  · have := hd _ h
    revert this
    decide

theorem intLine_fmtInt (k : Int) (hk : IsInt64 k) (r : Bytes) : intLine (fmtInt k ++ 10 :: r) = some (k, r) := by
  obtain ⟨sg, ds, e, hs, hd⟩ := fmtInt_split k
  have hn := no_newline hs (intPart_digits hd).1
  have hp := parseInt0_fmtInt k hk
  rw [e] at hp ⊢
  unfold intLine
  rw [cut_plain hn]
  simp only [scanInt_text hs hd, hp, Option.map_some]
  rfl

/-- a whole number at the end of the text -/
theorem intLine_end {ds : Bytes} (h : IntPart ds) (hl : natOf ds < 2 ^ 63) : intLine ds = some ((natOf ds : Int), []) := by
  have hn := no_newline (.inl rfl) (intPart_digits h).1
  have hp := parseInt0_intPart h hl
  have hs := scanInt_text (.inl rfl) h
  unfold intLine
  rw [List.nil_append] at hn hs
  rw [cut_end hn]
  simp only [hs, hp, Option.map_some]
  rfl

/-! ### lines with two floats -/

theorem tok_newline {q : Bytes} (h : Tok q) : (10 : UInt8) ∉ q := by
  intro h'
  have := tok_plain h _ h'
  revert this
  decide

theorem pair_body {x y : UInt64} : (10 : UInt8) ∉ fmtG x ++ 32 :: fmtG y := by
  intro h
  rcases List.mem_append.1 h with h | h
  · exact tok_newline (tok_fmtG x) h
  · rcases List.mem_cons.1 h with h | h
    · revert h; decide
    · exact tok_newline (tok_fmtG y) h

theorem scan_first (x : UInt64) (t : Bytes) : scanFloat (fmtG x ++ 32 :: t) = some (canon x, 32 :: t) := by
  rw [scan_tok (tok_fmtG x) (fmtG_ne x) (.inr ⟨t, rfl⟩), parse_fmtG]
  rfl

theorem pairLine_floats (x y : UInt64) (r : Bytes) : pairLine (floatsLine x y ++ r) = (some (canon x), some (canon y), some r) := by
  have e : floatsLine x y ++ r = (fmtG x ++ 32 :: fmtG y) ++ 10 :: r := by simp [floatsLine]
  unfold pairLine
  rw [e, cut_plain pair_body]
  simp only [scan_first, scan_space, scan_tok_end (tok_fmtG y), parse_fmtG, Option.map_some]
  rfl

/-- the second of the floats is cut -/
theorem pairLine_cut (x : UInt64) {q : Bytes} (hq : Tok q) :
    pairLine (fmtG x ++ 32 :: q) = (some (canon x), parse64 q, if (parse64 q).isSome then some [] else none) := by
  have hn : (10 : UInt8) ∉ fmtG x ++ 32 :: q := by
    intro h
    rcases List.mem_append.1 h with h | h
    · exact tok_newline (tok_fmtG x) h
    · rcases List.mem_cons.1 h with h | h
      · revert h; decide
      · exact tok_newline hq h
  unfold pairLine
  rw [cut_end hn]
  simp only [scan_first, scan_space, scan_tok_end hq]
  cases parse64 q <;> rfl

/-- the first of the floats is cut -/
theorem pairLine_short {q : Bytes} (hq : Tok q) : pairLine q = (parse64 q, none, none) := by
  unfold pairLine
  rw [cut_end (tok_newline hq)]
  simp only [scan_tok_end hq]
  cases parse64 q <;> rfl

/-! ### sketches -/

/-- what a centroid reads as -/
def canonC (c : Centroid UInt64) : Centroid UInt64 := { p := canon c.p, m := canon c.m }

/-- the lines of centroids -/
def linesOf (cs : List (Centroid UInt64)) : Bytes := (cs.map fun c => floatsLine c.p c.m).flatten

def sumOf (s : UInt64) (cs : List (Centroid UInt64)) : UInt64 := cs.foldl (fun s c => Ieee.add s (canon c.m)) s

theorem readCentroids_lines (cs : List (Centroid UInt64)) (n : Nat) (r : Bytes) (h : Sketch UInt64) :
    readCentroids (cs.length + n) (linesOf cs ++ r) h = readCentroids n r { h with cs := h.cs ++ cs.map canonC, count := sumOf h.count cs } := by
  induction cs generalizing h with
  | nil => simp [linesOf, sumOf]
  | cons c cs ih =>
    have e : linesOf (c :: cs) ++ r = floatsLine c.p c.m ++ (linesOf cs ++ r) := by simp [linesOf]
    have el : (c :: cs).length + n = (cs.length + n) + 1 := by simp; omega
    rw [el, e]
    simp only [readCentroids, pairLine_floats]
    rw [ih]
    simp [sumOf, canonC]

theorem unmarshal_header (h0 : Sketch UInt64) (k : Int) (hk : IsInt64 k) (s : Bytes) :
    unmarshal h0 (b!"1\n" ++ (fmtInt k ++ 10 :: s)) =
      if k + 1 < 0 ∨ maxCentroids < k + 1 then (h0, .panic)
      else
        match readCentroids k.toNat s { h0 with cs := [], cap := (k + 1).toNat, count := 0 } with
        | (h, none) => (h, .err)
        | (h, some s) => ({ h with min := (pairLine s).1.getD h.min, max := (pairLine s).2.1.getD h.max }, if (pairLine s).2.2 = none then .err else .ok) := by
  have e1 : intLine (b!"1\n" ++ (fmtInt k ++ 10 :: s)) = some (1, fmtInt k ++ 10 :: s) := intLine_fmtInt 1 (by decide) _
  unfold unmarshal
  rw [e1]
  simp only [ne_eq, not_true_eq_false, if_false, intLine_fmtInt k hk]
  split
  · rfl
  · rcases readCentroids k.toNat s _ with ⟨h, _ | s⟩ <;> rfl

/-- the text of a sketch: header, lines, the last line -/
theorem marshal_eq (h : Sketch UInt64) :
    marshal h = b!"1\n" ++ (fmtInt h.cs.length ++ 10 :: (linesOf h.cs ++ floatsLine h.min h.max)) := by
  have : fmtInt (h.cs.length : Int) = fmtNat h.cs.length := by
    unfold fmtInt
    rw [if_neg (by omega)]
    rfl
  rw [this]
  simp [marshal, linesOf]

theorem unmarshal_lines (h0 h : Sketch UInt64) (hl : h.cs.length < 2 ^ 44) (s : Bytes) :
    unmarshal h0 (b!"1\n" ++ (fmtInt h.cs.length ++ 10 :: (linesOf h.cs ++ s))) =
      ({ cs := h.cs.map canonC, cap := h.cs.length + 1, count := sumOf 0 h.cs, min := (pairLine s).1.getD h0.min, max := (pairLine s).2.1.getD h0.max },
        if (pairLine s).2.2 = none then .err else .ok) := by
  rw [unmarshal_header _ _ (by unfold IsInt64; omega), if_neg (by unfold maxCentroids; omega)]
  have := readCentroids_lines h.cs 0 s { h0 with cs := [], cap := ((h.cs.length : Int) + 1).toNat, count := 0 }
  rw [Nat.add_zero] at this
  rw [Int.toNat_natCast, this]
  simp only [readCentroids, List.nil_append]
  rfl

/-- **C31**: a sketch that has been saved loads, into any sketch, as what it was: bins, their number, least and greatest value; a NaN comes
back as some NaN, the count is the sum of the counts of the bins with their signs. -/
theorem C31_text (h0 h : Sketch UInt64) (hl : h.cs.length < 2 ^ 44) :
    unmarshal h0 (marshal h) =
      ({ cs := h.cs.map canonC, cap := h.cs.length + 1, count := sumOf 0 h.cs, min := canon h.min, max := canon h.max }, .ok) := by
  rw [marshal_eq, unmarshal_lines h0 h hl]
  have := pairLine_floats h.min h.max []
  rw [List.append_nil] at this
  rw [this]
  rfl

/-- **C31**: what comes after it is not looked at. -/
theorem C31_more (h0 h : Sketch UInt64) (hl : h.cs.length < 2 ^ 44) (t : Bytes) : unmarshal h0 (marshal h ++ t) = unmarshal h0 (marshal h) := by
  have e : marshal h ++ t = b!"1\n" ++ (fmtInt h.cs.length ++ 10 :: (linesOf h.cs ++ (floatsLine h.min h.max ++ t))) := by
    rw [marshal_eq]
    simp
  rw [C31_text h0 h hl, e, unmarshal_lines h0 h hl, pairLine_floats]
  rfl

/-- no NaN in it -/
def NoNaN (h : Sketch UInt64) : Prop := (∀ c ∈ h.cs, f64NaN c.p = false ∧ f64NaN c.m = false) ∧ f64NaN h.min = false ∧ f64NaN h.max = false

/-- **C31**: on bytes the same happens as on the values of the lines. -/
theorem C31_text_values (h0 h : Sketch UInt64) (hl : h.cs.length < 2 ^ 44) (hn : NoNaN h) :
    load ieee (save h) = some (unmarshal h0 (marshal h)).1 ∧ (unmarshal h0 (marshal h)).2 = .ok := by
  have hc : ∀ x, f64NaN x = false → canon x = x := by
    intro x hx
    simp [canon, hx]
  rw [C31_load, C31_text h0 h hl]
  refine ⟨?_, rfl⟩
  have e1 : h.cs.map canonC = h.cs := by
    conv => rhs; rw [← List.map_id h.cs]
    refine List.map_congr_left ?_
    intro c hc'
    have := hn.1 c hc'
    simp [canonC, hc _ this.1, hc _ this.2]
  have e2 : ∀ (cs : List (Centroid UInt64)) (s : UInt64), (∀ c ∈ cs, f64NaN c.m = false) → sumOf s cs = cs.foldl (fun s c => ieee.add s c.m) s := by
    intro cs
    induction cs with
    | nil => intro s _; rfl
    | cons c cs ih =>
      intro s h
      simp only [sumOf, List.foldl_cons] at ih ⊢
      rw [hc c.m (h c (by simp))]
      exact ih _ fun c' h' => h c' (by simp [h'])
  rw [e1, hc _ hn.2.1, hc _ hn.2.2, e2 _ _ fun c h' => (hn.1 c h').2]
  have e3 : ieee.ofInt 0 = 0 := by decide +kernel
  rw [e3]

/-- **C31**: a number of bins below -1, or too great to make room for, is a panic, whatever comes after it; no other is. -/
theorem C31_panic (h0 : Sketch UInt64) (k : Int) (hk : IsInt64 k) (s : Bytes) :
    (unmarshal h0 (b!"1\n" ++ (fmtInt k ++ 10 :: s))).2 = .panic ↔ k < -1 ∨ 2 ^ 44 ≤ k := by
  rw [unmarshal_header _ _ hk]
  have e : (k + 1 < 0 ∨ maxCentroids < k + 1) ↔ k < -1 ∨ 2 ^ 44 ≤ k := by unfold maxCentroids; omega
  split
  · rename_i h
    exact ⟨fun _ => e.1 h, fun _ => rfl⟩
  · rename_i h
    rw [e] at h
    constructor
    · intro h'
      exfalso
      revert h'
      split
      · simp
      · split <;> simp
    · intro h'
      exact absurd h' h

/-- **C31**: data that ends after some of the lines is an error and leaves a sketch with the bins of these lines and the least and greatest
values of before. -/
theorem C31_failed (h0 h : Sketch UInt64) (hl : h.cs.length < 2 ^ 44) (j : Nat) :
    unmarshal h0 (b!"1\n" ++ (fmtInt h.cs.length ++ 10 :: linesOf (h.cs.take j))) =
      ({ cs := (h.cs.take j).map canonC, cap := h.cs.length + 1, count := sumOf 0 (h.cs.take j), min := h0.min, max := h0.max }, .err) := by
  have hj : (h.cs.take j).length + (h.cs.length - (h.cs.take j).length) = h.cs.length := by
    simp only [List.length_take]; omega
  rw [unmarshal_header _ _ (by unfold IsInt64; omega), if_neg (by unfold maxCentroids; omega)]
  have := readCentroids_lines (h.cs.take j) (h.cs.length - (h.cs.take j).length) [] { h0 with cs := [], cap := ((h.cs.length : Int) + 1).toNat, count := 0 }
  rw [List.append_nil, hj] at this
  rw [Int.toNat_natCast, this]
  have hp : pairLine [] = (none, none, none) := by decide +kernel
  cases e : h.cs.length - (h.cs.take j).length with
  | zero =>
    simp only [readCentroids, List.nil_append, hp]
    rfl
  | succ n =>
    simp only [readCentroids, List.nil_append, hp]
    rfl

/-! ### data that is cut -/

theorem pairLine_nil : pairLine [] = (none, none, none) := by decide +kernel

/-- a line of floats that is cut -/
theorem cut_line {x y : UInt64} {p : Bytes} (hp : p <+: floatsLine x y) :
    (Tok p ∧ pairLine p = (parse64 p, none, none)) ∨
    (∃ q, p = fmtG x ++ 32 :: q ∧ q <+: fmtG y ∧ pairLine p = (some (canon x), parse64 q, if (parse64 q).isSome then some [] else none)) ∨ p = floatsLine x y := by
  unfold floatsLine at hp
  rcases prefix_append hp with h | ⟨p1, rfl, h⟩
  · have := tok_prefix h (tok_fmtG x)
    exact .inl ⟨this, pairLine_short this⟩
  · cases p1 with
    | nil =>
      rw [List.append_nil]
      exact .inl ⟨tok_fmtG x, pairLine_short (tok_fmtG x)⟩
    | cons c p2 =>
      rw [List.cons_prefix_cons] at h
      obtain ⟨rfl, h⟩ := h
      rcases prefix_append h with h1 | ⟨p3, rfl, h1⟩
      · exact .inr (.inl ⟨p2, rfl, h1, pairLine_cut x (tok_prefix h1 (tok_fmtG y))⟩)
      · cases p3 with
        | nil =>
          rw [List.append_nil]
          exact .inr (.inl ⟨fmtG y, rfl, List.prefix_refl _, pairLine_cut x (tok_fmtG y)⟩)
        | cons d p4 =>
          rw [List.cons_prefix_cons, List.prefix_nil] at h1
          obtain ⟨rfl, rfl⟩ := h1
          exact .inr (.inr rfl)

theorem readCentroids_nil (n : Nat) (h : Sketch UInt64) : (readCentroids n [] h).2 = none ∨ (readCentroids n [] h).2 = some [] := by
  cases n with
  | zero => exact .inr rfl
  | succ n => exact .inl (by simp only [readCentroids, pairLine_nil])

theorem readCentroids_cut (cs : List (Centroid UInt64)) (p : Bytes) (hp : p <+: linesOf cs) (h : Sketch UInt64) :
    (readCentroids cs.length p h).2 = none ∨ (readCentroids cs.length p h).2 = some [] := by
  induction cs generalizing p h with
  | nil =>
    have : p = [] := List.prefix_nil.1 hp
    subst this
    exact .inr rfl
  | cons c cs ih =>
    have e : linesOf (c :: cs) = floatsLine c.p c.m ++ linesOf cs := by simp [linesOf]
    have whole : ∀ p', p' <+: linesOf cs → (readCentroids (c :: cs).length (floatsLine c.p c.m ++ p') h).2 = none ∨
        (readCentroids (c :: cs).length (floatsLine c.p c.m ++ p') h).2 = some [] := by
      intro p' hp'
      simp only [List.length_cons, readCentroids, pairLine_floats]
      exact ih p' hp' _
    rw [e] at hp
    rcases prefix_append hp with h' | ⟨p', rfl, h'⟩
    · rcases cut_line h' with ⟨_, e⟩ | ⟨q, _, _, e⟩ | rfl
      · simp only [List.length_cons, readCentroids, e]
        left
        cases parse64 p <;> rfl
      · simp only [List.length_cons, readCentroids, e]
        cases parse64 q with
        | none => exact .inl rfl
        | some y => exact readCentroids_nil _ _
      · have := whole [] List.nil_prefix
        rwa [List.append_nil] at this
    · exact whole p' h'

theorem intPart_prefix {p ds : Bytes} (hp : p <+: ds) (hn : p ≠ []) (h : IntPart ds) : IntPart p := by
  obtain ⟨c, t, rfl⟩ := List.exists_cons_of_ne_nil hn
  cases h with
  | zero =>
    rw [List.cons_prefix_cons, List.prefix_nil] at hp
    obtain ⟨rfl, rfl⟩ := hp
    exact .zero
  | nonzero d u h1 h2 h3 =>
    rw [List.cons_prefix_cons] at hp
    obtain ⟨rfl, hp⟩ := hp
    exact .nonzero c t h1 h2 fun x hx => h3 x (hp.subset hx)

theorem natOf_prefix {p ds : Bytes} (hp : p <+: ds) : natOf p ≤ natOf ds := by
  obtain ⟨t, rfl⟩ := hp
  rw [natOf_append]
  have : 1 ≤ 10 ^ t.length := Nat.one_le_pow _ _ (by omega)
  nlinarith [Nat.zero_le (natOf p), Nat.zero_le (natOf t)]

/-- the text of a sketch up to its greatest value -/
def upToMax (h : Sketch UInt64) : Bytes := b!"1\n" ++ (fmtInt h.cs.length ++ 10 :: (linesOf h.cs ++ (fmtG h.min ++ [32])))

/-- **C31**: if nothing but the end of the greatest value is missing, and what is left of it is a number, then the data loads without
error, with that number as the greatest value. -/
theorem C31_cut_value (h0 h : Sketch UInt64) (hl : h.cs.length < 2 ^ 44) (q : Bytes) (hq : q <+: fmtG h.max) (x : UInt64) (hx : parse64 q = some x) :
    unmarshal h0 (upToMax h ++ q) =
      ({ cs := h.cs.map canonC, cap := h.cs.length + 1, count := sumOf 0 h.cs, min := canon h.min, max := x }, .ok) := by
  have e : upToMax h ++ q = b!"1\n" ++ (fmtInt h.cs.length ++ 10 :: (linesOf h.cs ++ (fmtG h.min ++ 32 :: q))) := by simp [upToMax]
  rw [e, unmarshal_lines h0 h hl, pairLine_cut h.min (tok_prefix hq (tok_fmtG _)), hx]
  rfl

/-- **C31**: data that is cut is an error but where `C31_cut_value` says so, and never a panic. -/
theorem C31_cut (h0 h : Sketch UInt64) (hl : h.cs.length < 2 ^ 44) (p : Bytes) (hp : p <+: marshal h) :
    ((unmarshal h0 p).2 = .ok ∨ (unmarshal h0 p).2 = .err) ∧
    ((unmarshal h0 p).2 = .ok ↔ p = marshal h ∨ ∃ q x, q <+: fmtG h.max ∧ parse64 q = some x ∧ p = upToMax h ++ q) := by
  have ifok : (p = marshal h ∨ ∃ q x, q <+: fmtG h.max ∧ parse64 q = some x ∧ p = upToMax h ++ q) → (unmarshal h0 p).2 = .ok := by
    rintro (rfl | ⟨q, x, h1, h2, rfl⟩)
    · rw [C31_text h0 h hl]
    · rw [C31_cut_value h0 h hl q h1 x h2]
  suffices (unmarshal h0 p).2 = .err ∨ (p = marshal h ∨ ∃ q x, q <+: fmtG h.max ∧ parse64 q = some x ∧ p = upToMax h ++ q) by
    rcases this with e | h'
    · refine ⟨.inr e, ?_, ifok⟩
      rw [e]
      intro h'
      cases h'
    · exact ⟨.inl (ifok h'), fun _ => h', ifok⟩
  have hfi : fmtInt (h.cs.length : Int) = fmtNat h.cs.length := by
    unfold fmtInt
    rw [if_neg (by omega)]
    rfl
  have hp0 := hp
  rw [marshal_eq] at hp
  rcases prefix_append hp with h1 | ⟨p1, rfl, h1⟩
  · left
    have := inits_of h1
    have key : ∀ p ∈ List.inits b!"1\n", intLine p = none ∨ intLine p = some (1, []) := by decide +kernel
    have hz : intLine [] = none := by decide +kernel
    unfold unmarshal
    rcases key p this with e | e <;> simp [e, hz]
  have number : p1 <+: fmtNat h.cs.length → (unmarshal h0 (b!"1\n" ++ p1)).2 = .err := by
    intro h2
    have e1 : intLine (b!"1\n" ++ p1) = some (1, p1) := intLine_fmtInt 1 (by decide) _
    by_cases hn : p1 = []
    · subst hn
      have hz : intLine [] = none := by decide +kernel
      unfold unmarshal
      rw [e1]
      simp [hz]
    · have hi := intPart_prefix h2 hn (Json.fmtNat_intPart _)
      have hle := natOf_prefix h2
      rw [natOf_fmtNat] at hle
      unfold unmarshal
      rw [e1]
      simp only [ne_eq, not_true_eq_false, if_false, intLine_end hi (by omega)]
      rw [if_neg (by unfold maxCentroids; omega)]
      rcases hr : readCentroids (natOf p1 : Int).toNat [] _ with ⟨h', s⟩
      have := readCentroids_nil (natOf p1 : Int).toNat { h0 with cs := [], cap := ((natOf p1 : Int) + 1).toNat, count := 0 }
      rw [hr] at this
      rcases this with e | e
      · have e : s = none := e
        subst e
        rfl
      · have e : s = some [] := e
        subst e
        simp only [pairLine_nil]
        rfl
  rw [hfi] at h1
  rcases prefix_append h1 with h2 | ⟨p2, rfl, h2⟩
  · exact .inl (number h2)
  cases p2 with
  | nil =>
    rw [List.append_nil] at number ⊢
    exact .inl (number (List.prefix_refl _))
  | cons c p3 =>
    rw [List.cons_prefix_cons] at h2
    obtain ⟨rfl, h2⟩ := h2
    rw [← hfi]
    rcases prefix_append h2 with h3 | ⟨p4, rfl, h3⟩
    · left
      rw [unmarshal_header _ _ (by unfold IsInt64; omega), if_neg (by unfold maxCentroids; omega), Int.toNat_natCast]
      have := readCentroids_cut h.cs p3 h3 { h0 with cs := [], cap := ((h.cs.length : Int) + 1).toNat, count := 0 }
      rcases hr : readCentroids h.cs.length p3 { h0 with cs := [], cap := ((h.cs.length : Int) + 1).toNat, count := 0 } with ⟨h', s⟩
      rw [hr] at this
      rcases this with e | e
      · have e : s = none := e
        subst e
        rfl
      · have e : s = some [] := e
        subst e
        simp only [pairLine_nil]
        rfl
    · rcases cut_line h3 with ⟨_, e⟩ | ⟨q, rfl, hq, e⟩ | rfl
      · left
        rw [unmarshal_lines h0 h hl, e]
        rfl
      · cases hx : parse64 q with
        | none =>
          left
          rw [unmarshal_lines h0 h hl, e, hx]
          rfl
        | some x => exact .inr (.inr ⟨q, x, hq, hx, by simp [upToMax]⟩)
      · exact .inr (.inl (marshal_eq h).symm)

/-! ### examples -/

/-- two bins, one of them merged, from 0.5 to 12.5 -/
def sample : Sketch UInt64 := { cs := [⟨0x3FE0000000000000, Ieee.ofInt 1⟩, ⟨0x4022000000000000, Ieee.ofInt (-3)⟩], cap := 3, count := Ieee.ofInt 4, min := 0x3FE0000000000000, max := 0x4029000000000000 }

example : marshal sample = b!"1\n2\n0.5 1\n9 -3\n0.5 12.5\n" := by decide +kernel

/-- loaded: the count is not that of before -/
example : unmarshal sample (marshal sample) = ({ sample with count := Ieee.ofInt (-2) }, .ok) := by decide +kernel

/-- cut within the greatest value: 12.5 has become 1 -/
example : unmarshal sample b!"1\n2\n0.5 1\n9 -3\n0.5 1" = ({ sample with count := Ieee.ofInt (-2), max := Ieee.ofInt 1 }, .ok) := by decide +kernel

/-- cut before it: an error, but the sketch is no longer what it was -/
example : unmarshal sample b!"1\n2\n0.5 1\n9" = ({ sample with cs := [⟨0x3FE0000000000000, Ieee.ofInt 1⟩], count := Ieee.ofInt 1 }, .err) := by decide +kernel

example : unmarshal sample b!"1\n-2\n" = (sample, .panic) := by decide +kernel

/-- numbers are taken in any of the notations of Go: a version of `0x1`, a bin at 2^3 -/
example : (unmarshal sample b!"0x1\n  1 \n1p3 +1e0\n0.5 12.5\n").1.cs = [⟨Ieee.ofInt 8, Ieee.ofInt 1⟩] ∧ (unmarshal sample b!"0x1\n  1 \n1p3 +1e0\n0.5 12.5\n").2 = .ok := by
  decide +kernel

end Verif.Sketch
