import Verif.Props.Stats
import Verif.Lemmas.IeeeRound
/-
C28, C29: the statistics of a column of numbers, strings, booleans or nulls.
-/
set_option autoImplicit false
namespace Verif.Stats
open Sketch Ieee

/-! ### Numbers -/

theorem fold_num (L : Lib) (vs : List Val) (a : NumAcc) (b : Acc) (h : vs.foldlM (write L) (.num a) = some b) :
    ∃ c, b = .num c ∧ addAll ieee a.sketch ((vs.filterMap number).map fun x => (x, 1)) = some c.sketch ∧ c.count = a.count + (vs.filterMap number).length ∧
      c.mean = (vs.filterMap number).foldl Ieee.add a.mean ∧
      c.max = (vs.filterMap number).foldl (fun m x => if Ieee.lt m x then x else m) a.max ∧
      c.min = (vs.filterMap number).foldl (fun m x => if Ieee.lt x m then x else m) a.min := by
  induction vs generalizing a with
  | nil =>
    simp only [List.foldlM_nil, pure, Option.some.injEq] at h
    exact ⟨a, h.symm, rfl, rfl, rfl, rfl, rfl⟩
  | cons v vs ih =>
    simp only [List.foldlM_cons, bind, Option.bind_eq_some_iff] at h
    obtain ⟨d, hd, h⟩ := h
    have ew : write L (.num a) v = (a.write v).map .num := by cases v <;> rfl
    rw [ew, Option.map_eq_some_iff] at hd
    obtain ⟨d, hd, rfl⟩ := hd
    obtain ⟨c, rfl, c1, c2, c3, c4, c5⟩ := ih d h
    refine ⟨c, rfl, ?_⟩
    unfold NumAcc.write at hd
    cases hn : number v with
    | none =>
      simp only [hn, Option.some.injEq] at hd
      subst hd
      rw [List.filterMap_cons_none hn]
      exact ⟨c1, c2, c3, c4, c5⟩
    | some x =>
      simp only [hn, Option.map_eq_some_iff] at hd
      obtain ⟨sk, hsk, rfl⟩ := hd
      rw [List.filterMap_cons_some hn]
      refine ⟨?_, by rw [c2]; simp; omega, c3, c4, c5⟩
      have hsk' : addMany ieee a.sketch x ((1 : Nat) : Int) = some sk := hsk
      simp only [List.map_cons, addAll, hsk', Option.bind_some]
      exact c1

theorem foldMin (xs : List UInt64) (m : UInt64) (hm : f64NaN m = false) :
    f64NaN (xs.foldl (fun m x => if Ieee.lt x m then x else m) m) = false ∧
      val (xs.foldl (fun m x => if Ieee.lt x m then x else m) m) ≤ val m ∧
      (∀ x ∈ xs, f64NaN x = false → val (xs.foldl (fun m x => if Ieee.lt x m then x else m) m) ≤ val x) ∧
      (xs.foldl (fun m x => if Ieee.lt x m then x else m) m ∈ xs ∨ xs.foldl (fun m x => if Ieee.lt x m then x else m) m = m) := by
  induction xs generalizing m with
  | nil => exact ⟨hm, Int.le_refl _, nofun, .inr rfl⟩
  | cons x xs ih =>
    rw [List.foldl_cons]
    by_cases hx : Ieee.lt x m = true
    · rw [if_pos hx]
      have nx : f64NaN x = false := by
        unfold Ieee.lt f64Gt at hx
        cases h : f64NaN x <;> simp_all
      obtain ⟨h1, h2, h3, h4⟩ := ih x nx
      have hlt := (lt_val nx hm).mp hx
      refine ⟨h1, Int.le_trans h2 (Int.le_of_lt hlt), ?_, ?_⟩
      · intro y hy ny
        rcases List.mem_cons.mp hy with rfl | hy
        · exact h2
        · exact h3 y hy ny
      · left
        rcases h4 with h | h
        · exact List.mem_cons_of_mem _ h
        · rw [h]; exact List.mem_cons_self
    · rw [if_neg hx]
      obtain ⟨h1, h2, h3, h4⟩ := ih m hm
      refine ⟨h1, h2, ?_, h4.imp (List.mem_cons_of_mem _) id⟩
      intro y hy ny
      rcases List.mem_cons.mp hy with rfl | hy
      · have := mt (lt_val ny hm).mpr hx
        exact Int.le_trans h2 (Int.not_lt.mp this)
      · exact h3 y hy ny

theorem foldMax (xs : List UInt64) (m : UInt64) (hm : f64NaN m = false) :
    f64NaN (xs.foldl (fun m x => if Ieee.lt m x then x else m) m) = false ∧
      val m ≤ val (xs.foldl (fun m x => if Ieee.lt m x then x else m) m) ∧
      (∀ x ∈ xs, f64NaN x = false → val x ≤ val (xs.foldl (fun m x => if Ieee.lt m x then x else m) m)) ∧
      (xs.foldl (fun m x => if Ieee.lt m x then x else m) m ∈ xs ∨ xs.foldl (fun m x => if Ieee.lt m x then x else m) m = m) := by
  induction xs generalizing m with
  | nil => exact ⟨hm, Int.le_refl _, nofun, .inr rfl⟩
  | cons x xs ih =>
    rw [List.foldl_cons]
    by_cases hx : Ieee.lt m x = true
    · rw [if_pos hx]
      have nx : f64NaN x = false := by
        unfold Ieee.lt f64Gt at hx
        cases h : f64NaN x <;> simp_all
      obtain ⟨h1, h2, h3, h4⟩ := ih x nx
      have hlt := (lt_val hm nx).mp hx
      refine ⟨h1, Int.le_trans (Int.le_of_lt hlt) h2, ?_, ?_⟩
      · intro y hy ny
        rcases List.mem_cons.mp hy with rfl | hy
        · exact h2
        · exact h3 y hy ny
      · left
        rcases h4 with h | h
        · exact List.mem_cons_of_mem _ h
        · rw [h]; exact List.mem_cons_self
    · rw [if_neg hx]
      obtain ⟨h1, h2, h3, h4⟩ := ih m hm
      refine ⟨h1, h2, ?_, h4.imp (List.mem_cons_of_mem _) id⟩
      intro y hy ny
      rcases List.mem_cons.mp hy with rfl | hy
      · have := mt (lt_val hm ny).mpr hx
        exact Int.le_trans (Int.not_lt.mp this) h2
      · exact h3 y hy ny

/-- the closed form of what is reported -/
theorem numMap (a : NumAcc) (h : a.count ≠ 0) :
    a.map = [(b!"count", .gint a.count),
      (b!"histogram", .obj [(b!"bins", .arr (a.dividers.map .f64)), (b!"frequencies", .arr (a.histogram.map .f64))]),
      (b!"max", .f64 a.max), (b!"mean", .f64 a.mean)] ++
      (if f64Eq a.median maxFloat then [] else [(b!"median", .f64 a.median)]) ++ [(b!"min", .f64 a.min)] := by
  unfold NumAcc.map
  rw [if_neg h]
  by_cases hq : f64Eq a.median maxFloat = true
  · simp only [if_pos hq]; rfl
  · simp only [if_neg hq]; rfl

/-- The number a value stands for in these statistics: a float stands for itself, an integer for the float64 nearest to it (for itself up to 2^53), nothing else for any. -/
theorem C28_number_of_value (v : Val) (x : UInt64) : number v = some x →
    v = .f64 x ∨ ∃ i, (v = .int i ∨ v = .gint i) ∧ Ieee.Rounds x (i * Ieee.unit) 1 ∧ Ieee.isNeg x = decide (i < 0) ∧
      (i.natAbs ≤ 2 ^ 53 → Ieee.val x = i * Ieee.unit) := by
  have key : ∀ i : Int, Ieee.isNeg (Ieee.ofInt i) = decide (i < 0) := fun i =>
    Ieee.isNeg_mk _ (Nat.lt_of_le_of_lt (Ieee.rnd_le _ _) Ieee.infKey_lt)
  intro h
  cases v <;> simp only [number, Option.some.injEq, reduceCtorEq] at h
  · rename_i i; subst h
    exact .inr ⟨i, .inl rfl, Ieee.ofInt_rounds i, key i, fun h => Ieee.val_ofInt h⟩
  · rename_i i; subst h
    exact .inr ⟨i, .inr rfl, Ieee.ofInt_rounds i, key i, fun h => Ieee.val_ofInt h⟩
  · subst h; exact .inl rfl

example : number (.int (-3)) = some 0xC008000000000000 ∧ number (.gint (2 ^ 53 + 1)) = some 0x4340000000000000 ∧ number (.str b!"1") = none := by decide +kernel

/-- What is reported for a column whose first value is a number: of the numbers `xs` in it, whatever their types, the number, the sum in the order of the rows
divided by the number, the extrema, and of the sketch of them the median, the bins followed by one more than the maximum, and the weights.  The minimum is at most 2^63
and the maximum at least -2^63; only if no number lies on that side are they wrong, then being those bounds. -/
theorem C28_numbers (L : Lib) (hL : L.bins ≠ 0) (v : Val) (vs : List Val) (hv : (number v).isSome = true) :
    ∃ (xs : List UInt64) (h0 h : Sketch UInt64) (q mn mx : UInt64), xs = (v :: vs).filterMap number ∧ new ieee L.bins = some h0 ∧
      addAll ieee h0 (xs.map fun x => (x, 1)) = some h ∧ median h = some q ∧
      (∀ x ∈ xs, f64NaN x = false → Ieee.le mn x = true ∧ Ieee.le x mx = true) ∧ (mn ∈ xs ∨ mn = ofInt (2 ^ 63)) ∧ (mx ∈ xs ∨ mx = ofInt (-2 ^ 63)) ∧
      details L (v :: vs) = [(b!"count", .gint xs.length),
        (b!"histogram", .obj [(b!"bins", .arr ((h.cs.map fun c => Val.f64 c.p) ++ [.f64 (Ieee.add h.max (ofInt 1))])), (b!"frequencies", .arr (h.cs.map fun c => Val.f64 c.m))]),
        (b!"max", .f64 mx), (b!"mean", .f64 (Ieee.div (xs.foldl Ieee.add (ofInt 0)) (ofInt xs.length)))] ++
        (if f64Eq q (ofInt (2 ^ 63)) then [] else [(b!"median", .f64 q)]) ++ [(b!"min", .f64 mn)] := by
  have emax : maxFloat = ofInt (2 ^ 63) := by decide +kernel
  have emin : minFloat = ofInt (-2 ^ 63) := by decide +kernel
  have ez : (0 : UInt64) = ofInt 0 := by decide +kernel
  obtain ⟨x, hx⟩ := Option.isSome_iff_exists.mp hv
  obtain ⟨a, ha, ga⟩ := run_good L hL (v :: vs) (by simp)
  have hnew : ∃ h0, new ieee L.bins = some h0 := Option.isSome_iff_exists.mp (by simp [Sketch.new, hL])
  obtain ⟨h0, en⟩ := hnew
  have hacc : newAcc L v = some (.num { count := 0, min := maxFloat, max := minFloat, mean := 0, median := maxFloat, dividers := [], histogram := [], sketch := h0 }) := by
    cases v <;> first | (simp [number] at hx; done) | simp [newAcc, newNumericAcc, en]
  have hf : (v :: vs).foldlM (write L) (.num { count := 0, min := maxFloat, max := minFloat, mean := 0, median := maxFloat, dividers := [], histogram := [], sketch := h0 }) = some a := by
    rw [run, hacc] at ha; exact ha
  obtain ⟨c, rfl, c1, c2, c3, c4, c5⟩ := fold_num L _ _ _ hf
  have nmax : f64NaN maxFloat = false := by decide
  have nmin : f64NaN minFloat = false := by decide
  obtain ⟨n1, n2, n3, n4⟩ := foldMin ((v :: vs).filterMap number) maxFloat nmax
  obtain ⟨m1, m2, m3, m4⟩ := foldMax ((v :: vs).filterMap number) minFloat nmin
  obtain ⟨q, hq⟩ := median_some c.sketch ga
  have hne : ((v :: vs).filterMap number).length ≠ 0 := by rw [List.filterMap_cons_some hx]; simp
  simp only at c1 c2 c3 c4 c5
  rw [← c5] at n1 n2 n3 n4
  rw [← c4] at m1 m2 m3 m4
  have ed : details L (v :: vs) = NumAcc.map { c with mean := Ieee.div c.mean (Ieee.ofInt c.count), dividers := (Sketch.read ieee c.sketch).1, histogram := (Sketch.read ieee c.sketch).2, median := q } := by
    simp [details, ha, close, NumAcc.close, hq, Acc.map]
  refine ⟨_, h0, c.sketch, q, c.min, c.max, rfl, en, c1, hq, ?_, ?_, ?_, ?_⟩
  · intro x hx nx
    exact ⟨(le_val n1 nx).mpr (n3 x hx nx), (le_val nx m1).mpr (m3 x hx nx)⟩
  · rw [← emax]; exact n4
  · rw [← emin]; exact m4
  · rw [ed, numMap _ (by show c.count ≠ 0; omega), ← emax]
    simp only [c2, c3, Nat.zero_add, Sketch.read, List.map_append, List.map_map, List.map_cons, List.map_nil, ez, ieee_add, ieee_ofInt, Function.comp_def]

theorem sum_exact' (is : List Int) (S : Int) (hS : S.natAbs ≤ 2 ^ 53) (he : ∀ i ∈ is, i.natAbs ≤ 2 ^ 53) (hp : ∀ k : Nat, (S + (is.take k).sum).natAbs ≤ 2 ^ 53) :
    (is.map Ieee.ofInt).foldl Ieee.add (Ieee.ofInt S) = Ieee.ofInt (S + is.sum) := by
  induction is generalizing S with
  | nil => simp
  | cons i is ih =>
    have h1 := hp 1
    simp only [List.take_succ_cons, List.take_zero, List.sum_cons, List.sum_nil, Int.add_zero] at h1
    rw [List.map_cons, List.foldl_cons, add_ofInt hS (he i (by simp)) h1, ih (S + i) h1 (fun j hj => he j (by simp [hj])), List.sum_cons, Int.add_assoc]
    intro k
    have := hp (k + 1)
    rwa [List.take_succ_cons, List.sum_cons, ← Int.add_assoc] at this

/-- The mean of whole numbers whose sums, up to any row, do not exceed 2^53 is the float64 closest to the true mean. -/
theorem C28_mean (L : Lib) (hL : L.bins ≠ 0) (v : Val) (vs : List Val) (hv : (number v).isSome = true) (is : List Int)
    (hi : (v :: vs).filterMap number = is.map ofInt) (he : ∀ i ∈ is, i.natAbs ≤ 2 ^ 53) (hp : ∀ k : Nat, ((is.take k).sum).natAbs ≤ 2 ^ 53) (hn : is.length ≤ 2 ^ 53) :
    ∃ mean, mapGet (details L (v :: vs)) b!"mean" = some (.f64 mean) ∧ Ieee.Finite mean ∧
      ∀ y : UInt64, (val mean * is.length - is.sum * unit).natAbs ≤ (val y * is.length - is.sum * unit).natAbs := by
  obtain ⟨xs, h0, h, q, mn, mx, ex, en, e, hq, hb, hmn, hmx, ed⟩ := C28_numbers L hL v vs hv
  have hlen : xs.length = is.length := by rw [ex, hi, List.length_map]
  have hpos : 1 ≤ is.length := by
    obtain ⟨x, hx⟩ := Option.isSome_iff_exists.mp hv
    rw [← hlen, ex, List.filterMap_cons_some hx]; simp
  have hs : is.sum.natAbs ≤ 2 ^ 53 := by have := hp is.length; rwa [List.take_length] at this
  have hz := sum_exact' is 0 (by decide) he (fun k => by rw [Int.zero_add]; exact hp k)
  obtain ⟨d1, d2⟩ := div_nearest (a := is.sum) (n := is.length) hs hpos hn
  refine ⟨_, ?_, d1, d2⟩
  rw [ed, ex, hi, hz, List.length_map, Int.zero_add]
  rfl

theorem total_count (xs : List UInt64) (P : UInt64 → Bool) : total ((xs.map fun x => (x, 1)).filter fun p => P p.1) = xs.countP P := by
  induction xs with
  | nil => rfl
  | cons x xs ih =>
    rw [List.map_cons, List.filter_cons, List.countP_cons]
    cases P x <;> simp only [if_true, if_false, Bool.false_eq_true]
    · exact ih
    · rw [← ih]; simp [total]; omega

theorem total_length (xs : List UInt64) : total (xs.map fun x => (x, 1)) = xs.length := by simp [total, Function.comp_def]

/-- Up to 2^22 finite numbers of at most as many different values as bins: the median reported is the first value for which all smaller values and half its own occurrences
are at least half of the numbers, or else the greatest; nothing is reported if it is 2^63. -/
theorem C28_median (L : Lib) (hL : L.bins ≠ 0) (v : Val) (vs : List Val) (hv : (number v).isSome = true) (xs : List UInt64) (hx : xs = (v :: vs).filterMap number)
    (hf : ∀ x ∈ xs, Ieee.Finite x) (hB : xs.length ≤ 2 ^ 22) (ks : List Int) (hks : ks.length ≤ L.bins) (hk : ∀ x ∈ xs, val x ∈ ks) :
    ∃ q w, w ∈ xs ∧ val q = val w ∧ mapGet (details L (v :: vs)) b!"median" = (if f64Eq q (ofInt (2 ^ 63)) then none else some (.f64 q)) ∧
      (∀ u ∈ xs, val u < val w → 2 * xs.countP (fun x => val x < val u) + xs.countP (fun x => val x = val u) < xs.length) ∧
      (xs.length ≤ 2 * xs.countP (fun x => val x < val w) + xs.countP (fun x => val x = val w) ∨ ∀ u ∈ xs, val u ≤ val w) := by
  obtain ⟨xs', h0, h, q, mn, mx, ex, en, e, hq, hb, hmn, hmx, ed⟩ := C28_numbers L hL v vs hv
  have : xs' = xs := by rw [ex, hx]
  subst this
  have hne : xs' ≠ [] := by
    obtain ⟨x, hx'⟩ := Option.isSome_iff_exists.mp hv
    rw [ex, List.filterMap_cons_some hx']; simp
  obtain ⟨q', hq', w, hw, e1, e2, e3⟩ := C62_median L.bins (xs'.map fun x => (x, 1)) h0 h en e (by simpa using hne) (by simp) (by simpa using hf)
    (by rw [total_length]; exact hB) ks hks (by simpa using hk)
  rw [hq] at hq'
  cases hq'
  obtain ⟨x, hx', rfl⟩ := List.mem_map.mp hw
  have cb : ∀ k, below val (xs'.map fun x => (x, 1)) k = xs'.countP fun x => val x < k := fun k => total_count xs' fun x => val x < k
  have cm : ∀ k, mult val (xs'.map fun x => (x, 1)) k = xs'.countP fun x => val x = k := fun k => total_count xs' fun x => val x = k
  refine ⟨q, x, hx', e1, ?_, ?_, ?_⟩
  · rw [ed]
    split <;> rfl
  · intro u hu hlt
    have := e2 (u, 1) (List.mem_map.mpr ⟨u, hu, rfl⟩) hlt
    rwa [cb, cm, total_length] at this
  · rcases e3 with h | h
    · left; rwa [cb, cm, total_length] at h
    · right; intro u hu; exact h (u, 1) (List.mem_map.mpr ⟨u, hu, rfl⟩)

/-- Up to 2^53 finite numbers of at most as many different values as bins: the bins are the different values in order, followed by one more than the greatest, and the
frequencies are their numbers of occurrences. -/
theorem C28_histogram (L : Lib) (hL : L.bins ≠ 0) (v : Val) (vs : List Val) (hv : (number v).isSome = true) (xs : List UInt64) (hx : xs = (v :: vs).filterMap number)
    (hf : ∀ x ∈ xs, Ieee.Finite x) (hB : xs.length ≤ 2 ^ 53) (ks : List Int) (hks : ks.length ≤ L.bins) (hk : ∀ x ∈ xs, val x ∈ ks) :
    ∃ (ps : List UInt64) (g : UInt64), ps.Pairwise (fun a b => Ieee.lt a b = true) ∧ (∀ p ∈ ps, p ∈ xs) ∧ (∀ x ∈ xs, ∃ p ∈ ps, f64Eq p x = true) ∧
      (∀ x ∈ xs, Ieee.le x g = true) ∧ (∃ x ∈ xs, f64Eq g x = true) ∧
      mapGet (details L (v :: vs)) b!"histogram" = some (.obj [(b!"bins", .arr (ps.map Val.f64 ++ [.f64 (Ieee.add g (ofInt 1))])),
        (b!"frequencies", .arr (ps.map fun p => .f64 (ofInt (xs.countP fun x => val x = val p))))]) := by
  obtain ⟨xs', h0, h, q, mn, mx, ex, en, e, hq, hb, hmn, hmx, ed⟩ := C28_numbers L hL v vs hv
  have : xs' = xs := by rw [ex, hx]
  subst this
  have hne : xs' ≠ [] := by
    obtain ⟨x, hx'⟩ := Option.isSome_iff_exists.mp hv
    rw [ex, List.filterMap_cons_some hx']; simp
  have hf' : ∀ p ∈ xs'.map (fun x => (x, 1)), Ieee.Finite p.1 := by simpa using hf
  obtain ⟨e1, e2, e3⟩ := C30_exact L.bins (xs'.map fun x => (x, 1)) h0 h en e (by simp) hf' (by rw [total_length]; exact hB) ks hks (by simpa using hk)
  obtain ⟨x1, _, p, hp, x3⟩ := C30_extrema L.bins (xs'.map fun x => (x, 1)) h0 h en e hf' (by simpa using hne)
  obtain ⟨x, hx', rfl⟩ := List.mem_map.mp hp
  refine ⟨h.cs.map (·.p), h.max, List.pairwise_map.mpr e1, ?_, ?_, ?_, ⟨x, hx', x3⟩, ?_⟩
  · intro p hp
    obtain ⟨c, hc, rfl⟩ := List.mem_map.mp hp
    obtain ⟨r, hr, er⟩ := (e2 c hc).1
    obtain ⟨y, hy, rfl⟩ := List.mem_map.mp hr
    exact er ▸ hy
  · intro x hx
    obtain ⟨c, hc, ec⟩ := e3 (x, 1) (List.mem_map.mpr ⟨x, hx, rfl⟩)
    exact ⟨c.p, List.mem_map.mpr ⟨c, hc, rfl⟩, ec⟩
  · intro x hx
    exact (x1 (x, 1) (List.mem_map.mpr ⟨x, hx, rfl⟩)).2
  · have hm : h.cs.map (fun c => Val.f64 c.m) = (h.cs.map (·.p)).map fun p => Val.f64 (ofInt (xs'.countP fun x => val x = val p)) := by
      rw [List.map_map]
      apply List.map_congr_left
      intro c hc
      rw [(e2 c hc).2, total_count xs' fun x => val x = val c.p]
      rfl
    rw [ed, ← hm, List.map_map]
    rfl

/-- However many different values: there is one frequency per bin, and one more bin; the frequencies without their signs add up to the number of values (up to 2^53). -/
theorem C28_mass (L : Lib) (hL : L.bins ≠ 0) (v : Val) (vs : List Val) (hv : (number v).isSome = true) (hB : ((v :: vs).filterMap number).length ≤ 2 ^ 53) :
    ∃ bins freqs : List UInt64, mapGet (details L (v :: vs)) b!"histogram" = some (.obj [(b!"bins", .arr (bins.map Val.f64)), (b!"frequencies", .arr (freqs.map Val.f64))]) ∧
      bins.length = freqs.length + 1 ∧ 1 ≤ freqs.length ∧ freqs.length ≤ L.bins ∧
      (freqs.map fun f => Ieee.toInt (Ieee.abs f)).sum = ((v :: vs).filterMap number).length := by
  obtain ⟨xs, h0, h, q, mn, mx, ex, en, e, hq, hb, hmn, hmx, ed⟩ := C28_numbers L hL v vs hv
  rw [← ex] at hB ⊢
  have hne : xs ≠ [] := by
    obtain ⟨x, hx'⟩ := Option.isSome_iff_exists.mp hv
    rw [ex, List.filterMap_cons_some hx']; simp
  obtain ⟨_, _, m3⟩ := C30_mass L.bins (xs.map fun x => (x, 1)) h0 h en e (by simp) (by rw [total_length]; exact hB)
  refine ⟨h.cs.map (·.p) ++ [Ieee.add h.max (ofInt 1)], h.cs.map (·.m), ?_, by simp, ?_, ?_, ?_⟩
  · rw [ed, List.map_append, List.map_map, List.map_map]
    rfl
  · rw [List.length_map]
    rcases C30_size ieee L.bins (xs.map fun x => (x, 1)) with h' | ⟨h0', h', en', e', _, s2⟩
    · exact absurd h'.1 hL
    · rw [en] at en'; cases en'; rw [e] at e'; cases e'
      exact s2 (by simpa using hne)
  · rw [List.length_map]
    rcases C30_size ieee L.bins (xs.map fun x => (x, 1)) with h' | ⟨h0', h', en', e', s1, _⟩
    · exact absurd h'.1 hL
    · rw [en] at en'; cases en'; rw [e] at e'; cases e'
      exact s1
  · rw [List.map_map, ← total_length]
    exact m3

/-! ### Strings -/

def text : Val → Option Bytes
  | .str s => some s
  | _ => none

theorem fold_str (L : Lib) (vs : List Val) (a : StrAcc) (b : Acc) (h : vs.foldlM (write L) (.str a) = some b) :
    b = .str ((vs.filterMap text).foldl StrAcc.write a) := by
  induction vs generalizing a with
  | nil => simp only [List.foldlM_nil, pure, Option.some.injEq] at h; exact h.symm
  | cons v vs ih =>
    simp only [List.foldlM_cons, bind, Option.bind_eq_some_iff] at h
    obtain ⟨d, hd, h⟩ := h
    cases v <;> simp only [write, Option.some.injEq] at hd <;> subst hd <;> exact ih _ h

theorem fold_seen (ss : List Bytes) (a : StrAcc) :
    (ss.foldl StrAcc.write a).seen = a.seen ++ ss ∧ (ss.foldl StrAcc.write a).count = a.count + ss.length := by
  induction ss generalizing a with
  | nil => simp
  | cons s ss ih =>
    obtain ⟨h1, h2⟩ := ih (a.write s)
    rw [List.foldl_cons, h1, h2]
    simp [StrAcc.write]; omega

theorem fold_lengths (ss : List Bytes) (a : StrAcc) :
    ((ss.foldl StrAcc.write a).minLength ≤ a.minLength ∧ (∀ s ∈ ss, (ss.foldl StrAcc.write a).minLength ≤ s.length) ∧
      ((∃ s ∈ ss, (ss.foldl StrAcc.write a).minLength = s.length) ∨ (ss.foldl StrAcc.write a).minLength = a.minLength)) ∧
    (a.maxLength ≤ (ss.foldl StrAcc.write a).maxLength ∧ (∀ s ∈ ss, (s.length : Int) ≤ (ss.foldl StrAcc.write a).maxLength) ∧
      ((∃ s ∈ ss, (ss.foldl StrAcc.write a).maxLength = s.length) ∨ (ss.foldl StrAcc.write a).maxLength = a.maxLength)) := by
  induction ss generalizing a with
  | nil => simp
  | cons s ss ih =>
    obtain ⟨⟨n1, n2, n3⟩, m1, m2, m3⟩ := ih (a.write s)
    rw [List.foldl_cons]
    have en : (a.write s).minLength = if (s.length : Int) < a.minLength then (s.length : Int) else a.minLength := rfl
    have em : (a.write s).maxLength = if (s.length : Int) > a.maxLength then (s.length : Int) else a.maxLength := rfl
    refine ⟨⟨?_, ?_, ?_⟩, ?_, ?_, ?_⟩
    · rw [en] at n1; split at n1 <;> omega
    · intro t ht
      rcases List.mem_cons.mp ht with rfl | ht
      · rw [en] at n1; split at n1 <;> omega
      · exact n2 t ht
    · rcases n3 with ⟨t, ht, e⟩ | e
      · exact .inl ⟨t, List.mem_cons_of_mem _ ht, e⟩
      · rw [en] at e
        split at e
        · exact .inl ⟨s, List.mem_cons_self, e⟩
        · exact .inr e
    · rw [em] at m1; split at m1 <;> omega
    · intro t ht
      rcases List.mem_cons.mp ht with rfl | ht
      · rw [em] at m1; split at m1 <;> omega
      · exact m2 t ht
    · rcases m3 with ⟨t, ht, e⟩ | e
      · exact .inl ⟨t, List.mem_cons_of_mem _ ht, e⟩
      · rw [em] at e
        split at e
        · exact .inl ⟨s, List.mem_cons_self, e⟩
        · exact .inr e

theorem strMap (a : StrAcc) (h : a.count ≠ 0) :
    a.map = [(b!"count", .gint a.count), (b!"frequencies", .obj (a.frequencies.map fun p => (p.1, .gint p.2))), (b!"maxLength", .gint a.maxLength), (b!"minLength", .gint a.minLength)] ++
      (if a.unique = 0 then [] else [(b!"unique", .gint a.unique)]) := by
  unfold StrAcc.map
  rw [if_neg h]
  by_cases hq : a.unique = 0
  · simp only [hq, if_true]; rfl
  · simp only [ne_eq, hq, not_false_eq_true, if_true, if_false]; rfl

/-- What is reported for a column whose first value is a string: of the strings `ss` in it, the number, the extrema of their lengths in bytes, the estimate of
the number of different ones, if not zero, and the counts of the most frequent ones. -/
theorem C29_strings (L : Lib) (hL : L.bins ≠ 0) (s : Bytes) (vs : List Val) (hs : ∀ t ∈ (Val.str s :: vs).filterMap text, t.length < 2 ^ 63) :
    ∃ (ss : List Bytes) (mn mx : Nat), ss = (Val.str s :: vs).filterMap text ∧ (∀ t ∈ ss, mn ≤ t.length ∧ t.length ≤ mx) ∧ (∃ t ∈ ss, t.length = mn) ∧ (∃ t ∈ ss, t.length = mx) ∧
      details L (.str s :: vs) = [(b!"count", .gint ss.length), (b!"frequencies", .obj ((freqMap 0 [] (L.top ss)).map fun p => (p.1, .gint p.2))),
        (b!"maxLength", .gint mx), (b!"minLength", .gint mn)] ++ (if L.estimate ss = 0 then [] else [(b!"unique", .gint (L.estimate ss))]) := by
  obtain ⟨a, ha, _⟩ := run_good L hL (.str s :: vs) (by simp)
  have hf : (Val.str s :: vs).foldlM (write L) (.str newStringAcc) = some a := ha
  have ea := fold_str L _ _ _ hf
  have h1 : s ∈ (Val.str s :: vs).filterMap text := by simp [text]
  have hlen : ((Val.str s :: vs).filterMap text).length ≠ 0 := by intro h; rw [List.length_eq_zero_iff.mp h] at h1; cases h1
  generalize hss : (Val.str s :: vs).filterMap text = ss at *
  obtain ⟨⟨n1, n2, n3⟩, m1, m2, m3⟩ := fold_lengths ss newStringAcc
  obtain ⟨c1, c2⟩ := fold_seen ss newStringAcc
  have e1 : newStringAcc.minLength = 2 ^ 63 - 1 := rfl
  have e2 : newStringAcc.maxLength = -2 ^ 63 := rfl
  have n4 : ∃ t ∈ ss, (ss.foldl StrAcc.write newStringAcc).minLength = t.length := by
    rcases n3 with h | h
    · exact h
    · refine ⟨s, h1, ?_⟩
      have := n2 s h1
      have := hs s h1
      omega
  have m4 : ∃ t ∈ ss, (ss.foldl StrAcc.write newStringAcc).maxLength = t.length := by
    rcases m3 with h | h
    · exact h
    · have := m2 s h1
      omega
  obtain ⟨t, ht, et⟩ := n4
  obtain ⟨u, hu, eu⟩ := m4
  have ed : details L (.str s :: vs) = StrAcc.map ((ss.foldl StrAcc.write newStringAcc).close L) := by simp [details, ha, ea, close, Acc.map]
  refine ⟨ss, t.length, u.length, rfl, ?_, ⟨t, ht, rfl⟩, ⟨u, hu, rfl⟩, ?_⟩
  · intro w hw
    have := n2 w hw
    have := m2 w hw
    omega
  · rw [ed, strMap _ (by show (ss.foldl StrAcc.write newStringAcc).count ≠ 0; omega)]
    simp only [StrAcc.close, c1, c2, et, eu, show newStringAcc.seen = [] from rfl, show newStringAcc.count = 0 from rfl, List.nil_append, Nat.zero_add]

theorem fmtNat_inj {i j : Nat} (h : fmtNat i = fmtNat j) : i = j := by
  have := parseNat_fmtNat i
  rw [h, parseNat_fmtNat j] at this
  exact (Option.some.inj this).symm

theorem mapSet_length {α : Type} {m : List (Bytes × α)} {k : Bytes} {v : α} (h : mapGet m k = none) : (mapSet m k v).length = m.length + 1 := by
  induction m with
  | nil => rfl
  | cons x m ih =>
    obtain ⟨j, w⟩ := x
    rw [mapGet] at h
    split at h
    · cases h
    · rename_i hk
      rw [mapSet, if_neg hk]
      split
      · rfl
      · simp [ih h]

/-- the digits at the end -/
theorem digits_unique (a b : Bytes) (i j : Nat) (h : a ++ 40 :: (fmtNat i ++ [41]) = b ++ 40 :: (fmtNat j ++ [41])) : fmtNat i = fmtNat j := by
  have key : ∀ (x y p q : Bytes), (∀ c ∈ x, isDigit c = true) → (∀ c ∈ y, isDigit c = true) → x ++ 40 :: p = y ++ 40 :: q → x = y := by
    intro x
    induction x with
    | nil =>
      intro y p q _ hy e
      cases y with
      | nil => rfl
      | cons c y =>
        simp only [List.nil_append, List.cons_append, List.cons.injEq] at e
        have := hy c (by simp)
        rw [← e.1] at this
        exact absurd this (by decide)
    | cons c x ih =>
      intro y p q hx hy e
      cases y with
      | nil =>
        simp only [List.nil_append, List.cons_append, List.cons.injEq] at e
        have := hx c (by simp)
        rw [e.1] at this
        exact absurd this (by decide)
      | cons d y =>
        simp only [List.cons_append, List.cons.injEq] at e
        rw [e.1, ih y p q (fun c hc => hx c (by simp [hc])) (fun c hc => hy c (by simp [hc])) e.2]
  have h2 := congrArg List.reverse h
  simp only [List.reverse_append, List.reverse_cons, List.reverse_nil, List.nil_append, List.append_assoc, List.cons_append, List.cons.injEq, true_and] at h2
  have := key _ _ _ _ (fun c hc => fmtNatF_digits _ _ c (List.mem_reverse.mp hc)) (fun c hc => fmtNatF_digits _ _ c (List.mem_reverse.mp hc)) h2
  exact List.reverse_injective this

/-- different strings are reported under different names -/
theorem freqKey_ne (i j : Nat) (k l : Bytes) (hij : i ≠ j) (hkl : k ≠ l) : freqKey i k ≠ freqKey j l := by
  unfold freqKey
  intro h
  split at h <;> split at h
  · have h' : (k.take maxKeyLen ++ b!"... " ++ fmtNat k.length ++ b!" chars ") ++ 40 :: (fmtNat i ++ [41]) =
        (l.take maxKeyLen ++ b!"... " ++ fmtNat l.length ++ b!" chars ") ++ 40 :: (fmtNat j ++ [41]) := by
      simpa [List.append_assoc] using h
    exact hij (fmtNat_inj (digits_unique _ _ i j h'))
  · have := congrArg List.length h
    simp only [List.length_append, List.length_take, List.length_cons, List.length_nil, maxKeyLen] at *
    omega
  · have := congrArg List.length h
    simp only [List.length_append, List.length_take, List.length_cons, List.length_nil, maxKeyLen] at *
    omega
  · exact hkl h

theorem freqMap_get (top : List (Bytes × Int)) (i : Nat) (m : List (Bytes × Int)) (k : Bytes) (hk : ∀ j p, top[j]? = some p → freqKey (i + j) p.1 ≠ k) :
    mapGet (freqMap i m top) k = mapGet m k := by
  induction top generalizing i m with
  | nil => rfl
  | cons p top ih =>
    obtain ⟨a, n⟩ := p
    rw [freqMap, ih (i + 1)]
    · exact mapGet_mapSet_ne _ _ (Ne.symm (hk 0 (a, n) rfl))
    · intro j p hp
      have := hk (j + 1) p (by simpa using hp)
      rwa [show i + 1 + j = i + (j + 1) by omega]

/-- Of the most frequent strings, given once each, every one is reported with its count: under itself, or if it is longer than 40 bytes under its first 40 bytes,
its length and its rank; no two get in each other's way. -/
theorem C29_frequencies (top : List (Bytes × Int)) (hn : (top.map (·.1)).Nodup) :
    (∀ (i : Nat) p, top[i]? = some p → mapGet (freqMap 0 [] top) (freqKey i p.1) = some p.2) ∧ (freqMap 0 [] top).length = top.length := by
  have main : ∀ (top : List (Bytes × Int)) (i : Nat) (m : List (Bytes × Int)), (top.map (·.1)).Nodup → (∀ (j : Nat) p, top[j]? = some p → mapGet m (freqKey (i + j) p.1) = none) →
      (∀ (j : Nat) p, top[j]? = some p → mapGet (freqMap i m top) (freqKey (i + j) p.1) = some p.2) ∧ (freqMap i m top).length = m.length + top.length := by
    intro top
    induction top with
    | nil => intro i m _ _; exact ⟨by simp, rfl⟩
    | cons p top ih =>
      intro i m hn hm
      obtain ⟨a, n⟩ := p
      rw [List.map_cons, List.nodup_cons] at hn
      have hne : ∀ (j : Nat) p, top[j]? = some p → freqKey (i + 1 + j) p.1 ≠ freqKey i a := by
        intro j p hp
        refine freqKey_ne _ _ _ _ (by omega) ?_
        rintro rfl
        exact hn.1 (List.mem_map.mpr ⟨p, List.mem_of_getElem? hp, rfl⟩)
      have h0 := hm 0 (a, n) rfl
      rw [Nat.add_zero] at h0
      obtain ⟨h1, h2⟩ := ih (i + 1) (mapSet m (freqKey i a) n) hn.2 (by
        intro j p hp
        rw [mapGet_mapSet_ne _ _ (hne j p hp)]
        have := hm (j + 1) p (by simpa using hp)
        rwa [show i + (j + 1) = i + 1 + j by omega] at this)
      refine ⟨?_, ?_⟩
      · intro j p hp
        cases j with
        | zero =>
          simp only [List.getElem?_cons_zero, Option.some.injEq] at hp
          subst hp
          rw [freqMap, Nat.add_zero]
          show mapGet _ (freqKey i a) = _
          rw [freqMap_get top (i + 1) _ _ hne, mapGet_mapSet_self]
        | succ j =>
          have := h1 j p (by simpa using hp)
          rwa [show i + 1 + j = i + (j + 1) by omega] at this
      · rw [freqMap, h2, mapSet_length h0]
        simp; omega
  obtain ⟨h1, h2⟩ := main top 0 [] hn (by intro j p _; rfl)
  refine ⟨fun i p hp => ?_, by simpa using h2⟩
  have := h1 i p hp
  rwa [Nat.zero_add] at this

/-! ### Booleans and nulls -/

def truth : Val → Option Bool
  | .bool b => some b
  | _ => none

/-- What is reported for a column whose first value is a boolean. -/
theorem C29_booleans (L : Lib) (b : Bool) (vs : List Val) :
    details L (.bool b :: vs) = [(b!"count", .gint ((Val.bool b :: vs).filterMap truth).length), (b!"falseCount", .gint (((Val.bool b :: vs).filterMap truth).count false)),
      (b!"trueCount", .gint (((Val.bool b :: vs).filterMap truth).count true))] := by
  have main : ∀ (vs : List Val) (c t f : Nat), vs.foldlM (write L) (.bool c t f) =
      some (.bool (c + (vs.filterMap truth).length) (t + (vs.filterMap truth).count true) (f + (vs.filterMap truth).count false)) := by
    intro vs
    induction vs with
    | nil => intro c t f; rfl
    | cons v vs ih =>
      intro c t f
      cases v with
      | bool b =>
        cases b <;> simp only [List.foldlM_cons, write, bind, Option.bind_some, if_true, if_false, Bool.false_eq_true, ih, List.filterMap_cons, truth, List.length_cons, List.count_cons, beq_self_eq_true]
          <;> simp <;> omega
      | _ => simp only [List.foldlM_cons, write, bind, Option.bind_some, ih, List.filterMap_cons, truth]
  have h : run L (.bool b :: vs) = (Val.bool b :: vs).foldlM (write L) (.bool 0 0 0) := rfl
  rw [details, h, main]
  simp only [Nat.zero_add, Option.bind_some, close, Option.map_some, Option.getD_some]
  rfl

/-- What is reported for a column whose first value is null, or of a type not known here: the number of nulls. -/
theorem C29_nulls (L : Lib) (v : Val) (vs : List Val) (hv : kind v = b!"null") : details L (v :: vs) = [(b!"count", .gint ((v :: vs).count .null))] := by
  have main : ∀ (vs : List Val) (c : Nat), vs.foldlM (write L) (.null c) = some (.null (c + vs.count .null)) := by
    intro vs
    induction vs with
    | nil => intro c; rfl
    | cons v vs ih =>
      intro c
      cases v <;> simp [List.foldlM_cons, write, bind, ih]
      omega
  have h : run L (v :: vs) = (v :: vs).foldlM (write L) (.null 0) := by
    cases v <;> first | rfl | (revert hv; simp [kind])
  rw [details, h, main]
  simp only [Nat.zero_add, Option.bind_some, close, Option.map_some, Option.getD_some]
  rfl

/-! ### Violations and examples -/

private def L0 : Lib := ⟨32, fun l => l.eraseDups.length, fun l => l.eraseDups.map fun s => (s, (l.count s : Int))⟩
private def F (i : Int) : UInt64 := ofInt i

/-- the minimum of 1e300 alone is reported as 2^63, the maximum of -1e300 alone as -2^63 -/
theorem C28_extrema_wrong : mapGet (details L0 [.f64 0x7E37E43C8800759C]) b!"min" = some (.f64 (F (2 ^ 63))) ∧
    mapGet (details L0 [.f64 0xFE37E43C8800759C]) b!"max" = some (.f64 (F (-2 ^ 63))) := by decide +kernel

/-- the median of 2^63 is not reported -/
theorem C28_median_missing : mapGet (details L0 [.f64 (F (2 ^ 63)), .f64 (F (2 ^ 63))]) b!"median" = none := by decide +kernel

/-- the median of 1, 1, 1, 2 is reported as 2 -/
theorem C28_median_wrong : mapGet (details L0 [.int 1, .int 1, .int 1, .int 2]) b!"median" = some (.f64 (F 2)) := by decide +kernel

/-- merged bins are reported with negative frequencies: of 0, 1, …, 32 the first two -/
theorem C28_negative_frequency : ∃ fs, (mapGet (details L0 ((List.range 33).map fun i => .int i)) b!"histogram").bind (member b!"frequencies") = some (.arr (.f64 (F (-2)) :: fs)) := by
  refine ⟨List.replicate 31 (.f64 (F 1)), ?_⟩
  decide +kernel

/-- an accumulator that is closed twice has lost the mean -/
theorem C28_closed_twice : ((run L0 [.int 4, .int 8]).bind fun a => (close L0 a).bind fun b => (close L0 b).map fun c => (mapGet b.map b!"mean", mapGet c.map b!"mean")) =
    some (some (.f64 (F 6)), some (.f64 (F 3))) := by decide +kernel

/-- a column that begins with a null, or with an integer among strings, is described by that value only -/
theorem C29_first_value_decides : statsOf L0 [.arr [.null, .int 7], .arr [.int 5, .str b!"a"], .arr [.int 6, .str b!"b"]] =
    some [[(b!"count", .gint 1), (b!"type", .str b!"null")],
      [(b!"count", .gint 1), (b!"histogram", .obj [(b!"bins", .arr [.f64 (F 7), .f64 (F 8)]), (b!"frequencies", .arr [.f64 (F 1)])]), (b!"max", .f64 (F 7)), (b!"mean", .f64 (F 7)),
        (b!"median", .f64 (F 7)), (b!"min", .f64 (F 7)), (b!"type", .str b!"numeric")]] := by decide +kernel

/-- the statistics of members called "key" or "type" of objects in objects are lost -/
theorem C29_overwritten : statsOf L0 [.obj [(b!"a", .obj [(b!"b", .bool true), (b!"key", .bool true), (b!"type", .bool false)])]] =
    some [[(b!"b", .obj [(b!"count", .gint 1), (b!"falseCount", .gint 0), (b!"trueCount", .gint 1)]), (b!"key", .str b!"a"), (b!"type", .str b!"object")]] := by decide +kernel

/-- a long string is cut in the middle of a character -/
theorem C29_cut : (freqKey 0 (List.replicate 39 97 ++ b!"é")).take 41 = List.replicate 39 97 ++ [0xC3, 46] := by decide +kernel

-- rows of different widths
example : statsOf L0 [.arr [.int 1, .str b!"ab"], .arr [.f64 (F 3)], .arr [.gint 2, .str b!"c", .bool true], .str b!"no row"] =
    some [[(b!"count", .gint 3), (b!"histogram", .obj [(b!"bins", .arr [.f64 (F 1), .f64 (F 2), .f64 (F 3), .f64 (F 4)]), (b!"frequencies", .arr [.f64 (F 1), .f64 (F 1), .f64 (F 1)])]),
        (b!"max", .f64 (F 3)), (b!"mean", .f64 (F 2)), (b!"median", .f64 (F 2)), (b!"min", .f64 (F 1)), (b!"type", .str b!"numeric")],
      [(b!"count", .gint 2), (b!"frequencies", .obj [(b!"ab", .gint 1), (b!"c", .gint 1)]), (b!"maxLength", .gint 2), (b!"minLength", .gint 1), (b!"type", .str b!"string"), (b!"unique", .gint 2)],
      [(b!"count", .gint 1), (b!"falseCount", .gint 0), (b!"trueCount", .gint 1), (b!"type", .str b!"boolean")]] := by decide +kernel
-- objects in any order of keys, with a nested array
example : (statsOf L0 [.obj [(b!"b", .arr [.null])], .obj [(b!"a", .str b!"x"), (b!"b", .arr [.null, .bool false])]]).map (·.map fun m => (mapGet m b!"key", mapGet m b!"type", mapGet m b!"values")) =
    some [(some (.str b!"a"), some (.str b!"string"), none),
      (some (.str b!"b"), some (.str b!"array"), some (.arr [.obj [(b!"count", .gint 2)], .obj [(b!"count", .gint 1), (b!"falseCount", .gint 1), (b!"trueCount", .gint 0)]]))] := by decide +kernel
-- single values
example : statsOf L0 [.bool true, .null, .bool false, .bool true] = some [[(b!"count", .gint 3), (b!"falseCount", .gint 1), (b!"trueCount", .gint 2), (b!"type", .str b!"boolean")]] := by decide +kernel
-- a reader that fails
example : calculate L0 (Streams.listReader (.other b!"bad")) 5 [{ value := .int 1 }] = some (.err (.readErr 1 b!"bad")) := by decide +kernel
-- the mean of 1, 2 and 2 is the float64 next to 5/3
example : mapGet (details L0 [.int 1, .gint 2, .f64 (F 2)]) b!"mean" = some (.f64 0x3FFAAAAAAAAAAAAB) := by decide +kernel
example : freqKey 3 (List.replicate 41 97) = List.replicate 40 97 ++ b!"... 41 chars (3)" := by decide +kernel
example : ∃ q w, w ∈ [F 4, F 1, F 9] ∧ val q = val w ∧ mapGet (details L0 [.int 4, .int 1, .int 9]) b!"median" = (if f64Eq q (ofInt (2 ^ 63)) then none else some (.f64 q)) := by
  obtain ⟨q, w, h1, h2, h3, _⟩ := C28_median L0 (by decide) (.int 4) [.int 1, .int 9] rfl [F 4, F 1, F 9] (by decide +kernel)
    (by intro x hx; simp only [List.mem_cons, List.not_mem_nil, or_false] at hx; rcases hx with rfl | rfl | rfl <;> (unfold Ieee.Finite; decide +kernel))
    (by decide) [val (F 4), val (F 1), val (F 9)] (by decide) (by intro x hx; simp only [List.mem_cons, List.not_mem_nil, or_false] at hx; rcases hx with rfl | rfl | rfl <;> simp)
  exact ⟨q, w, h1, h2, h3⟩

end Verif.Stats
