import Verif.Lemmas.SketchSample
import Verif.Props.Sketch
/-
C66: a sketch made from a whole sample (`NewFromSample`).
-/
set_option autoImplicit false
namespace Verif.Sketch
open Ieee

/-! ### Sorting -/

theorem place_perm {α : Type} (N : Num α) (x : α) : ∀ ys, (place N x ys).Perm (x :: ys)
  | [] => .refl _
  | y :: ys => by
    rw [place]
    split
    · exact ((place_perm N x ys).cons y).trans (.swap ..)
    · exact .refl _

theorem sortSample_perm {α : Type} (N : Num α) : ∀ xs : List α, (sortSample N xs).Perm xs
  | [] => .refl _
  | x :: xs => (place_perm N x _).trans ((sortSample_perm N xs).cons x)

theorem place_sorted {α : Type} (N : Num α) (trans : ∀ a b c, less N b a = false → less N c b = false → less N c a = false)
    (asymm : ∀ a b, less N a b = true → less N b a = false) (x : α) :
    ∀ ys, (ys.Pairwise fun a b => less N b a = false) → (place N x ys).Pairwise fun a b => less N b a = false
  | [], _ => by simp [place]
  | y :: ys, h => by
    have hy := List.pairwise_cons.mp h
    rw [place]
    split
    · rename_i hl
      refine List.pairwise_cons.mpr ⟨fun b hb => ?_, place_sorted N trans asymm x ys hy.2⟩
      rcases List.mem_cons.mp ((place_perm N x ys).mem_iff.mp hb) with rfl | hb
      · exact asymm _ _ hl
      · exact hy.1 b hb
    · rename_i hl
      have hl' : less N y x = false := by simpa using hl
      refine List.pairwise_cons.mpr ⟨fun b hb => ?_, h⟩
      rcases List.mem_cons.mp hb with rfl | hb
      · exact hl'
      · exact trans _ _ _ hl' (hy.1 b hb)

theorem sorted_of {α : Type} (N : Num α) (trans : ∀ a b c, less N b a = false → less N c b = false → less N c a = false)
    (asymm : ∀ a b, less N a b = true → less N b a = false) : ∀ xs, (sortSample N xs).Pairwise fun a b => less N b a = false
  | [] => .nil
  | x :: xs => place_sorted N trans asymm x _ (sorted_of N trans asymm xs)

theorem sortSample_length {α : Type} (N : Num α) (xs : List α) : (sortSample N xs).length = xs.length := (sortSample_perm N xs).length_eq

theorem f64Eq_self (x : UInt64) : f64Eq x x = !f64NaN x := by
  unfold f64Eq
  cases h : f64NaN x <;> simp

theorem lt_nan_left {x y : UInt64} (h : f64NaN x = true) : Ieee.lt x y = false := by unfold Ieee.lt f64Gt; simp [h]

theorem lt_nan_right {x y : UInt64} (h : f64NaN y = true) : Ieee.lt x y = false := by unfold Ieee.lt f64Gt; simp [h]

/-- NaNs first, then by value -/
theorem less_ieee (x y : UInt64) : less ieee x y = true ↔ (f64NaN x = true ∧ f64NaN y = false) ∨ (f64NaN x = false ∧ f64NaN y = false ∧ val x < val y) := by
  unfold less
  show (Ieee.lt x y || (!f64Eq x x && f64Eq y y)) = true ↔ _
  rw [f64Eq_self, f64Eq_self]
  cases hx : f64NaN x <;> cases hy : f64NaN y
  · simp [lt_val hx hy]
  · simp [lt_nan_right hy]
  · simp
  · simp [lt_nan_right hy]

theorem sortSample_sorted (xs : List UInt64) : (sortSample ieee xs).Pairwise fun x y => less ieee y x = false := by
  refine sorted_of ieee (fun a b c h1 h2 => ?_) (fun a b h => ?_) xs
  · simp only [Bool.eq_false_iff, Ne, less_ieee] at *
    cases ha : f64NaN a <;> cases hb : f64NaN b <;> cases hc : f64NaN c <;> (simp [ha, hb, hc] at *; try omega)
  · simp only [Bool.eq_false_iff, Ne, less_ieee] at *
    cases ha : f64NaN a <;> cases hb : f64NaN b <;> (simp [ha, hb] at *; try omega)

theorem sortSample_val {xs : List UInt64} (hf : ∀ x ∈ xs, f64NaN x = false) : (sortSample ieee xs).Pairwise fun x y => val x ≤ val y := by
  refine List.Pairwise.imp_of_mem ?_ (sortSample_sorted xs)
  intro a b ha hb h
  have ha' := hf a ((sortSample_perm ieee xs).mem_iff.mp ha)
  have hb' := hf b ((sortSample_perm ieee xs).mem_iff.mp hb)
  rw [Bool.eq_false_iff, Ne, less_ieee] at h
  simp only [ha', hb'] at h
  simp at h
  exact h

theorem sortSample_real (M : ℝ) (xs : List ℝ) : (sortSample (exact M) xs).Pairwise (· ≤ ·) := by
  have := sorted_of (exact M) (fun a b c h1 h2 => ?_) (fun a b h => ?_) xs
  · exact this.imp fun h => by simpa [less, exact] using h
  · simp [less, exact] at *; linarith
  · simp [less, exact] at *; linarith

/-! ### When there is a sketch -/

theorem fromSorted_some {α : Type} (N : Num α) (xs : List α) (n : Nat) (hn : 1 ≤ n) (hl : n ≤ xs.length) :
    ∃ segs lo hi, Back N xs (n - 1) xs.length segs ∧ xs.head? = some lo ∧ xs.getLast? = some hi ∧
      fromSorted N xs n = some { cs := segs.map (centroidOf N), cap := n + 1, count := N.ofInt xs.length, min := lo, max := hi } := by
  obtain ⟨segs, hb, e⟩ := backtrack_back N xs (n - 1) xs.length [] (by omega) (le_refl _)
  have hne : xs ≠ [] := by rintro rfl; simp at hl; omega
  refine ⟨segs, xs.head hne, xs.getLast hne, hb, List.head?_eq_some_head hne, List.getLast?_eq_some_getLast hne, ?_⟩
  rw [fromSorted, if_neg (by omega), List.head?_eq_some_head hne, List.getLast?_eq_some_getLast hne]
  simp only
  rw [if_neg (by omega), show (n : Int).toNat - 1 = n - 1 by simp, e]
  simp

/-- in any arithmetic a sample gives a sketch unless no centroid is asked for or there is no value; those two panic -/
theorem C66_defined {α : Type} (N : Num α) (sample : List α) (n : Int) : (newFromSample N sample n).isSome = true ↔ 1 ≤ n ∧ sample ≠ [] := by
  unfold newFromSample
  by_cases hn : n < 1
  · simp only [fromSorted, if_pos hn]; simp; omega
  · obtain ⟨k, rfl⟩ := Int.eq_ofNat_of_zero_le (by omega : 0 ≤ n)
    by_cases hne : sample = []
    · subst hne
      have : sortSample N ([] : List α) = [] := by simp [sortSample]
      rw [this, fromSorted, if_neg hn]
      simp
    · have hne' : sortSample N sample ≠ [] := fun h => hne (by
        have := sortSample_length N sample
        rw [h] at this
        exact List.length_eq_zero_iff.mp this.symm)
      refine ⟨fun _ => ⟨by omega, hne⟩, fun _ => ?_⟩
      by_cases hl : k ≤ (sortSample N sample).length
      · obtain ⟨_, _, _, _, _, _, e⟩ := fromSorted_some N (sortSample N sample) k (by omega) hl
        rw [e]; rfl
      · rw [fromSorted, if_neg hn, List.head?_eq_some_head hne', List.getLast?_eq_some_getLast hne']
        simp only
        rw [if_pos (by omega)]
        rfl

/-! ### As many centroids as asked for -/

/-- the mean of float64 values, added from the last to the first, and their number, negative if there are more than one -/
def bin (s : List UInt64) : Centroid UInt64 :=
  ⟨Ieee.div (s.reverse.foldl Ieee.add (Ieee.ofInt 0)) (Ieee.ofInt s.length), if s.length = 1 then Ieee.ofInt 1 else Ieee.neg (Ieee.ofInt s.length)⟩

/-- float64: the sorted sample is cut into exactly as many parts as asked for, none of them empty; every centroid has the mean of its part and the number
of its values, marked as merged if there is more than one -/
theorem C66_parts (sample : List UInt64) (n : Nat) (hn : 1 ≤ n) (hl : n ≤ sample.length) (hB : sample.length ≤ 2 ^ 53) :
    ∃ (h : Sketch UInt64) (segs : List (List UInt64)), newFromSample ieee sample n = some h ∧ segs.length = n ∧ (∀ s ∈ segs, s ≠ []) ∧ segs.flatten.Perm sample ∧
      (segs.flatten.Pairwise fun x y => less ieee y x = false) ∧
      h.cs = segs.map bin ∧
      h.count = Ieee.ofInt sample.length ∧ (h.cs.map fun c => Ieee.toInt (Ieee.abs c.m)).sum = sample.length ∧ h.cap = n + 1 := by
  have hlen := sortSample_length ieee sample
  obtain ⟨segs, lo, hi, hb, _, _, e⟩ := fromSorted_some ieee (sortSample ieee sample) n hn (by omega)
  have hp := back_parts ieee _ hb (by omega) (le_refl _)
  rw [List.take_length, show n - 1 + 1 = n by omega] at hp
  have hle : ∀ s ∈ segs, s.length ≤ 2 ^ 53 := by
    intro s hs
    have : s.length ≤ segs.flatten.length := (List.sublist_flatten_of_mem hs).length_le
    rw [hp.whole] at this; omega
  have hcs : segs.map (centroidOf ieee) = segs.map bin := by
    refine List.map_congr_left fun s hs => ?_
    have hs' := hle s hs
    unfold centroidOf bin
    simp only [ieee_ofInt, ieee_neg]
    have : ieee.eq (Ieee.ofInt s.length) (Ieee.ofInt 1) = decide (s.length = 1) := by
      rw [Bool.eq_iff_iff, ieee_laws.eq (finite_ofInt (by omega)).notNaN (finite_ofInt (by decide)).notNaN, val_ofInt (by omega), val_ofInt (by decide), decide_eq_true_eq]
      constructor
      · intro h
        have := Int.eq_of_mul_eq_mul_right (by have := unit_pos; omega) h
        omega
      · intro h; rw [h, Nat.cast_one]
    simp only [this, decide_eq_true_eq]
    exact congrArg₂ Centroid.mk rfl rfl
  refine ⟨_, segs, e, hp.number, hp.nonempty, by rw [hp.whole]; exact sortSample_perm _ _, by rw [hp.whole]; exact sortSample_sorted _, hcs, by simp [hlen, ieee_ofInt], ?_, rfl⟩
  simp only [hcs, List.map_map]
  have hsz : ∀ s ∈ segs, ((fun c : Centroid UInt64 => Ieee.toInt (Ieee.abs c.m)) ∘ bin) s = (s.length : Int) := by
    intro s hs
    simp only [Function.comp_apply, bin]
    split
    · rename_i h1
      rw [h1]; decide +kernel
    · have := ieee_laws.absNeg (hle s hs)
      have h2 := ieee_laws.toInt (hle s hs)
      simp only [ieee_abs, ieee_neg, ieee_ofInt, ieee_toInt] at this h2
      rw [this, h2]
  rw [List.map_congr_left hsz]
  have hsum : ∀ l : List (List UInt64), (l.map fun s => (s.length : Int)).sum = l.flatten.length := by
    intro l
    induction l with
    | nil => rfl
    | cons s l ih => simp only [List.map_cons, List.sum_cons, List.flatten_cons, List.length_append, ih]; omega
  rw [hsum, hp.whole, hlen]

/-- the extrema are the first and the last of the sorted values: the least and the greatest if there is no NaN -/
theorem C66_extrema (sample : List UInt64) (n : Int) (h : Sketch UInt64) (e : newFromSample ieee sample n = some h) :
    h.min ∈ sample ∧ h.max ∈ sample ∧ ((∀ x ∈ sample, f64NaN x = false) → ∀ x ∈ sample, Ieee.le h.min x = true ∧ Ieee.le x h.max = true) ∧
      ((∃ x ∈ sample, f64NaN x = true) → f64NaN h.min = true) := by
  have hmm : (sortSample ieee sample).head? = some h.min ∧ (sortSample ieee sample).getLast? = some h.max := by
    unfold newFromSample fromSorted at e
    split at e
    · simp at e
    · revert e
      cases (sortSample ieee sample).head? <;> cases (sortSample ieee sample).getLast? <;> simp only <;> intro e
      · simp at e
      · simp at e
      · simp at e
      · split at e
        · simp at e; subst e; exact ⟨rfl, rfl⟩
        · simp only [Option.map_eq_some_iff] at e
          obtain ⟨_, _, rfl⟩ := e
          exact ⟨rfl, rfl⟩
  obtain ⟨h1, h2⟩ := hmm
  have m1 := (sortSample_perm ieee sample).mem_iff.mp (List.mem_of_mem_head? h1)
  have m2 := (sortSample_perm ieee sample).mem_iff.mp (List.mem_of_getLast? h2)
  obtain ⟨tl, et⟩ := List.head?_eq_some_iff.mp h1
  obtain ⟨ini, ei⟩ := List.getLast?_eq_some_iff.mp h2
  refine ⟨m1, m2, fun hf x hx => ?_, fun ⟨x, hx, hxn⟩ => ?_⟩
  · have hs := sortSample_val hf
    have hx' := (sortSample_perm ieee sample).mem_iff.mpr hx
    constructor
    · rw [le_val (hf _ m1) (hf _ hx)]
      rw [et] at hs hx'
      rcases List.mem_cons.mp hx' with hx' | hx'
      · rw [hx']
      · exact (List.pairwise_cons.mp hs).1 x hx'
    · rw [le_val (hf _ hx) (hf _ m2)]
      rw [ei] at hs hx'
      rcases List.mem_append.mp hx' with hx' | hx'
      · exact (List.pairwise_append.mp hs).2.2 x hx' _ (by simp)
      · simp only [List.mem_singleton] at hx'; rw [hx']
  · have hs := sortSample_sorted sample
    have hx' := (sortSample_perm ieee sample).mem_iff.mpr hx
    rw [et] at hs hx'
    rcases List.mem_cons.mp hx' with hx' | hx'
    · rw [← hx']; exact hxn
    · have := (List.pairwise_cons.mp hs).1 x hx'
      rw [Bool.eq_false_iff, Ne, less_ieee] at this
      by_contra hm
      exact this (.inl ⟨hxn, by simpa using hm⟩)

/-! ### The best centroids -/

/-- points with the centres they are assigned to -/
structure Assigns (ps : List (ℝ × ℝ)) (sample centers : List ℝ) : Prop where
  points : (ps.map (·.1)).Perm sample
  centers : ∀ p ∈ ps, p.2 ∈ centers

/-- the sum of squared distances -/
noncomputable def distance (ps : List (ℝ × ℝ)) : ℝ := (ps.map fun p => (p.1 - p.2) ^ 2).sum

theorem distance_const (c : ℝ) (s : List ℝ) : distance (s.map fun x => (x, c)) = cost c s := by
  unfold distance cost
  rw [List.map_map]
  rfl

theorem distance_append (a b : List (ℝ × ℝ)) : distance (a ++ b) = distance a + distance b := by simp [distance]

/-- but for rounding, and unless the squares overflow, no choice of as many centres and no assignment of the values to them has a smaller sum of squared
distances; the centroids are the means of the values assigned to them -/
theorem C66_optimal {M : ℝ} (sample : List ℝ) (n : Nat) (hn : 1 ≤ n) (hl : n ≤ sample.length) (hM : sse sample < M) :
    ∃ h ps, newFromSample (exact M) sample n = some h ∧ h.cs.length = n ∧ Assigns ps sample (h.cs.map (·.p)) ∧
      ∀ centers qs, centers.length ≤ n → Assigns qs sample centers → distance ps ≤ distance qs := by
  have hperm := sortSample_perm (exact M) sample
  have hlen := sortSample_length (exact M) sample
  have hsort := sortSample_real M sample
  generalize hxs : sortSample (exact M) sample = xs at hperm hlen hsort
  obtain ⟨segs, lo, hi, hb, _, _, e⟩ := fromSorted_some (exact M) xs n hn (by omega)
  have hp := back_parts (exact M) _ hb (by omega) (le_refl _)
  rw [List.take_length, show n - 1 + 1 = n by omega] at hp
  have hval := entry_back M xs hb (by omega) (le_refl _) (by rw [List.take_length, sse_perm hperm]; exact hM)
  have hce : ∀ s ∈ segs, (centroidOf (exact M) s).p = mean s := by
    intro s _
    unfold centroidOf mean
    simp only [exact, Int.cast_natCast, Int.cast_zero]
    have : ∀ (l : List ℝ) (z : ℝ), l.foldl (fun x y => x + y) z = z + l.sum := by
      intro l
      induction l with
      | nil => simp
      | cons x l ih => intro z; rw [List.foldl_cons, ih]; simp; ring
    rw [this, List.sum_reverse]; simp
  refine ⟨_, (segs.map fun s => s.map fun x => (x, mean s)).flatten, by unfold newFromSample; rw [hxs]; exact e, by simp [hp.number], ⟨?_, ?_⟩, ?_⟩
  · have : (segs.map fun s => s.map fun x => (x, mean s)).flatten.map (·.1) = segs.flatten := by
      rw [List.map_flatten, List.map_map]
      congr 1
      conv => rhs; rw [← List.map_id segs]
      refine List.map_congr_left fun s _ => ?_
      simp [Function.comp_def]
    rw [this, hp.whole]
    exact hperm
  · intro p hp'
    simp only [List.mem_flatten, List.mem_map] at hp'
    obtain ⟨l, ⟨s, hs, rfl⟩, hp'⟩ := hp'
    obtain ⟨x, hx, rfl⟩ := List.mem_map.mp hp'
    simp only [List.map_map, List.mem_map]
    exact ⟨s, hs, hce s hs⟩
  · intro centers qs hc hq
    have hcost : distance (segs.map fun s => s.map fun x => (x, mean s)).flatten = sseAll segs := by
      have : ∀ l : List (List ℝ), distance (l.map fun s => s.map fun x => (x, mean s)).flatten = sseAll l := by
        intro l
        induction l with
        | nil => simp [distance, sseAll]
        | cons s l ih =>
          rw [List.map_cons, List.flatten_cons, distance_append, ih, distance_const]
          rfl
      exact this segs
    rw [hcost, ← hval]
    -- the pairs in the order of the points, and the centres in order
    let rs := (qs.mergeSort fun p q => decide (p.1 ≤ q.1)).map fun p => (p.1, (p.1 - p.2) ^ 2)
    have hrs : (qs.mergeSort fun p q => decide (p.1 ≤ q.1)).Perm qs := List.mergeSort_perm _ _
    have hrsort : (rs.map (·.1)).Pairwise (· ≤ ·) := by
      have := List.pairwise_mergeSort (le := fun p q : ℝ × ℝ => decide (p.1 ≤ q.1)) (fun a b c h1 h2 => by simp at *; linarith)
        (fun a b => by simp; exact le_total _ _) qs
      simp only [rs, List.map_map]
      rw [List.pairwise_map]
      exact this.imp fun h => by simpa using h
    have hmap : rs.map (·.1) = xs := by
      refine List.Perm.eq_of_pairwise (le := (· ≤ ·)) (fun a b _ _ h1 h2 => le_antisymm h1 h2) hrsort hsort ?_
      simp only [rs, List.map_map]
      refine (hrs.map _).trans ?_
      exact hq.points.trans hperm.symm
    have hsum : (rs.map (·.2)).sum = distance qs := by
      simp only [rs, List.map_map, distance]
      exact (hrs.map _).sum_eq
    let cs := centers.mergeSort fun p q => decide (p ≤ q)
    have hcs : cs.Perm centers := List.mergeSort_perm _ _
    have hcsort : cs.Pairwise (· ≤ ·) := by
      have := List.pairwise_mergeSort (le := fun p q : ℝ => decide (p ≤ q)) (fun a b c h1 h2 => by simp at *; linarith)
        (fun a b => by simp; exact le_total _ _) centers
      exact this.imp fun h => by simpa using h
    obtain ⟨k, gs, hk, hg, hle⟩ := clusters cs hcsort rs hrsort (by
      intro r hr
      simp only [rs, List.mem_map] at hr
      obtain ⟨p, hp', rfl⟩ := hr
      exact ⟨p.2, hcs.mem_iff.mpr (hq.centers p (hrs.mem_iff.mp hp')), le_refl _⟩)
    rw [hmap] at hg
    rw [hsum] at hle
    have hkn : k ≤ n := by rw [hcs.length_eq] at hk; omega
    obtain ⟨gs', hg', hle'⟩ := refine_to (n - k) k gs hg (by omega)
    rw [show k + (n - k) = n by omega] at hg'
    have := entry_lower M xs (n - 1) (xs.length - 1) (by omega) (by omega) gs' (by
      rw [show n - 1 + 1 = n by omega, show xs.length - 1 + 1 = xs.length by omega, List.take_length]; exact hg')
    linarith

/-! ### More centroids than values -/

/-- finite values without a negative zero, fewer than the centroids asked for: the sketch is that of adding the sorted values one by one to a new one -/
theorem C66_small (sample : List UInt64) (n : Nat) (hne : sample ≠ []) (hn : sample.length < n) (hB : sample.length ≤ 2 ^ 53)
    (hf : ∀ x ∈ sample, Ieee.Finite x) (hz : 0x8000000000000000 ∉ sample) :
    ∃ xs : List UInt64, xs.Perm sample ∧ (xs.Pairwise fun x y => Ieee.le x y = true) ∧
      newFromSample ieee sample n = (new ieee n).bind fun h0 => addAll ieee h0 (xs.map fun x => (x, 1)) := by
  have hperm := sortSample_perm ieee sample
  have hf' : ∀ x ∈ sortSample ieee sample, Ieee.Finite x := fun x hx => hf x (hperm.mem_iff.mp hx)
  refine ⟨sortSample ieee sample, hperm, ?_, ?_⟩
  · refine List.Pairwise.imp_of_mem ?_ (sortSample_val fun x hx => (hf x hx).notNaN)
    intro a b ha hb h
    exact (le_val (hf' a ha).notNaN (hf' b hb).notNaN).mpr h
  · refine fromSorted_add ieee_laws _ n ?_ (by rw [sortSample_length]; exact hn) (by rw [sortSample_length]; exact hB) hf'
      (sortSample_val fun x hx => (hf x hx).notNaN) ?_
    · intro h
      have := sortSample_length ieee sample
      rw [h] at this
      exact hne (List.length_eq_zero_iff.mp this.symm)
    · intro x y fx fy hx hy h
      by_cases h0 : val x = 0
      · have pos : ∀ z, Ieee.Finite z → val z = 0 → z ≠ 0x8000000000000000 → isNeg z = false := by
          intro z _ hz hne
          by_contra hc
          apply hne
          refine val_inj (hz.trans (by decide +kernel)) (.inr ?_)
          have : isNeg z = true := by simpa using hc
          rw [this]; decide +kernel
        refine val_inj h (.inr ?_)
        have hy' : y ≠ 0x8000000000000000 := fun e => hz (by rw [← e]; exact hperm.mem_iff.mp hy)
        have hx' : x ≠ 0x8000000000000000 := by
          rcases hx with hx | rfl | rfl
          · exact fun e => hz (by rw [← e]; exact hperm.mem_iff.mp hx)
          · decide +kernel
          · decide +kernel
        rw [pos x fx h0 hx', pos y fy (h ▸ h0) hy']
      · exact val_inj h (.inl h0)

/-- … so that every value has its own centroid, with the number of its occurrences, and is not marked as merged -/
theorem C66_small_counts (sample : List UInt64) (n : Nat) (h : Sketch UInt64) (hne : sample ≠ []) (hn : sample.length < n) (hB : sample.length ≤ 2 ^ 53)
    (hf : ∀ x ∈ sample, Ieee.Finite x) (hz : 0x8000000000000000 ∉ sample) (e : newFromSample ieee sample n = some h) :
    (h.cs.Pairwise fun c d => Ieee.lt c.p d.p = true) ∧ (∀ c ∈ h.cs, c.p ∈ sample ∧ c.m = Ieee.ofInt (sample.filter fun x => val x = val c.p).length) ∧
      (∀ x ∈ sample, ∃ c ∈ h.cs, f64Eq c.p x = true) ∧ h.count = Ieee.ofInt sample.length := by
  obtain ⟨xs, hp, hs, e'⟩ := C66_small sample n hne hn hB hf hz
  rw [e'] at e
  obtain ⟨h0, en, ea⟩ := Option.bind_eq_some_iff.mp e
  have ht : ∀ l : List UInt64, total (l.map fun x => (x, 1)) = l.length := by
    intro l
    induction l with
    | nil => rfl
    | cons x l ih => rw [List.map_cons, total, List.map_cons, List.sum_cons]; rw [total] at ih; rw [ih]; simp; omega
  have hpos : ∀ p ∈ xs.map (fun x => (x, 1)), 1 ≤ p.2 := by
    intro p hp'
    obtain ⟨x, _, rfl⟩ := List.mem_map.mp hp'
    exact le_refl _
  have hfin : ∀ p ∈ xs.map (fun x => (x, 1)), Ieee.Finite p.1 := by
    intro p hp'
    obtain ⟨x, hx, rfl⟩ := List.mem_map.mp hp'
    exact hf x (hp.mem_iff.mp hx)
  have hBt : total (xs.map fun x => (x, 1)) ≤ 2 ^ 53 := by rw [ht, hp.length_eq]; exact hB
  obtain ⟨a1, a2, a3⟩ := C30_exact n _ h0 h en ea hpos hfin hBt (xs.map val) (by simp [hp.length_eq]; omega) (by
    intro p hp'
    obtain ⟨x, hx, rfl⟩ := List.mem_map.mp hp'
    exact List.mem_map.mpr ⟨x, hx, rfl⟩)
  refine ⟨a1, fun c hc => ?_, fun x hx => ?_, ?_⟩
  · obtain ⟨⟨p, hp', hpc⟩, hm⟩ := a2 c hc
    obtain ⟨x, hx, rfl⟩ := List.mem_map.mp hp'
    refine ⟨by rw [← hpc]; exact hp.mem_iff.mp hx, ?_⟩
    rw [hm, List.filter_map, ht]
    simp only [Function.comp_def]
    rw [(hp.filter _).length_eq]
  · obtain ⟨c, hc, he⟩ := a3 (x, 1) (List.mem_map.mpr ⟨x, hp.mem_iff.mpr hx, rfl⟩)
    exact ⟨c, hc, he⟩
  · have := (C30_mass n _ h0 h en ea hpos hBt).1
    rw [this, ht, hp.length_eq]

/-! ### Examples, and where the best is not found -/

private def F (i : Int) : UInt64 := Ieee.ofInt i

example : (newFromSample ieee [F 10, F 1, F 2, F 11, F 3] 2).map (fun h => (h.cs, h.min, h.max)) =
    some ([⟨F 2, F (-3)⟩, ⟨0x4025000000000000, F (-2)⟩], F 1, F 11) := by decide +kernel

example : (newFromSample ieee [F 2, F 1, F 2] 5).map (fun h => h.cs) = some [⟨F 1, F 1⟩, ⟨F 2, F 2⟩] := by decide +kernel

-- the hypothesis of `C66_optimal` is met by ordinary samples
example : ∃ h ps, newFromSample (exact 1000) [0, 10, 1] 2 = some h ∧ h.cs.length = 2 ∧ Assigns ps [0, 10, 1] (h.cs.map (·.p)) ∧
    ∀ centers qs, centers.length ≤ 2 → Assigns qs [0, 10, 1] centers → distance ps ≤ distance qs :=
  C66_optimal [0, 10, 1] 2 (by decide) (by simp) (by norm_num [sse, cost, mean])

/-- equal values are marked as merged, if no more centroids are asked for than there are values -/
theorem C66_marked : (newFromSample ieee [F 1, F 1, F 2] 2).map (fun h => h.cs) = some [⟨F 1, F (-2)⟩, ⟨F 2, F 1⟩] := by decide +kernel

/-- distances whose squares overflow are not compared: 9e200 is put with 0 rather than with 10e200 -/
theorem C66_overflow : ∃ a b, a = Ieee.mul (F 9) 0x6974E718D7D7625A ∧ b = Ieee.mul (F 10) 0x6974E718D7D7625A ∧
    (newFromSample ieee [F 0, a, b] 2).map (fun h => h.cs) = some [⟨Ieee.div a (F 2), F (-2)⟩, ⟨b, F 1⟩] :=
  ⟨_, _, rfl, rfl, by decide +kernel⟩

end Verif.Sketch
