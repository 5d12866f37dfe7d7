import Verif.Model.SketchSample
import Verif.Lemmas.Sketch
import Mathlib.Tactic.FieldSimp
import Mathlib.Tactic.Ring
import Mathlib.Tactic.Linarith
import Mathlib.Tactic.NormNum
/-
Dynamic programming over a sorted sample: facts for `NewFromSample`.
-/
set_option autoImplicit false
namespace Verif.Sketch

variable {α : Type}

/-! ### For every arithmetic -/

theorem least_range (N : Num α) (cand : Nat → α) : ∀ (k j : Nat) (best : α × Nat),
    (least N cand k j best).2 = best.2 ∨ j ≤ (least N cand k j best).2 ∧ (least N cand k j best).2 < j + k
  | 0, _, _ => .inl rfl
  | k + 1, j, best => by
    rw [least]
    rcases least_range N cand k (j + 1) (if N.lt (cand j) best.1 then (cand j, j) else best) with h | h
    · rw [h]
      split
      · right; simp
      · left; rfl
    · right; omega

theorem sumsFrom_length (step : Nat → α × α → α → α × α) : ∀ (xs : List α) (i : Nat) (s : α × α), (sumsFrom step i s xs).length = xs.length
  | [], _, _ => rfl
  | x :: xs, i, s => by rw [sumsFrom, List.length_cons, sumsFrom_length step xs]; rfl

/-- `d[i][m]` and `b[i][m]` -/
def entry (N : Num α) (xs : List α) (m i : Nat) : α × Nat := ((columns N xs m).headD []).getD i (N.ofInt 0, 0)

theorem columns_cons (N : Num α) (xs : List α) (m : Nat) :
    ∃ c cs, columns N xs m = c :: cs ∧ c.length = xs.length := by
  cases m with
  | zero => exact ⟨_, _, rfl, by simp [sums, sumsFrom_length]⟩
  | succ m =>
    rw [columns]
    cases h : columns N xs m with
    | nil =>
      exfalso
      cases m with
      | zero => simp [columns] at h
      | succ m =>
        rw [columns] at h
        revert h
        induction m with
        | zero => simp [columns]
        | succ m ih =>
          intro h
          split at h
          · rename_i e; exact ih (by rw [columns] at e; exact e)
          · simp at h
    | cons c cs => exact ⟨_, _, rfl, by simp [column]⟩

theorem columns_succ (N : Num α) (xs : List α) (m : Nat) :
    columns N xs (m + 1) = column N xs (m + 1) (((columns N xs m).headD []).map (·.1)) :: columns N xs m := by
  obtain ⟨c, cs, h, _⟩ := columns_cons N xs m
  rw [columns, h]; rfl

/-- the candidate for `d[i][m]` with last centroid from `j` on -/
def cand (N : Num α) (xs : List α) (m i j : Nat) : α :=
  N.add (entry N xs m (j - 1)).1 ((sums N (welford1 N) (xs.take (i + 1)).reverse).getD (i - j) (N.ofInt 0))

theorem entry_zero (N : Num α) (xs : List α) (i : Nat) (h : i < xs.length) : entry N xs 0 i = ((sums N (welford0 N) xs).getD i (N.ofInt 0), 0) := by
  unfold entry columns
  simp only [List.headD_cons]
  have hl : i < (sums N (welford0 N) xs).length := by rw [sums, sumsFrom_length]; exact h
  simp [List.getD_eq_getElem?_getD, hl]

theorem entry_succ (N : Num α) (xs : List α) (m i : Nat) (h : i < xs.length) (hm : m + 1 ≤ i) :
    entry N xs (m + 1) i = least N (cand N xs m i) (i - (m + 1) + 1) (m + 1) (N.maxFinite, i) := by
  unfold entry
  rw [columns_succ, List.headD_cons]
  unfold column
  have : ∀ (l : List α) (l' : List (α × Nat)) (k : Nat), l = l'.map (·.1) → l.getD k (N.ofInt 0) = (l'.getD k (N.ofInt 0, 0)).1 := by
    intro l l' k e
    subst e
    simp only [List.getD_eq_getElem?_getD, List.getElem?_map]
    cases l'[k]? <;> rfl
  rw [List.getD_eq_getElem?_getD, List.getElem?_map, List.getElem?_range h]
  simp only [Option.map_some, Option.getD_some]
  rw [if_neg (by omega)]
  congr 1
  funext j
  unfold cand entry
  rw [this _ _ _ rfl]

theorem entry_range (N : Num α) (xs : List α) (m i : Nat) (h : i < xs.length) (hm : m ≤ i) :
    m ≤ (entry N xs m i).2 ∧ (entry N xs m i).2 ≤ i ∧ (m = 0 → (entry N xs m i).2 = 0) := by
  cases m with
  | zero => rw [entry_zero N xs i h]; simp
  | succ m =>
    rw [entry_succ N xs m i h hm]
    rcases least_range N (cand N xs m i) (i - (m + 1) + 1) (m + 1) (N.maxFinite, i) with e | e
    · rw [e]; simp; omega
    · refine ⟨e.1, by omega, by simp⟩

/-- the decomposition found by backtracking, of the first `i` values into `m + 1` parts -/
inductive Back (N : Num α) (xs : List α) : Nat → Nat → List (List α) → Prop
  | zero (i : Nat) : Back N xs 0 i [xs.take i]
  | succ (m i : Nat) (segs : List (List α)) : Back N xs m (entry N xs (m + 1) (i - 1)).2 segs →
      Back N xs (m + 1) i (segs ++ [(xs.take i).drop (entry N xs (m + 1) (i - 1)).2])

theorem columns_get (N : Num α) (xs : List α) (m i : Nat) (h : i < xs.length) :
    ∃ c cs, columns N xs m = c :: cs ∧ c[i]? = some (entry N xs m i) ∧ (m = 0 → cs = []) ∧ ∀ k, m = k + 1 → cs = columns N xs k := by
  obtain ⟨c, cs, e, hl⟩ := columns_cons N xs m
  refine ⟨c, cs, e, ?_, ?_, ?_⟩
  · unfold entry
    rw [e, List.headD_cons, List.getD_eq_getElem?_getD]
    have : i < c.length := by omega
    simp [this]
  · rintro rfl; simp [columns] at e; exact e.2
  · rintro k rfl; rw [columns_succ] at e; simp at e; exact e.2.symm

theorem backtrack_back (N : Num α) (xs : List α) : ∀ (m i : Nat) (acc : List (Centroid α)), m < i → i ≤ xs.length →
    ∃ segs, Back N xs m i segs ∧ backtrack N xs (columns N xs m) i acc = some (segs.map (centroidOf N) ++ acc)
  | m, 0, _, h, _ => by omega
  | 0, i + 1, acc, _, hi => by
    obtain ⟨c, cs, e, hc, h0, _⟩ := columns_get N xs 0 i (by omega)
    refine ⟨_, .zero (i + 1), ?_⟩
    rw [e, h0 rfl, backtrack, hc]
    simp only
    rw [(entry_range N xs 0 i (by omega) (by omega)).2.2 rfl, backtrack]
    simp
  | m + 1, i + 1, acc, h, hi => by
    obtain ⟨c, cs, e, hc, _, hs⟩ := columns_get N xs (m + 1) i (by omega)
    have hr := entry_range N xs (m + 1) i (by omega) (by omega)
    obtain ⟨segs, hb, hk⟩ := backtrack_back N xs m (entry N xs (m + 1) i).2 (centroidOf N ((xs.take (i + 1)).drop (entry N xs (m + 1) i).2) :: acc) (by omega) (by omega)
    refine ⟨_, .succ m (i + 1) segs hb, ?_⟩
    rw [e, hs m rfl, backtrack, hc]
    simp only
    rw [hk]
    simp

/-- a decomposition into parts, none of them empty -/
structure Parts (k : Nat) (xs : List α) (segs : List (List α)) : Prop where
  number : segs.length = k
  nonempty : ∀ s ∈ segs, s ≠ []
  whole : segs.flatten = xs

theorem back_parts (N : Num α) (xs : List α) {m i : Nat} {segs : List (List α)} (h : Back N xs m i segs) (hm : m < i) (hi : i ≤ xs.length) :
    Parts (m + 1) (xs.take i) segs := by
  induction h with
  | zero i =>
    refine ⟨rfl, ?_, by simp⟩
    intro s hs
    simp only [List.mem_singleton] at hs
    subst hs
    intro e
    have hl : (xs.take i).length = i := by rw [List.length_take]; omega
    rw [e] at hl
    simp at hl
    omega
  | succ m i segs hb ih =>
    have hr := entry_range N xs (m + 1) (i - 1) (by omega) (by omega)
    obtain ⟨h1, h2, h3⟩ := ih (by omega) (by omega)
    refine ⟨by simp [h1], ?_, ?_⟩
    · intro s hs
      rcases List.mem_append.mp hs with hs | hs
      · exact h2 s hs
      · simp only [List.mem_singleton] at hs
        subst hs
        intro e
        have hl : ((xs.take i).drop (entry N xs (m + 1) (i - 1)).2).length = i - (entry N xs (m + 1) (i - 1)).2 := by
          rw [List.length_drop, List.length_take]; omega
        rw [e] at hl
        simp at hl
        omega
    · rw [List.flatten_append, h3]
      have : xs.take (entry N xs (m + 1) (i - 1)).2 = (xs.take i).take (entry N xs (m + 1) (i - 1)).2 := by
        rw [List.take_take]; congr 1; omega
      rw [this]
      simp

/-! ### Sums of squares -/

noncomputable def mean (l : List ℝ) : ℝ := l.sum / l.length

/-- the sum of the squared distances to a point -/
noncomputable def cost (c : ℝ) (l : List ℝ) : ℝ := (l.map fun x => (x - c) ^ 2).sum

/-- … to the mean -/
noncomputable def sse (l : List ℝ) : ℝ := cost (mean l) l

theorem cost_eq (c : ℝ) (l : List ℝ) : cost c l = (l.map fun x => x ^ 2).sum - 2 * c * l.sum + l.length * c ^ 2 := by
  unfold cost
  induction l with
  | nil => simp
  | cons x l ih => simp only [List.map_cons, List.sum_cons, List.length_cons, ih]; push_cast; ring

theorem cost_mean (c : ℝ) (l : List ℝ) : cost c l = sse l + l.length * (mean l - c) ^ 2 := by
  unfold sse
  rw [cost_eq, cost_eq]
  unfold mean
  by_cases h : (l.length : ℝ) = 0
  · have : l = [] := by
      have : l.length = 0 := by exact_mod_cast h
      exact List.length_eq_zero_iff.mp this
    subst this; simp
  · field_simp
    ring

theorem sse_le_cost (c : ℝ) (l : List ℝ) : sse l ≤ cost c l := by
  rw [cost_mean c l]
  have : (0 : ℝ) ≤ l.length * (mean l - c) ^ 2 := mul_nonneg (Nat.cast_nonneg _) (sq_nonneg _)
  linarith

theorem cost_append (c : ℝ) (a b : List ℝ) : cost c (a ++ b) = cost c a + cost c b := by simp [cost]

theorem cost_nonneg (c : ℝ) (l : List ℝ) : 0 ≤ cost c l := by
  unfold cost
  apply List.sum_nonneg
  intro x hx
  obtain ⟨y, _, rfl⟩ := List.mem_map.mp hx
  exact sq_nonneg _

theorem sse_nonneg (l : List ℝ) : 0 ≤ sse l := cost_nonneg _ _

/-- parts are closer to their own means -/
theorem sse_append (a b : List ℝ) : sse a + sse b ≤ sse (a ++ b) := by
  have h1 := sse_le_cost (mean (a ++ b)) a
  have h2 := sse_le_cost (mean (a ++ b)) b
  have h3 : sse (a ++ b) = cost (mean (a ++ b)) a + cost (mean (a ++ b)) b := cost_append _ a b
  linarith

theorem sse_perm {a b : List ℝ} (h : a.Perm b) : sse a = sse b := by
  have e : mean a = mean b := by unfold mean; rw [h.sum_eq, h.length_eq]
  unfold sse cost
  rw [e]
  exact (h.map _).sum_eq

/-! ### Welford's method in exact arithmetic -/

/-- the state after the values `l` -/
noncomputable def welfordAt (l : List ℝ) : ℝ × ℝ := (sse l, mean l)

theorem welford_step (l : List ℝ) (x : ℝ) :
    sse l + (l.length : ℝ) * (x - mean l) ^ 2 / (l.length + 1) = sse (l ++ [x]) ∧ (x + l.length * mean l) / (l.length + 1) = mean (l ++ [x]) := by
  have hp : (l.length : ℝ) + 1 ≠ 0 := by positivity
  unfold sse
  rw [cost_eq, cost_eq]
  unfold mean
  simp only [List.map_append, List.sum_append, List.map_cons, List.map_nil, List.sum_cons, List.sum_nil, List.length_append, List.length_cons, List.length_nil]
  push_cast
  by_cases h : (l.length : ℝ) = 0
  · have : l = [] := by
      have : l.length = 0 := by exact_mod_cast h
      exact List.length_eq_zero_iff.mp this
    subst this
    simp
    ring
  · constructor <;> field_simp <;> ring

theorem welford0_exact (M : ℝ) (l : List ℝ) (x : ℝ) : welford0 (exact M) l.length (welfordAt l) x = welfordAt (l ++ [x]) := by
  obtain ⟨h1, h2⟩ := welford_step l x
  unfold welford0 welfordAt exact
  simp only [Int.cast_natCast, Int.cast_add, Int.cast_one]
  rw [← h1, ← h2]
  refine Prod.ext ?_ rfl
  simp only
  ring

theorem welford1_exact (M : ℝ) (l : List ℝ) (x : ℝ) : welford1 (exact M) l.length (welfordAt l) x = welfordAt (l ++ [x]) := by
  obtain ⟨h1, h2⟩ := welford_step l x
  unfold welford1 welfordAt exact
  simp only [Int.cast_natCast, Int.cast_add, Int.cast_one]
  rw [← h1, ← h2]
  refine Prod.ext ?_ rfl
  simp only
  ring

theorem sumsFrom_exact (step : Nat → ℝ × ℝ → ℝ → ℝ × ℝ) (h : ∀ l x, step l.length (welfordAt l) x = welfordAt (l ++ [x])) :
    ∀ (xs l : List ℝ) (k : Nat), k < xs.length → (sumsFrom step l.length (welfordAt l) xs)[k]? = some (sse (l ++ xs.take (k + 1)))
  | [], _, _, hk => by simp at hk
  | x :: xs, l, 0, _ => by rw [sumsFrom, h]; simp [welfordAt]
  | x :: xs, l, k + 1, hk => by
    rw [sumsFrom, h]
    have := sumsFrom_exact step h xs (l ++ [x]) k (by simpa using hk)
    rw [List.length_append] at this
    simpa using this

theorem sums_exact (M : ℝ) (step : Nat → ℝ × ℝ → ℝ → ℝ × ℝ) (h : ∀ l x, step l.length (welfordAt l) x = welfordAt (l ++ [x])) (xs : List ℝ) (k : Nat)
    (hk : k < xs.length) : (sums (exact M) step xs).getD k ((exact M).ofInt 0) = sse (xs.take (k + 1)) := by
  have := sumsFrom_exact step h xs [] k hk
  have e : welfordAt [] = ((exact M).ofInt 0, (exact M).ofInt 0) := by simp [welfordAt, sse, cost, mean, exact]
  rw [e] at this
  unfold sums
  rw [List.getD_eq_getElem?_getD]
  simp only [List.length_nil] at this
  rw [this]
  rfl

theorem cand_exact (M : ℝ) (xs : List ℝ) (m i j : Nat) (hi : i < xs.length) (hj : j ≤ i) :
    cand (exact M) xs m i j = (entry (exact M) xs m (j - 1)).1 + sse ((xs.take (i + 1)).drop j) := by
  unfold cand
  rw [sums_exact M (welford1 (exact M)) (welford1_exact M) _ _ (by simp; omega)]
  have : ((xs.take (i + 1)).reverse.take (i - j + 1)).Perm ((xs.take (i + 1)).drop j) := by
    rw [List.take_reverse]
    have : (xs.take (i + 1)).length - (i - j + 1) = j := by rw [List.length_take]; omega
    rw [this]
    exact List.reverse_perm _
  rw [sse_perm this]
  rfl

theorem entry_zero_exact (M : ℝ) (xs : List ℝ) (i : Nat) (hi : i < xs.length) : (entry (exact M) xs 0 i).1 = sse (xs.take (i + 1)) := by
  rw [entry_zero _ _ _ hi]
  exact sums_exact M (welford0 (exact M)) (welford0_exact M) xs i hi

/-! ### The least candidate -/

theorem least_exact (M : ℝ) (cand : Nat → ℝ) : ∀ (k j : Nat) (best : ℝ × Nat),
    (least (exact M) cand k j best).1 ≤ best.1 ∧ (∀ i, j ≤ i → i < j + k → (least (exact M) cand k j best).1 ≤ cand i) ∧
    (least (exact M) cand k j best = best ∨ (least (exact M) cand k j best).1 = cand (least (exact M) cand k j best).2)
  | 0, j, best => ⟨le_refl _, fun i h1 h2 => by omega, .inl rfl⟩
  | k + 1, j, best => by
    obtain ⟨h1, h2, h3⟩ := least_exact M cand k (j + 1) (if (exact M).lt (cand j) best.1 then (cand j, j) else best)
    rw [least]
    by_cases hc : cand j < best.1
    · have e : (exact M).lt (cand j) best.1 = true := by simp [exact, hc]
      rw [e] at h1 h2 h3 ⊢
      simp only [if_true] at h1 h2 h3 ⊢
      refine ⟨le_trans h1 hc.le, fun i hi hk => ?_, .inr ?_⟩
      · by_cases hij : i = j
        · subst hij; exact h1
        · exact h2 i (by omega) (by omega)
      · rcases h3 with h3 | h3
        · rw [h3]
        · exact h3
    · have e : (exact M).lt (cand j) best.1 = false := by simp [exact]; linarith
      rw [e] at h1 h2 h3 ⊢
      simp only [Bool.false_eq_true, if_false] at h1 h2 h3 ⊢
      refine ⟨h1, fun i hi hk => ?_, h3⟩
      by_cases hij : i = j
      · subst hij; exact le_trans h1 (not_lt.mp hc)
      · exact h2 i (by omega) (by omega)

/-! ### Optimal decompositions -/

/-- the sum over the parts -/
noncomputable def sseAll (segs : List (List ℝ)) : ℝ := (segs.map sse).sum

theorem sseAll_append (a b : List (List ℝ)) : sseAll (a ++ b) = sseAll a + sseAll b := by simp [sseAll]

theorem parts_length {k : Nat} {l : List ℝ} {segs : List (List ℝ)} (h : Parts k l segs) : k ≤ l.length := by
  obtain ⟨rfl, h2, rfl⟩ := h
  induction segs with
  | nil => simp
  | cons s segs ih =>
    have := ih (fun t ht => h2 t (by simp [ht]))
    have : 0 < s.length := List.length_pos_iff.mpr (h2 s (by simp))
    simp only [List.length_cons, List.flatten_cons, List.length_append]
    omega

/-- one part more, without loss -/
theorem refine_one : ∀ (segs : List (List ℝ)), (∀ s ∈ segs, s ≠ []) → segs.length < segs.flatten.length →
    ∃ segs', Parts (segs.length + 1) segs.flatten segs' ∧ sseAll segs' ≤ sseAll segs
  | [], _, h => by simp at h
  | [] :: segs, hn, h => absurd rfl (hn [] (by simp))
  | [a] :: segs, hn, h => by
    obtain ⟨segs', ⟨h1, h2, h3⟩, h4⟩ := refine_one segs (fun s hs => hn s (by simp [hs])) (by simp only [List.length_cons, List.flatten_cons, List.length_append, List.length_nil] at h; omega)
    refine ⟨[a] :: segs', ⟨by simp [h1], ?_, by simp [h3]⟩, ?_⟩
    · intro s hs
      rcases List.mem_cons.mp hs with rfl | hs
      · simp
      · exact h2 s hs
    · simp only [sseAll, List.map_cons, List.sum_cons] at h4 ⊢
      linarith
  | (a :: b :: t) :: segs, hn, h => by
    refine ⟨[a] :: (b :: t) :: segs, ⟨by simp, ?_, by simp⟩, ?_⟩
    · intro s hs
      rcases List.mem_cons.mp hs with rfl | hs
      · simp
      rcases List.mem_cons.mp hs with rfl | hs
      · simp
      · exact hn s (by simp [hs])
    · have := sse_append [a] (b :: t)
      simp only [sseAll, List.map_cons, List.sum_cons, List.singleton_append] at this ⊢
      linarith

theorem refine_to {l : List ℝ} : ∀ (d k : Nat) (segs : List (List ℝ)), Parts k l segs → k + d ≤ l.length →
    ∃ segs', Parts (k + d) l segs' ∧ sseAll segs' ≤ sseAll segs
  | 0, k, segs, h, _ => ⟨segs, h, le_refl _⟩
  | d + 1, k, segs, h, hd => by
    obtain ⟨s1, p1, l1⟩ := refine_one segs h.nonempty (by rw [h.number, h.whole]; omega)
    rw [h.number, h.whole] at p1
    obtain ⟨s2, p2, l2⟩ := refine_to d (k + 1) s1 p1 (by omega)
    exact ⟨s2, by rw [show k + (d + 1) = k + 1 + d by omega]; exact p2, le_trans l2 l1⟩

theorem snoc_cases {β : Type} (l : List β) : l = [] ∨ ∃ a b, l = a ++ [b] := by
  rcases List.eq_nil_or_concat l with h | ⟨a, b, h⟩
  · exact .inl h
  · exact .inr ⟨a, b, by simpa using h⟩

/-- no decomposition is better than the table -/
theorem entry_lower (M : ℝ) (xs : List ℝ) : ∀ (m i : Nat), m ≤ i → i < xs.length → ∀ segs, Parts (m + 1) (xs.take (i + 1)) segs →
    (entry (exact M) xs m i).1 ≤ sseAll segs
  | 0, i, _, hi, segs, h => by
    rw [entry_zero_exact M xs i hi]
    obtain ⟨h1, _, h3⟩ := h
    match segs, h1 with
    | [s], _ => simp at h3; simp [sseAll, h3]
  | m + 1, i, hm, hi, segs, h => by
    obtain ⟨h1, h2, h3⟩ := h
    rcases snoc_cases segs with rfl | ⟨ini, last, rfl⟩
    · simp at h1
    have hini : ini.length = m + 1 := by simpa using h1
    rw [List.flatten_append] at h3
    simp only [List.flatten_cons, List.flatten_nil, List.append_nil] at h3
    have hlast : last ≠ [] := h2 last (by simp)
    have hlen : ini.flatten.length + last.length = i + 1 := by
      have := congrArg List.length h3
      rw [List.length_append, List.length_take] at this
      omega
    have hlp : 0 < last.length := List.length_pos_iff.mpr hlast
    have hpi : Parts (m + 1) ini.flatten ini := ⟨hini, fun s hs => h2 s (by simp [hs]), rfl⟩
    have hml := parts_length hpi
    have e1 : ini.flatten = xs.take (ini.flatten.length - 1 + 1) := by
      rw [show ini.flatten.length - 1 + 1 = ini.flatten.length by omega]
      have : (xs.take (i + 1)).take ini.flatten.length = ini.flatten := by rw [← h3]; simp
      rw [List.take_take] at this
      rw [← this]; congr 1
      rw [this]; omega
    have e2 : (xs.take (i + 1)).drop ini.flatten.length = last := by rw [← h3]; simp
    have ih := entry_lower M xs m (ini.flatten.length - 1) (by omega) (by omega) ini (by rw [← e1]; exact hpi)
    have hc := cand_exact M xs m i ini.flatten.length hi (by omega)
    rw [e2] at hc
    rw [entry_succ _ xs m i hi hm]
    have hl := (least_exact M (cand (exact M) xs m i) (i - (m + 1) + 1) (m + 1) ((exact M).maxFinite, i)).2.1 ini.flatten.length (by omega) (by omega)
    rw [sseAll_append]
    have : sseAll [last] = sse last := by simp [sseAll]
    rw [this]
    linarith

/-- the decomposition found has the sum in the table, if that is below the bound -/
theorem entry_back (M : ℝ) (xs : List ℝ) {m i : Nat} {segs : List (List ℝ)} (h : Back (exact M) xs m i segs) (hm : m < i) (hi : i ≤ xs.length)
    (hM : sse (xs.take i) < M) : (entry (exact M) xs m (i - 1)).1 = sseAll segs := by
  induction h with
  | zero i =>
    rw [entry_zero_exact M xs (i - 1) (by omega), show i - 1 + 1 = i by omega]
    simp [sseAll]
  | succ m i segs hb ih =>
    have hr := entry_range (exact M) xs (m + 1) (i - 1) (by omega) (by omega)
    have hex : (entry (exact M) xs (m + 1) (i - 1)).1 < M := by
      have hp1 : Parts 1 (xs.take i) [xs.take i] := by
        refine ⟨rfl, ?_, by simp⟩
        intro s hs
        simp only [List.mem_singleton] at hs
        subst hs
        intro e
        have hl : (xs.take i).length = i := by rw [List.length_take]; omega
        rw [e] at hl; simp at hl; omega
      obtain ⟨segs', h1, h2⟩ := refine_to (m + 1) 1 [xs.take i] hp1 (by rw [List.length_take]; omega)
      have := entry_lower M xs (m + 1) (i - 1) (by omega) (by omega) segs' (by
        rw [show i - 1 + 1 = i by omega, show m + 1 + 1 = 1 + (m + 1) by omega]; exact h1)
      have e : sseAll [xs.take i] = sse (xs.take i) := by simp [sseAll]
      linarith
    have hl := (least_exact M (cand (exact M) xs m (i - 1)) (i - 1 - (m + 1) + 1) (m + 1) ((exact M).maxFinite, i - 1)).2.2
    rw [← entry_succ _ xs m (i - 1) (by omega) (by omega)] at hl
    rcases hl with hl | hl
    · rw [hl] at hex
      exact absurd hex (lt_irrefl _)
    · generalize hs : (entry (exact M) xs (m + 1) (i - 1)).2 = s at *
      rw [hl, cand_exact M xs m (i - 1) s (by omega) (by omega), show i - 1 + 1 = i by omega]
      have hsub : sse (xs.take s) < M := by
        have e : xs.take i = xs.take s ++ (xs.take i).drop s := by
          have : xs.take s = (xs.take i).take s := by rw [List.take_take]; congr 1; omega
          rw [this, List.take_append_drop]
        have := sse_append (xs.take s) ((xs.take i).drop s)
        rw [← e] at this
        have := sse_nonneg ((xs.take i).drop s)
        linarith
      rw [ih (by omega) (by omega) hsub, sseAll_append]
      simp [sseAll]

/-! ### Clusters of sorted values -/

open Classical in
/-- points on a line assigned to centres can be divided into intervals, at most one for every centre, at no higher cost -/
theorem clusters : ∀ (cs : List ℝ), cs.Pairwise (· ≤ ·) → ∀ (ps : List (ℝ × ℝ)), (ps.map (·.1)).Pairwise (· ≤ ·) →
    (∀ p ∈ ps, ∃ c ∈ cs, (p.1 - c) ^ 2 ≤ p.2) → ∃ k segs, k ≤ cs.length ∧ Parts k (ps.map (·.1)) segs ∧ sseAll segs ≤ (ps.map (·.2)).sum
  | [], _, ps, _, h => by
    cases ps with
    | nil => exact ⟨0, [], by simp, ⟨rfl, by simp, rfl⟩, by simp [sseAll]⟩
    | cons p ps => obtain ⟨c, hc, _⟩ := h p (by simp); simp at hc
  | c :: cs, hcs, ps, hps, h => by
    rw [List.pairwise_cons] at hcs
    let q : ℝ × ℝ → Bool := fun p => decide (∀ d ∈ cs, (p.1 - c) ^ 2 ≤ (p.1 - d) ^ 2)
    have happ : ps.takeWhile q ++ ps.dropWhile q = ps := List.takeWhile_append_dropWhile
    have htake : ∀ p ∈ ps.takeWhile q, (p.1 - c) ^ 2 ≤ p.2 := by
      intro p hp
      have hq : q p = true := (List.all_eq_true.mp (List.all_takeWhile (p := q) (l := ps))) p hp
      have hq' : ∀ d ∈ cs, (p.1 - c) ^ 2 ≤ (p.1 - d) ^ 2 := by simpa [q] using hq
      obtain ⟨d, hd, hle⟩ := h p ((List.takeWhile_sublist q).subset hp)
      rcases List.mem_cons.mp hd with rfl | hd
      · exact hle
      · exact le_trans (hq' d hd) hle
    have hdrop : ∀ p ∈ ps.dropWhile q, ∃ d ∈ cs, (p.1 - d) ^ 2 ≤ p.2 := by
      intro p hp
      have hnq : q p = false := by
        cases hd : ps.dropWhile q with
        | nil => rw [hd] at hp; simp at hp
        | cons y ys =>
          have hy : q y = false := by
            have := List.head_dropWhile_not q (w := by rw [hd]; simp) (l := ps)
            simpa [hd] using this
          have hyp : y.1 ≤ p.1 := by
            rw [hd] at hp
            rcases List.mem_cons.mp hp with rfl | hp
            · exact le_refl _
            · have hsub : ((y :: ys).map (·.1)).Pairwise (· ≤ ·) := by
                refine hps.sublist ?_
                rw [← hd]
                exact (List.dropWhile_sublist q).map _
              rw [List.map_cons, List.pairwise_cons] at hsub
              exact hsub.1 p.1 (List.mem_map.mpr ⟨p, hp, rfl⟩)
          by_contra hqp
          have hqp' : q p = true := by simpa using hqp
          have hp' : ∀ d ∈ cs, (p.1 - c) ^ 2 ≤ (p.1 - d) ^ 2 := by simpa [q] using hqp'
          have : q y = true := by
            simp only [q, decide_eq_true_eq]
            intro d hd
            have h1 := hp' d hd
            have h2 := hcs.1 d hd
            nlinarith
          rw [hy] at this; simp at this
      obtain ⟨d, hd, hle⟩ := h p ((List.dropWhile_sublist q).subset hp)
      have hex : ∃ d ∈ cs, (p.1 - d) ^ 2 < (p.1 - c) ^ 2 := by
        by_contra hno
        push Not at hno
        have : q p = true := by simpa [q] using hno
        rw [hnq] at this; simp at this
      rcases List.mem_cons.mp hd with rfl | hd
      · obtain ⟨e, he, hlt⟩ := hex
        exact ⟨e, he, by linarith⟩
      · exact ⟨d, hd, hle⟩
    obtain ⟨k, segs, hk, hparts, hle⟩ := clusters cs hcs.2 (ps.dropWhile q)
      (hps.sublist ((List.dropWhile_sublist q).map _)) hdrop
    have hsum : (ps.map (·.2)).sum = ((ps.takeWhile q).map (·.2)).sum + ((ps.dropWhile q).map (·.2)).sum := by
      rw [← List.sum_append, ← List.map_append, happ]
    have hmap : ps.map (·.1) = (ps.takeWhile q).map (·.1) ++ (ps.dropWhile q).map (·.1) := by rw [← List.map_append, happ]
    have hfirst : sse ((ps.takeWhile q).map (·.1)) ≤ ((ps.takeWhile q).map (·.2)).sum := by
      refine le_trans (sse_le_cost c _) ?_
      unfold cost
      rw [List.map_map]
      exact List.sum_le_sum fun p hp => htake p hp
    by_cases he : ps.takeWhile q = []
    · refine ⟨k, segs, by simp; omega, ?_, ?_⟩
      · rw [hmap, he]; simpa using hparts
      · rw [hsum, he]; simpa using hle
    · refine ⟨k + 1, (ps.takeWhile q).map (·.1) :: segs, by simp; omega, ⟨by simp [hparts.number], ?_, ?_⟩, ?_⟩
      · intro s hs
        rcases List.mem_cons.mp hs with rfl | hs
        · simpa using he
        · exact hparts.nonempty s hs
      · rw [List.flatten_cons, hparts.whole, hmap]
      · rw [hsum]
        simp only [sseAll, List.map_cons, List.sum_cons] at hle ⊢
        linarith

/-! ### More centroids than values -/

section
variable {N : Num α} {Ok Fin : α → Prop} {κ : Type} [LinearOrder κ] {key : α → κ} {B : Nat}

/-- adding a value not below any other changes the last centroid only, or appends one -/
theorem addMany_last (L : Laws N Ok Fin key B) (done : List (Centroid α)) (c : Centroid α) (cap k w : Nat) (lo x : α) (hlen : done.length + 2 < cap)
    (hs : Sorted key (done ++ [c])) (hok : ∀ d ∈ done ++ [c], Fin d.p) (hx : Fin x) (hcx : key c.p ≤ key x) (hlo : Fin lo) (hlox : key lo ≤ key x)
    (hw : 1 ≤ w) (hwB : w + 1 ≤ B) (hkB : k + 1 ≤ B) (hm : c.m = N.ofInt w) (hinj : key x = key c.p → x = c.p) :
    addMany N { cs := done ++ [c], cap := cap, count := N.ofInt k, min := lo, max := c.p } x 1 =
      some { cs := if N.eq x c.p then done ++ [{ c with m := N.ofInt (w + 1 : Nat) }] else done ++ [c, { p := x, m := N.ofInt 1 }],
             cap := cap, count := N.ofInt (k + 1 : Nat), min := lo, max := x } := by
  have hcp := hok c (by simp)
  obtain ⟨cs', st, e⟩ := addMany_step N { cs := done ++ [c], cap := cap, count := N.ofInt k, min := lo, max := c.p } x 1 (by simp; omega) (by simp; omega)
  rw [e]
  have e1 : N.add (N.ofInt k) (N.ofInt 1) = N.ofInt (k + 1 : Nat) := L.add (b := 1) hkB
  have e2 : N.lt x lo = false := by rw [Bool.eq_false_iff, Ne, L.lt (L.ok hx) (L.ok hlo)]; exact not_lt.mpr hlox
  have e3 : (if N.lt c.p x then x else c.p) = x := by
    by_cases h : key c.p < key x
    · rw [if_pos ((L.lt (L.ok hcp) (L.ok hx)).mpr h)]
    · rw [if_neg (fun h' => h ((L.lt (L.ok hcp) (L.ok hx)).mp h'))]
      exact (hinj (by order)).symm
  simp only [e1, e2, e3, Bool.false_eq_true, if_false, Option.some.injEq, Sketch.mk.injEq, and_true]
  have hdone : ∀ d ∈ done, key d.p < key c.p := fun d hd => (List.pairwise_append.mp hs).2.2 d hd c (by simp)
  cases st with
  | hit a b d e' pl he =>
    simp only at e'
    have hd : d ∈ done ++ [c] := by rw [e']; simp
    rw [L.eq (L.ok (hok d hd)) (L.ok hx)] at he
    have hdc : b = [] ∧ a = done ∧ d = c := by
      rcases snoc_cases b with rfl | ⟨b', z, rfl⟩
      · have := List.append_inj_left' e' (by simp)
        subst this
        simp at e'
        exact ⟨rfl, rfl, e'.symm⟩
      · exfalso
        have e'' : done ++ [c] = (a ++ d :: b') ++ [z] := by simpa using e'
        have h1 := List.append_inj_left' e'' (by simp)
        have := hdone d (by rw [h1]; simp)
        order
    obtain ⟨rfl, rfl, rfl⟩ := hdc
    rw [if_pos ((L.eq (L.ok hx) (L.ok hcp)).mpr he.symm)]
    have : N.add d.m (N.mul (N.sign d.m) (N.ofInt 1)) = N.ofInt (w + 1 : Nat) := by rw [hm]; exact L.hit (b := 1) hw (by omega) hwB
    rw [this]
  | room a b e' pl ne hl =>
    simp only at e'
    have hb : b = [] := by
      by_contra hb
      obtain ⟨d, b', rfl⟩ := List.exists_cons_of_ne_nil hb
      have hd : d ∈ done ++ [c] := by rw [e']; simp
      have h1 := pl.after d rfl
      have h2 := ne d rfl
      rw [L.le (L.ok hx) (L.ok (hok d hd))] at h1
      rw [Bool.eq_false_iff, Ne, L.eq (L.ok (hok d hd)) (L.ok hx)] at h2
      rcases List.mem_append.mp hd with hd | hd
      · have := hdone d hd; order
      · simp only [List.mem_singleton] at hd; subst hd; order
    subst hb
    have hac : a = done ++ [c] := by simpa using e'.symm
    subst hac
    have h1 := pl.before c (by simp)
    rw [Bool.eq_false_iff, Ne, L.le (L.ok hx) (L.ok hcp)] at h1
    rw [if_neg (by rw [L.eq (L.ok hx) (L.ok hcp)]; order)]
    simp
  | full a b x' y c' d' e' pl ne hl => simp at hl; omega

theorem runs_add (L : Laws N Ok Fin key B) (cap : Nat) (lo : α) (hlo : Fin lo) : ∀ (xs : List α) (done : List (Centroid α)) (c : Centroid α) (k w : Nat),
    done.length + xs.length + 1 < cap → Sorted key (done ++ [c]) → (∀ d ∈ done ++ [c], Fin d.p) → (∀ x ∈ xs, Fin x) →
    (c.p :: xs).Pairwise (fun x y => key x ≤ key y) → (∀ x ∈ xs, ∀ y ∈ c.p :: xs, key x = key y → x = y) → key lo ≤ key c.p →
    1 ≤ w → w ≤ k → k + xs.length ≤ B → c.m = N.ofInt w →
    addAll N { cs := done ++ [c], cap := cap, count := N.ofInt k, min := lo, max := c.p } (xs.map fun x => (x, 1)) =
      some { cs := runsOf.go N done c c.p xs, cap := cap, count := N.ofInt (k + xs.length : Nat), min := lo, max := xs.getLastD c.p }
  | [], done, c, k, w, _, _, _, _, _, _, _, _, _, _, _ => by simp [addAll, runsOf.go]
  | x :: xs, done, c, k, w, hcap, hs, hok, hf, hp, hinj, hl, hw, hwk, hB, hm => by
    have hcap' : done.length + xs.length + 2 < cap := by simp at hcap; omega
    have hB' : k + 1 + xs.length ≤ B := by simp at hB; omega
    have hcx : key c.p ≤ key x := (List.pairwise_cons.mp hp).1 x (by simp)
    have hpx := (List.pairwise_cons.mp hp).2
    have step := addMany_last L done c cap k w lo x (by omega) hs hok (hf x (by simp)) hcx hlo (le_trans hl hcx) hw (by omega) (by omega) hm
      (fun h => hinj x (by simp) c.p (by simp) h)
    simp only [List.map_cons, addAll]
    have h1 : ((1 : Nat) : Int) = 1 := rfl
    rw [h1, step]
    simp only [Option.bind_some]
    have hcp := hok c (by simp)
    have ek : k + (x :: xs).length = k + 1 + xs.length := by simp; omega
    have el : (x :: xs).getLastD c.p = xs.getLastD x := by cases xs <;> simp [List.getLastD]
    rw [ek, el, runsOf.go]
    by_cases he : key x = key c.p
    · have hxc := hinj x (by simp) c.p (by simp) he
      subst hxc
      rw [if_pos ((L.eq (L.ok hcp) (L.ok hcp)).mpr rfl), if_pos ((L.eq (L.ok hcp) (L.ok hcp)).mpr rfl)]
      have hadd : N.add c.m (N.ofInt 1) = N.ofInt (w + 1 : Nat) := by rw [hm]; exact L.add (b := 1) (by omega)
      rw [hadd]
      have ih := runs_add L cap lo hlo xs done { c with m := N.ofInt (w + 1 : Nat) } (k + 1) (w + 1) (by omega)
        (by
          obtain ⟨a1, _, a3⟩ := List.pairwise_append.mp hs
          refine List.pairwise_append.mpr ⟨a1, by simp, fun d hd e he => ?_⟩
          simp only [List.mem_singleton] at he; subst he
          exact a3 d hd c (by simp))
        (by
          intro d hd
          rcases List.mem_append.mp hd with hd | hd
          · exact hok d (by simp [hd])
          · simp only [List.mem_singleton] at hd; subst hd; exact hcp)
        (fun y hy => hf y (by simp [hy])) hpx (fun y hy z hz => hinj y (by simp [hy]) z (by simp only [List.mem_cons] at hz ⊢; tauto)) hl (by omega) (by omega) hB' rfl
      exact ih
    · rw [if_neg (by rw [L.eq (L.ok (hf x (by simp))) (L.ok hcp)]; exact he), if_neg (by rw [L.eq (L.ok (hf x (by simp))) (L.ok hcp)]; exact he)]
      have hlt : key c.p < key x := lt_of_le_of_ne hcx (Ne.symm he)
      have ih := runs_add L cap lo hlo xs (done ++ [c]) { p := x, m := N.ofInt 1 } (k + 1) 1 (by simp; omega)
        (by
          refine List.pairwise_append.mpr ⟨hs, by simp, fun d hd e he => ?_⟩
          simp only [List.mem_singleton] at he; subst he
          rcases List.mem_append.mp hd with hd | hd
          · have := (List.pairwise_append.mp hs).2.2 d hd c (by simp)
            simp only; order
          · simp only [List.mem_singleton] at hd; subst hd; exact hlt)
        (by
          intro d hd
          rcases List.mem_append.mp hd with hd | hd
          · exact hok d hd
          · simp only [List.mem_singleton] at hd; subst hd; exact hf x (by simp))
        (fun y hy => hf y (by simp [hy])) hpx (fun y hy z hz => hinj y (by simp [hy]) z (by simp only [List.mem_cons] at hz ⊢; tauto)) (le_trans hl hcx) (by omega) (by omega) hB' rfl
      simpa using ih

/-- for more centroids than values, the sketch is that of adding the values one by one -/
theorem fromSorted_add (L : Laws N Ok Fin key B) (xs : List α) (n : Nat) (hne : xs ≠ []) (hn : xs.length < n) (hB : xs.length ≤ B) (hf : ∀ x ∈ xs, Fin x)
    (hs : xs.Pairwise fun x y => key x ≤ key y) (hinj : ∀ x y, Fin x → Fin y → (x ∈ xs ∨ x = N.maxFinite ∨ x = N.neg N.maxFinite) → y ∈ xs → key x = key y → x = y) :
    fromSorted N xs n = (new N n).bind fun h0 => addAll N h0 (xs.map fun x => (x, 1)) := by
  obtain ⟨x, ys, rfl⟩ := List.exists_cons_of_ne_nil hne
  have hx := hf x (by simp)
  have hn0 : n ≠ 0 := by simp at hn; omega
  simp only [new, if_neg hn0, Option.bind_some, List.map_cons, addAll]
  have h1 : ((1 : Nat) : Int) = 1 := rfl
  have hB1 : 1 ≤ B := by simp at hB; omega
  have hadd : addMany N { cs := [], cap := n + 1, count := N.ofInt 0, min := N.maxFinite, max := N.neg N.maxFinite } x 1 =
      some { cs := [] ++ [{ p := x, m := N.ofInt 1 }], cap := n + 1, count := N.ofInt (1 : Nat), min := x, max := x } := by
    obtain ⟨cs', st, e⟩ := addMany_step N { cs := [], cap := n + 1, count := N.ofInt 0, min := N.maxFinite, max := N.neg N.maxFinite } x 1 (by simp) (by simp; omega)
    rw [e]
    have e0 : N.add (N.ofInt 0) (N.ofInt 1) = N.ofInt (1 : Nat) := by have := L.add (a := 0) (b := 1) hB1; simpa using this
    have e1 : (if N.lt x N.maxFinite then x else N.maxFinite) = x := by
      by_cases h : key x < key N.maxFinite
      · rw [if_pos ((L.lt (L.ok hx) (L.ok L.top.1)).mpr h)]
      · rw [if_neg (fun h' => h ((L.lt (L.ok hx) (L.ok L.top.1)).mp h'))]
        have := L.top.2 hx
        exact hinj _ _ L.top.1 hx (by simp) (by simp) (by order)
    have e2 : (if N.lt (N.neg N.maxFinite) x then x else N.neg N.maxFinite) = x := by
      by_cases h : key (N.neg N.maxFinite) < key x
      · rw [if_pos ((L.lt (L.ok L.bot.1) (L.ok hx)).mpr h)]
      · rw [if_neg (fun h' => h ((L.lt (L.ok L.bot.1) (L.ok hx)).mp h'))]
        have := L.bot.2 hx
        exact hinj _ _ L.bot.1 hx (by simp) (by simp) (by order)
    simp only [e0, e1, e2, Option.some.injEq, Sketch.mk.injEq, and_true]
    cases st with
    | hit a b d e' => simp at e'
    | room a b e' => simp at e'; simp [e']
    | full a b x' y c' d' e' pl ne hl => simp at hl; omega
  rw [h1, hadd]
  simp only [Option.bind_some]
  have := runs_add L (n + 1) x hx ys [] { p := x, m := N.ofInt 1 } 1 1 (by simp at hn ⊢; omega) (by simp [Sorted]) (by simpa using hx)
    (fun y hy => hf y (by simp [hy])) hs (fun y hy z hz => hinj y z (hf y (by simp [hy])) (hf z hz) (.inl (by simp [hy])) hz) (le_refl _) (le_refl _) (le_refl _) (by simp at hB; omega) rfl
  rw [this, fromSorted, if_neg (by omega)]
  have hlt : ((x :: ys).length : Int) < n := by exact_mod_cast hn
  have hl : (x :: ys).getLast? = some (ys.getLastD x) := by cases ys <;> simp [List.getLast?_cons]
  rw [hl]
  simp only [List.head?_cons, if_pos hlt]
  simp [runsOf, List.length_cons, Nat.add_comm]

end

end Verif.Sketch
