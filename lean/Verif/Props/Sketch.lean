import Verif.Lemmas.RealQuantile
import Verif.Lemmas.IeeeQuantile
import Verif.Lemmas.AddMany
/-
C30, C31, C61, C62, C63: the histogram sketch, in the arithmetic of float64 (`ieee`) and of real numbers (`exact`).
-/
set_option autoImplicit false
namespace Verif.Sketch
open Ieee

/-! ### C30: size, mass, extrema -/

/-- a sketch for no bins is refused, and no insertion into any other panics, in any arithmetic and for any values and weights; there are at most as many
bins as asked for -/
theorem C30_size {α : Type} (N : Num α) (n : Nat) (vs : List (α × Nat)) :
    (n = 0 ∧ new N n = none) ∨ ∃ h0 h, new N n = some h0 ∧ addAll N h0 vs = some h ∧ h.cs.length ≤ n ∧ (vs ≠ [] → 1 ≤ h.cs.length) := by
  by_cases hn : n = 0
  · left; exact ⟨hn, by simp [new, hn]⟩
  · right
    have en : new N n = some { cs := [], cap := n + 1, count := N.ofInt 0, min := N.maxFinite, max := N.neg N.maxFinite } := by simp [new, hn]
    obtain ⟨h, e, c, l, ne⟩ := addAll_some N { cs := [], cap := n + 1, count := N.ofInt 0, min := N.maxFinite, max := N.neg N.maxFinite } vs (by simp) (by simp; omega)
    refine ⟨_, h, en, e, ?_, ne⟩
    simp only at c
    omega

/-- the counter and the weights of the bins add up to the number of values, which float64 counts exactly up to 2^53 -/
theorem C30_mass (n : Nat) (vs : List (UInt64 × Nat)) (h0 h : Sketch UInt64) (en : new ieee n = some h0) (e : addAll ieee h0 vs = some h)
    (hp : ∀ p ∈ vs, 1 ≤ p.2) (hB : total vs ≤ 2 ^ 53) :
    h.count = Ieee.ofInt (total vs) ∧ (∀ c ∈ h.cs, ∃ w : Nat, 1 ≤ w ∧ (c.m = Ieee.ofInt w ∨ c.m = Ieee.neg (Ieee.ofInt w)) ∧ Ieee.abs c.m = Ieee.ofInt w) ∧
      (h.cs.map fun c => Ieee.toInt (Ieee.abs c.m)).sum = total vs := by
  obtain ⟨m1, m2, m3⟩ := mass_all ieee_laws n vs h0 h en e hp hB
  refine ⟨m1, fun c hc => ?_, m3⟩
  obtain ⟨w, hw, hb⟩ := m2 c hc
  exact ⟨w, hw.1, hw.2, hw.abs ieee_laws hb⟩

/-- the extrema kept are those of the values -/
theorem C30_extrema (n : Nat) (vs : List (UInt64 × Nat)) (h0 h : Sketch UInt64) (en : new ieee n = some h0) (e : addAll ieee h0 vs = some h)
    (hf : ∀ p ∈ vs, Ieee.Finite p.1) (hne : vs ≠ []) :
    (∀ p ∈ vs, Ieee.le h.min p.1 = true ∧ Ieee.le p.1 h.max = true) ∧ (∃ p ∈ vs, f64Eq h.min p.1 = true) ∧ ∃ p ∈ vs, f64Eq h.max p.1 = true := by
  obtain ⟨⟨f1, f2⟩, hb, hext⟩ := extrema ieee_laws n vs h0 h en e hf
  obtain ⟨⟨p, hp, ep⟩, q, hq, eq⟩ := hext hne
  refine ⟨fun r hr => ?_, ⟨p, hp, ?_⟩, q, hq, ?_⟩
  · have hr' := (hf r hr).notNaN
    exact ⟨(le_val f1.notNaN hr').mpr (hb r hr).1, (le_val hr' f2.notNaN).mpr (hb r hr).2⟩
  · exact (ieee_laws.eq f1.notNaN (hf p hp).notNaN).mpr ep
  · exact (ieee_laws.eq f2.notNaN (hf q hq).notNaN).mpr eq

/-- as long as the different values are not more than the bins, each has its own bin, in order, with its number of occurrences -/
theorem C30_exact (n : Nat) (vs : List (UInt64 × Nat)) (h0 h : Sketch UInt64) (en : new ieee n = some h0) (e : addAll ieee h0 vs = some h)
    (hp : ∀ p ∈ vs, 1 ≤ p.2) (hf : ∀ p ∈ vs, Ieee.Finite p.1) (hB : total vs ≤ 2 ^ 53) (ks : List Int) (hks : ks.length ≤ n) (hk : ∀ p ∈ vs, val p.1 ∈ ks) :
    (h.cs.Pairwise fun c d => Ieee.lt c.p d.p = true) ∧
      (∀ c ∈ h.cs, (∃ p ∈ vs, p.1 = c.p) ∧ c.m = Ieee.ofInt (total (vs.filter fun p => val p.1 = val c.p))) ∧
      ∀ p ∈ vs, ∃ c ∈ h.cs, f64Eq c.p p.1 = true := by
  have hx := exact_all ieee_laws n vs h0 h en e hp hf hB ks hks hk
  refine ⟨?_, fun c hc => ⟨(hx.each c hc).2.2.2, (hx.each c hc).2.2.1⟩, fun p hp' => ?_⟩
  · refine List.Pairwise.imp_of_mem ?_ hx.sorted
    intro c d hc hd hcd
    exact (lt_val (hx.each c hc).1.notNaN (hx.each d hd).1.notNaN).mpr hcd
  · obtain ⟨c, hc, hcp⟩ := hx.all p hp'
    exact ⟨c, hc, (ieee_laws.eq (hx.each c hc).1.notNaN (hf p hp').notNaN).mpr hcp⟩

theorem nan_mk {s : Bool} {k : Nat} (h : k ≤ infKey) : f64NaN (mk s k) = false := by
  unfold f64NaN
  rw [mag_mk s (by have := infKey_lt; omega)]
  unfold infKey at h
  simp; omega

theorem nan_sub {x y : UInt64} (hx : Ieee.Finite x) (hy : Ieee.Finite y) : f64NaN (Ieee.sub x y) = false := by
  have hy' := finite_neg hy
  unfold Ieee.sub Ieee.add
  simp only [hx.notNaN, hy'.notNaN, hx.notInf, hy'.notInf, Bool.or_self, Bool.false_eq_true, if_false]
  split
  · exact nan_mk (Nat.zero_le _)
  · exact nan_mk (rnd_le _ _)

/-- an insertion of a new value into a full sketch merges two neighbours, none being closer to each other (unless the distances are all too great
for a float64, when the first two are merged) -/
theorem C30_closest (h h' : Sketch UInt64) (v : UInt64) (n : Nat) (hc : h.cs.length + 1 = h.cap) (h2 : 2 ≤ h.cap) (hf : ∀ c ∈ h.cs, Ieee.Finite c.p)
    (hv : Ieee.Finite v) (hne : ∀ c ∈ h.cs, f64Eq c.p v = false) (e : addMany ieee h v n = some h') :
    ∃ a b x c d y, h.cs = a ++ b ∧ a ++ { p := v, m := Ieee.ofInt n } :: b = x ++ c :: d :: y ∧ h'.cs = x ++ c.merge ieee d :: y ∧
      ((x = [] ∧ ∀ e f, Adjacent (x ++ c :: d :: y) e f → Ieee.le Ieee.maxFinite (Ieee.sub f.p e.p) = true) ∨
        ∀ e f, Adjacent (x ++ c :: d :: y) e f → Ieee.le (Ieee.sub d.p c.p) (Ieee.sub f.p e.p) = true) := by
  obtain ⟨cs', st, e'⟩ := addMany_step ieee h v n (by omega) h2
  rw [e'] at e
  cases e
  cases st with
  | hit a b c e1 pl he =>
    have := hne c (by rw [e1]; simp)
    rw [ieee_eq] at he
    rw [he] at this; cases this
  | room a b e1 pl ne hl => omega
  | full a b x y c d e1 pl ne hl e2 hx =>
    have hfin : ∀ g ∈ x ++ c :: d :: y, Ieee.Finite g.p := by
      rw [← e2]
      intro g hg
      rcases List.mem_append.mp hg with hg | hg
      · exact hf g (by rw [e1]; simp [hg])
      · rcases List.mem_cons.mp hg with rfl | hg
        · exact hv
        · exact hf g (by rw [e1]; simp [hg])
    have hadj : ∀ e f, Adjacent (x ++ c :: d :: y) e f → Ieee.Finite e.p ∧ Ieee.Finite f.p := by
      rintro e f ⟨x', y', h'⟩
      exact ⟨hfin e (by rw [h']; simp), hfin f (by rw [h']; simp)⟩
    have hcd := hadj c d ⟨x, y, rfl⟩
    refine ⟨a, b, x, c, d, y, e1, e2, rfl, ?_⟩
    rcases merged_closest ieee_laws x y c d hx (fun e f hef => nan_sub (hadj e f hef).2 (hadj e f hef).1) with ⟨h1, h3⟩ | h3
    · exact Or.inl ⟨h1, fun e f hef => (le_val (by decide) (nan_sub (hadj e f hef).2 (hadj e f hef).1)).mpr (h3 e f hef)⟩
    · exact Or.inr fun e f hef => (le_val (nan_sub hcd.2 hcd.1) (nan_sub (hadj e f hef).2 (hadj e f hef).1)).mpr (h3 e f hef)

/-- but for rounding, the bins stay sorted and between the extrema, and the mean of the bins is that of the values -/
theorem C30_ordered {M : ℝ} (hM : 0 ≤ M) (n : Nat) (vs : List (ℝ × Nat)) (h0 h : Sketch ℝ) (en : new (exact M) n = some h0) (e : addAll (exact M) h0 vs = some h)
    (hp : ∀ p ∈ vs, 1 ≤ p.2) :
    (h.cs.Pairwise fun c d => c.p < d.p) ∧ (∀ c ∈ h.cs, h.min ≤ c.p ∧ c.p ≤ h.max) ∧
      (h.cs.map fun c => c.p * |c.m|).sum = (vs.map fun p => p.1 * (p.2 : ℝ)).sum ∧ (h.cs.map fun c => |c.m|).sum = total vs := by
  obtain ⟨h1, h2, h3⟩ := ordered_all hM n vs h0 h en e hp
  have hm := mass_all (exact_laws M hM (total vs)) n vs h0 h en e hp (Nat.le_refl _)
  have habs : ∀ x : ℝ, (exact M).abs x = |x| := by
    intro x
    by_cases hx : x < 0
    · simp [exact, hx, abs_of_neg hx]
    · simp [exact, hx, abs_of_nonneg (not_lt.mp hx)]
  have hsz : ∀ c ∈ h.cs, (size (exact M) c : ℝ) = |c.m| := by
    intro c hc
    rw [← (real_weight (M := M) hM (hm.each c hc)).2.1, habs]
  refine ⟨h1, h2, ?_, ?_⟩
  · rw [← h3]
    unfold moment
    congr 1
    exact List.map_congr_left fun c hc => by rw [hsz c hc]
  · have : h.cs.map (fun c => |c.m|) = (h.cs.map (size (exact M))).map (fun i : Int => (i : ℝ)) := by
      rw [List.map_map]
      exact List.map_congr_left fun c hc => (hsz c hc).symm
    have hs : ∀ l : List Int, (l.map (fun i : Int => (i : ℝ))).sum = ((l.sum : Int) : ℝ) := by
      intro l
      induction l with
      | nil => simp
      | cons a l ih => rw [List.map_cons, List.sum_cons, List.sum_cons, ih, Int.cast_add]
    rw [this, hs, hm.sum]
    simp

/-- merging a sketch into another adds up their numbers of values -/
theorem C30_merge (h x : Sketch UInt64) (T U : Nat) (hh : Mass ieee (2 ^ 53) h T) (hx : Mass ieee (2 ^ 53) x U) (hB : T + U ≤ 2 ^ 53)
    (hc : h.cs.length < h.cap) (h2 : 2 ≤ h.cap) :
    ∃ h', merge ieee h x = some h' ∧ h'.count = Ieee.ofInt (T + U : Nat) ∧ (h'.cs.map fun c => Ieee.toInt (Ieee.abs c.m)).sum = T + U ∧ h'.cs.length < h.cap := by
  have main : ∀ (cs : List (Centroid UInt64)) (h : Sketch UInt64) (T U : Nat), Mass ieee (2 ^ 53) h T → (∀ c ∈ cs, ∃ w, IsW ieee c.m w ∧ w ≤ 2 ^ 53) →
      (cs.map (size ieee)).sum = U → T + U ≤ 2 ^ 53 → h.cs.length < h.cap → 2 ≤ h.cap →
      ∃ h', cs.foldlM (fun h c => addMany ieee h c.p (ieee.toInt (ieee.abs c.m))) h = some h' ∧ Mass ieee (2 ^ 53) h' (T + U) ∧ h'.cs.length < h.cap := by
    intro cs
    induction cs with
    | nil =>
      intro h T U hh _ hU _ hc h2
      have : U = 0 := by simp at hU; omega
      subst this
      exact ⟨h, rfl, hh, hc⟩
    | cons c cs ih =>
      intro h T U hh hw hU hB hc h2
      obtain ⟨w, hw1, hw2⟩ := hw c (by simp)
      have es : ieee.toInt (ieee.abs c.m) = w := size_eq ieee_laws hw1 hw2
      have hn := sizes_nonneg ieee_laws (fun d hd => hw d (List.mem_cons_of_mem _ hd))
      have hcs : size ieee c = w := es
      rw [List.map_cons, List.sum_cons, hcs] at hU
      obtain ⟨V, hV⟩ := Int.eq_ofNat_of_zero_le hn
      have hUV : U = w + V := by omega
      obtain ⟨h1, e1, c1, l1, _⟩ := addMany_size ieee h c.p w hc h2
      have m1 := mass_step ieee_laws hc h2 hw1.1 (by omega) hh e1
      obtain ⟨h', e', m', l'⟩ := ih h1 (T + w) V m1 (fun d hd => hw d (List.mem_cons_of_mem _ hd)) hV (by omega) (by omega) (by omega)
      refine ⟨h', ?_, ?_, by omega⟩
      · rw [List.foldlM_cons, es, e1]
        exact e'
      · rw [hUV, ← Nat.add_assoc]; exact m'
  obtain ⟨h', e', m', l'⟩ := main x.cs h T U hh hx.each hx.sum hB hc h2
  refine ⟨h', e', m'.count, ?_, l'⟩
  have := m'.sum
  rw [← Int.natCast_add]
  exact this

/-! ### C31: saving and loading -/

theorem loadCentroids_save {α : Type} (N : Num α) (cs done : List (Centroid α)) (count : α) (rest : List (List (Field α))) :
    loadCentroids N cs.length (cs.map (fun c => [Field.num c.p, Field.num c.m]) ++ rest) done count =
      some (done ++ cs, cs.foldl (fun s c => N.add s c.m) count, rest) := by
  induction cs generalizing done count with
  | nil => simp [loadCentroids]
  | cons c cs ih => simp [loadCentroids, ih]

/-- a loaded sketch has the bins and the extrema of the one saved; its counter is the sum of the weights with their signs, and it has room for the bins
it had and no more -/
theorem C31_load {α : Type} (N : Num α) (h : Sketch α) :
    load N (save h) = some { cs := h.cs, cap := h.cs.length + 1, count := h.cs.foldl (fun s c => N.add s c.m) (N.ofInt 0), min := h.min, max := h.max } := by
  have := loadCentroids_save N h.cs [] (N.ofInt 0) [[Field.num h.min, Field.num h.max]]
  simp only [load, save, List.cons_append, List.nil_append, Int.toNat_natCast]
  rw [if_neg (by omega)]
  simp [this]

theorem loadCentroids_some {α : Type} (N : Num α) : ∀ (n : Nat) (ls : List (List (Field α))) (done out : List (Centroid α)) (count c : α)
    (rest : List (List (Field α))), loadCentroids N n ls done count = some (out, c, rest) →
    ∃ cs, cs.length = n ∧ out = done ++ cs ∧ ls = cs.map (fun c => [Field.num c.p, Field.num c.m]) ++ rest ∧
      c = cs.foldl (fun s c => N.add s c.m) count
  | 0, ls, done, out, count, c, rest, h => by
    simp only [loadCentroids, Option.some.injEq, Prod.mk.injEq] at h
    obtain ⟨rfl, rfl, rfl⟩ := h
    exact ⟨[], rfl, by simp, by simp, rfl⟩
  | n + 1, ls, done, out, count, c, rest, h => by
    unfold loadCentroids at h
    split at h
    · rename_i h1
      simp at h1
    · rename_i _ p m ls' h1
      simp only [Nat.succ_eq_add_one, Nat.add_right_cancel_iff] at h1
      subst h1
      obtain ⟨cs, h2, h3, h4, h5⟩ := loadCentroids_some N _ _ _ _ _ _ _ h
      exact ⟨{ p := p, m := m } :: cs, by simp [h2], by simp [h3], by simp [h4], by simp [h5]⟩
    · simp at h

/-- what loads is exactly what saving writes, possibly with more behind it, or -1 as the number of bins: the version is 1, then as many bins as announced,
then the extrema -/
theorem C31_load_only {α : Type} (N : Num α) (ls : List (List (Field α))) (h : Sketch α) (e : load N ls = some h) :
    ∃ (k : Int) (rest : List (List (Field α))), k.toNat = h.cs.length ∧ -1 ≤ k ∧
      ls = [.int 1] :: [.int k] :: (h.cs.map (fun c => [.num c.p, .num c.m]) ++ [.num h.min, .num h.max] :: rest) ∧
      h.cap = (k + 1).toNat ∧ h.count = h.cs.foldl (fun s c => N.add s c.m) (N.ofInt 0) := by
  unfold load at e
  split at e
  · rename_i version k ls'
    split at e
    · simp at e
    · rename_i hv
      simp only [ne_eq, not_or, Decidable.not_not, Int.not_lt] at hv
      obtain ⟨hv, hk⟩ := hv
      subst hv
      split at e
      · rename_i cs count mn mx rest hl
        simp only [Option.some.injEq] at e
        subst e
        obtain ⟨cs', h2, h3, h4, h5⟩ := loadCentroids_some N _ _ _ _ _ _ _ hl
        simp only [List.nil_append] at h3
        subst h3
        exact ⟨k, rest, h2.symm, by omega, by rw [h4], rfl, h5⟩
      · simp at e
  · simp at e

example : load ieee [[.int 1], [.int 1], [.num 3, .num 4], [.num 3, .num 5], []] = some { cs := [{ p := 3, m := 4 }], cap := 2, count := 4, min := 3, max := 5 } ∧
    load ieee [[.int 2], [.int 1], [.num 3, .num 4], [.num 3, .num 5]] = none ∧
    load ieee [[.int 1], [.int 2], [.num 3, .num 4], [.num 3, .num 5]] = none := by decide +kernel

/-- the weights with their signs -/
theorem signed_sum (cs : List (Centroid UInt64)) (S : Int) (T : Nat) (hw : ∀ c ∈ cs, ∃ w, IsW ieee c.m w ∧ w ≤ 2 ^ 53) (hs : (cs.map (size ieee)).sum = T)
    (hB : S.natAbs + T ≤ 2 ^ 53) :
    cs.foldl (fun s c => ieee.add s c.m) (Ieee.ofInt S) = Ieee.ofInt (S + (cs.map fun c => if Ieee.isNeg c.m then -(size ieee c) else size ieee c).sum) := by
  induction cs generalizing S T with
  | nil => simp
  | cons c cs ih =>
    obtain ⟨w, hw1, hw2⟩ := hw c (by simp)
    have hcs : size ieee c = w := size_eq ieee_laws hw1 hw2
    have hn := sizes_nonneg ieee_laws (fun d hd => hw d (List.mem_cons_of_mem _ hd))
    obtain ⟨V, hV⟩ := Int.eq_ofNat_of_zero_le hn
    rw [List.map_cons, List.sum_cons, hcs, hV] at hs
    have hm : ∃ i : Int, i.natAbs = w ∧ c.m = Ieee.ofInt i ∧ (if Ieee.isNeg c.m then -(size ieee c) else size ieee c) = i := by
      rw [hcs]
      have h1 := hw1.1
      rcases hw1.2 with e | e
      · refine ⟨w, by omega, e, ?_⟩
        have e' : c.m = Ieee.ofInt (w : Int) := e
        rw [e', isNeg_ofInt (by omega), if_neg (by simp)]
      · have e' : c.m = Ieee.ofInt (-(w : Int)) := by
          rw [e]
          exact neg_ofInt (by omega) (by omega)
        refine ⟨-(w : Int), by omega, e', ?_⟩
        rw [e', isNeg_ofInt (by omega), if_pos (by simp; omega)]
    obtain ⟨i, hi, em, es⟩ := hm
    rw [List.foldl_cons, List.map_cons, List.sum_cons, es, em, ieee_add, add_ofInt (by omega) (by omega) (by omega)]
    rw [ih (S + i) V (fun d hd => hw d (List.mem_cons_of_mem _ hd)) hV (by omega), Int.add_assoc]

/-- so the counter is what it was exactly if no bins have been merged -/
theorem C31_count (n : Nat) (vs : List (UInt64 × Nat)) (h0 h : Sketch UInt64) (en : new ieee n = some h0) (e : addAll ieee h0 vs = some h)
    (hp : ∀ p ∈ vs, 1 ≤ p.2) (hB : total vs ≤ 2 ^ 53) :
    ∃ h', load ieee (save h) = some h' ∧
      h'.count = Ieee.ofInt (h.cs.map fun c => if Ieee.isNeg c.m then -(Ieee.toInt (Ieee.abs c.m)) else Ieee.toInt (Ieee.abs c.m)).sum ∧
      (h'.count = h.count ↔ ∀ c ∈ h.cs, Ieee.isNeg c.m = false) := by
  have hm := mass_all ieee_laws n vs h0 h en e hp hB
  refine ⟨_, C31_load ieee h, ?_, ?_⟩
  · have := signed_sum h.cs 0 (total vs) hm.each hm.sum (by simp; exact hB)
    rw [Int.zero_add] at this
    exact this
  · have h1 := signed_sum h.cs 0 (total vs) hm.each hm.sum (by simp; exact hB)
    rw [Int.zero_add] at h1
    simp only [hm.count, ieee_ofInt, h1]
    have key : ∀ cs : List (Centroid UInt64), (∀ c ∈ cs, ∃ w, IsW ieee c.m w ∧ w ≤ 2 ^ 53) →
        ((cs.map fun c => if Ieee.isNeg c.m then -(size ieee c) else size ieee c).sum ≤ (cs.map (size ieee)).sum ∧
          -(cs.map (size ieee)).sum ≤ (cs.map fun c => if Ieee.isNeg c.m then -(size ieee c) else size ieee c).sum) ∧
        ((cs.map fun c => if Ieee.isNeg c.m then -(size ieee c) else size ieee c).sum = (cs.map (size ieee)).sum ↔ ∀ c ∈ cs, Ieee.isNeg c.m = false) := by
      intro cs hw
      induction cs with
      | nil => simp
      | cons c cs ih =>
        obtain ⟨w, hw1, hw2⟩ := hw c (by simp)
        have hcs : size ieee c = w := size_eq ieee_laws hw1 hw2
        have h1 := hw1.1
        obtain ⟨⟨i1, i2⟩, i3⟩ := ih fun d hd => hw d (List.mem_cons_of_mem _ hd)
        simp only [List.map_cons, List.sum_cons, List.forall_mem_cons, ← i3]
        rw [hcs]
        cases hn : Ieee.isNeg c.m with
        | true =>
          simp only [if_true]
          refine ⟨⟨by omega, by omega⟩, ⟨fun h => by omega, fun h => by cases h.1⟩⟩
        | false =>
          simp only [Bool.false_eq_true, if_false]
          refine ⟨⟨by omega, by omega⟩, ⟨fun h => ⟨trivial, by omega⟩, fun h => by omega⟩⟩
    obtain ⟨⟨k1, k2⟩, k3⟩ := key h.cs hm.each
    rw [← k3, hm.sum]
    rw [hm.sum] at k1 k2
    constructor
    · intro he
      have hv := congrArg val he
      rw [val_ofInt (by omega), val_ofInt (by omega)] at hv
      have := unit_pos
      exact Int.eq_of_mul_eq_mul_right (by omega) hv
    · intro he
      rw [he]

/-! ### C61: `Sum` -/

/-- as long as the different values are not more than the bins, `Sum` is the number of values not above the argument -/
theorem C61_exact (n : Nat) (vs : List (UInt64 × Nat)) (h0 h : Sketch UInt64) (en : new ieee n = some h0) (e : addAll ieee h0 vs = some h)
    (hp : ∀ p ∈ vs, 1 ≤ p.2) (hf : ∀ p ∈ vs, Ieee.Finite p.1) (hB : total vs ≤ 2 ^ 53) (ks : List Int) (hks : ks.length ≤ n) (hk : ∀ p ∈ vs, val p.1 ∈ ks)
    (x : UInt64) (hx : f64NaN x = false) : sum ieee h x = some (Ieee.ofInt (total (vs.filter fun p => Ieee.le p.1 x))) := by
  rw [sum_exact ieee_laws n vs h0 h en e hp hf hB ks hks hk x hx]
  have : vs.filter (fun p => Ieee.le p.1 x) = vs.filter (fun q => val q.1 ≤ val x) := by
    refine List.filter_congr fun p hp' => ?_
    rw [Bool.eq_iff_iff, le_val (hf p hp').notNaN hx]
    simp
  rw [this]
  rfl

/-- but for rounding, `Sum` is never negative nor above the number of values, merged or not -/
theorem C61_bounds {M : ℝ} (hM : 0 ≤ M) (n : Nat) (vs : List (ℝ × Nat)) (h0 h : Sketch ℝ) (en : new (exact M) n = some h0) (e : addAll (exact M) h0 vs = some h)
    (hp : ∀ p ∈ vs, 1 ≤ p.2) (p : ℝ) : ∃ s, sum (exact M) h p = some s ∧ 0 ≤ s ∧ s ≤ total vs := sum_bounds hM n vs h0 h en e hp p

/-! ### C62: `Quantile` -/

theorem Laws.mono {α κ : Type} [LinearOrder κ] {N : Num α} {Ok Fin : α → Prop} {key : α → κ} {B C : Nat} (L : Laws N Ok Fin key B) (h : C ≤ B) : Laws N Ok Fin key C where
  ok := L.ok
  lt := L.lt
  le := L.le
  eq := L.eq
  top := L.top
  bot := L.bot
  add h' := L.add (by omega)
  hit h1 h2 h' := L.hit h1 h2 (by omega)
  hitNeg h1 h2 h' := L.hitNeg h1 h2 (by omega)
  abs h' := L.abs (by omega)
  absNeg h' := L.absNeg (by omega)
  toInt h' := L.toInt (by omega)
  pos h' := L.pos (by omega)
  notPos h1 h' := L.notPos h1 (by omega)

theorem nearHalf_bounds {T P H Q : Nat} (h1 : 1 ≤ T) (hT : T ≤ 2 ^ 22) (hlow : H * (2 ^ 22 - 1) ≤ P * 2 ^ 22) (hhigh : P ≤ (2 ^ 23 - 1) * Q) (hH : H = 2 ^ 23 * Q) (hQ : 0 < Q) :
    (T - 1) * H ≤ P * T ∧ P * T ≤ T * (2 ^ 23 - 1) * Q ∧ T * (2 ^ 23 - 1) * Q < T * H := by
  refine ⟨?_, ?_, ?_⟩
  · have h3 : H * (2 ^ 22 - 1) * T ≤ P * T * 2 ^ 22 := by
      calc H * (2 ^ 22 - 1) * T ≤ P * 2 ^ 22 * T := Nat.mul_le_mul_right T hlow
        _ = P * T * 2 ^ 22 := Nat.mul_right_comm _ _ _
    have h4 : (T - 1) * H * 2 ^ 22 ≤ H * (2 ^ 22 - 1) * T := by
      have h5 : (T - 1) * 2 ^ 22 ≤ (2 ^ 22 - 1) * T := by
        clear h3 hlow hhigh hH
        have e1 : (2 : Nat) ^ 22 = 4194304 := by decide
        rw [e1] at hT ⊢
        omega
      have := Nat.mul_le_mul_left H h5
      calc (T - 1) * H * 2 ^ 22 = H * ((T - 1) * 2 ^ 22) := by rw [Nat.mul_comm (T - 1) H, Nat.mul_assoc]
        _ ≤ H * ((2 ^ 22 - 1) * T) := this
        _ = H * (2 ^ 22 - 1) * T := by rw [Nat.mul_assoc]
    exact Nat.le_of_mul_le_mul_right (Nat.le_trans h4 h3) (by decide)
  · calc P * T ≤ (2 ^ 23 - 1) * Q * T := Nat.mul_le_mul_right T hhigh
      _ = T * (2 ^ 23 - 1) * Q := by rw [Nat.mul_comm _ T, Nat.mul_assoc]
  · rw [hH, ← Nat.mul_assoc]
    exact Nat.mul_lt_mul_of_pos_right (by omega) hQ

attribute [local irreducible] rnd unit hunit in
/-- 0.4999999 times a number up to 2^22 is less than half of it, and not less than half of the number before -/
theorem nearHalf_mul {T : Nat} (h1 : 1 ≤ T) (hT : T ≤ 2 ^ 22) :
    val (half (T - 1)) ≤ val (Ieee.mul nearHalf (Ieee.ofInt T)) ∧ val (Ieee.mul nearHalf (Ieee.ofInt T)) < val (half T) := by
  have hf : Ieee.Finite nearHalf := by unfold Ieee.Finite; decide
  have hn : isNeg nearHalf = false := by decide
  have fT : Ieee.Finite (Ieee.ofInt T) := finite_ofInt (by omega)
  have hT1 : T - 1 ≤ 2 ^ 53 := by omega
  have hT2 : T ≤ 2 ^ 53 := by omega
  have hT3 : (T : Int).natAbs ≤ 2 ^ 53 := by omega
  have hT4 : T * (2 ^ 23 - 1) ≤ 2 ^ 53 := by omega
  obtain ⟨k, hk, hl⟩ := magVal_shift (T * (2 ^ 23 - 1)) 1050 hT4
  have hki : k ≤ infKey := by
    have : (1050 * 2 ^ 52 + 2 ^ 53 : Nat) ≤ infKey := by decide
    exact Nat.le_trans hl this
  have hbnd : (T - 1) * hunit ≤ magVal (f64Mag nearHalf) * T ∧ magVal (f64Mag nearHalf) * T ≤ magVal k ∧ magVal k < T * hunit := by
    rw [hk]
    exact nearHalf_bounds h1 hT (by unfold hunit; decide +kernel) (by decide +kernel) (by unfold hunit; rw [← Nat.pow_add]) (Nat.pow_pos (by decide))
  rw [val_mul hf fT, hn, isNeg_ofInt hT3, mag_ofInt hT3, (rnd_nat _ hT3).2, Int.natAbs_natCast]
  have : (false != decide ((T : Int) < 0)) = false := by simp
  rw [this, if_neg (by decide), val_half hT1, val_half hT2, Int.ofNat_le, Int.ofNat_lt]
  clear hk hl
  generalize magVal (f64Mag nearHalf) = P at *
  obtain ⟨b1, b2, b3⟩ := hbnd
  constructor
  · obtain ⟨r1, r2⟩ := rnd_half (T - 1) hT1
    rw [← r2]
    refine magVal_le ?_
    have e : rnd ((T - 1) * hunit) 1 = rnd (magVal (rnd ((T - 1) * hunit) 1) * unit) unit := (rnd_exact _ _ unit_pos (Nat.le_of_lt r1)).symm
    rw [e, r2]
    refine rnd_mono unit_pos unit_pos (Nat.mul_le_mul_right unit ?_)
    rw [← Nat.mul_assoc]
    exact Nat.mul_le_mul_right unit b1
  · have hle : rnd (P * (T * unit)) unit ≤ k := by
      rw [← rnd_exact k unit unit_pos hki]
      refine rnd_mono unit_pos unit_pos (Nat.mul_le_mul_right unit ?_)
      rw [← Nat.mul_assoc]
      exact Nat.mul_le_mul_right unit b2
    exact Nat.lt_of_le_of_lt (magVal_le hle) b3

/-- as long as the different values are not more than the bins, `Quantile(p)` is one of the values: the first of which half the occurrences, with
all smaller values, are more than `p` times the number of values (or the greatest) -/
theorem C62_exact (n : Nat) (vs : List (UInt64 × Nat)) (h0 h : Sketch UInt64) (en : new ieee n = some h0) (e : addAll ieee h0 vs = some h) (hne : vs ≠ [])
    (hp : ∀ p ∈ vs, 1 ≤ p.2) (hfin : ∀ p ∈ vs, Ieee.Finite p.1) (hB : total vs ≤ 2 ^ 51) (ks : List Int) (hks : ks.length ≤ n) (hk : ∀ p ∈ vs, val p.1 ∈ ks)
    (p : UInt64) (hpo : f64NaN p = false) (hp0 : Ieee.lt p (Ieee.ofInt 0) = false) (hp1 : Ieee.lt (Ieee.ofInt 1) p = false) :
    ∃ q, quantile ieee h p = some q ∧ ∃ v ∈ vs, val q = val v.1 ∧
      (∀ u ∈ vs, val u.1 < val v.1 → val (half (2 * below val vs (val u.1) + mult val vs (val u.1))) ≤ val (Ieee.mul p (Ieee.ofInt (total vs)))) ∧
      (val (Ieee.mul p (Ieee.ofInt (total vs))) < val (half (2 * below val vs (val v.1) + mult val vs (val v.1))) ∨ ∀ u ∈ vs, val u.1 ≤ val v.1) := by
  have L := ieee_laws.mono (C := 2 ^ 51) (by decide)
  have hp0' : ieee.lt p (ieee.ofInt 0) = false := by rw [ieee_lt, ieee_ofInt]; exact hp0
  have hp1' : ieee.lt (ieee.ofInt 1) p = false := by rw [ieee_lt, ieee_ofInt]; exact hp1
  have := quantile_exact L ieee_halves ieee_ends n vs h0 h en e hne hp hfin hB ks hks hk p hpo hp0' hp1'
  simp only [ieee_mul, ieee_ofInt] at this
  exact this

attribute [local irreducible] Ieee.mul half val in
/-- the median of at most 2^22 values of which each has its own bin: the first for which all smaller values and half its own occurrences are at
least half of the values -/
theorem C62_median (n : Nat) (vs : List (UInt64 × Nat)) (h0 h : Sketch UInt64) (en : new ieee n = some h0) (e : addAll ieee h0 vs = some h) (hne : vs ≠ [])
    (hp : ∀ p ∈ vs, 1 ≤ p.2) (hfin : ∀ p ∈ vs, Ieee.Finite p.1) (hB : total vs ≤ 2 ^ 22) (ks : List Int) (hks : ks.length ≤ n) (hk : ∀ p ∈ vs, val p.1 ∈ ks) :
    ∃ q, median h = some q ∧ ∃ v ∈ vs, val q = val v.1 ∧
      (∀ u ∈ vs, val u.1 < val v.1 → 2 * below val vs (val u.1) + mult val vs (val u.1) < total vs) ∧
      (total vs ≤ 2 * below val vs (val v.1) + mult val vs (val v.1) ∨ ∀ u ∈ vs, val u.1 ≤ val v.1) := by
  have hhalf : f64NaN nearHalf = false := by decide
  have hz : Ieee.lt nearHalf (Ieee.ofInt 0) = false := by decide +kernel
  have ho : Ieee.lt (Ieee.ofInt 1) nearHalf = false := by decide +kernel
  have h1 : 1 ≤ total vs := by
    obtain ⟨q, hq⟩ := List.exists_mem_of_ne_nil vs hne
    have : q.2 ≤ total vs := List.le_sum_of_mem (List.mem_map_of_mem hq)
    have := hp q hq
    omega
  obtain ⟨q, hq, v, hv, e1, e2, e3⟩ := C62_exact n vs h0 h en e hne hp hfin (by omega) ks hks hk nearHalf hhalf hz ho
  obtain ⟨b1, b2⟩ := nearHalf_mul h1 hB
  have hle : ∀ k, below val vs k + mult val vs k ≤ total vs := by
    intro k
    clear e2 e3 hk hks hB hfin hp hne e en e1 hv hq b1 b2 h1
    unfold below mult
    induction vs with
    | nil => simp [total]
    | cons a vs ih =>
      have ht : ∀ (a : UInt64 × Nat) (l : List (UInt64 × Nat)), total (a :: l) = a.2 + total l := fun a l => by simp [total]
      rw [List.filter_cons, List.filter_cons, ht]
      by_cases h1 : val a.1 < k
      · have h2 : ¬ val a.1 = k := by omega
        simp only [h1, h2, decide_true, decide_false, if_true, Bool.false_eq_true, if_false, ht]; omega
      · by_cases h2 : val a.1 = k
        · simp only [h2, decide_true, if_true, ht]
          have : ¬ k < k := by omega
          simp only [this, decide_false, Bool.false_eq_true, if_false]; omega
        · simp only [h1, h2, decide_false, Bool.false_eq_true, if_false]; omega
  have cmp : ∀ a b : Nat, a ≤ 2 ^ 53 → b ≤ 2 ^ 53 → (val (half a) ≤ val (half b) ↔ a ≤ b) := by
    intro a b ha hb
    rw [val_half ha, val_half hb, Int.ofNat_le]
    exact Nat.mul_le_mul_right_iff half_pos
  refine ⟨q, hq, v, hv, e1, fun u hu huv => ?_, ?_⟩
  · have h2 := hle (val u.1)
    have h3 := e2 u hu huv
    refine Nat.lt_of_not_le fun hc => ?_
    have h4 := (cmp (total vs) (2 * below val vs (val u.1) + mult val vs (val u.1)) (by clear h3 b1 b2 e3; omega) (by clear h3 b1 b2 e3; omega)).mpr hc
    exact absurd (Int.lt_of_lt_of_le b2 (Int.le_trans h4 h3)) (Int.lt_irrefl _)
  · rcases e3 with e3 | e3
    · left
      have h2 := hle (val v.1)
      refine Nat.le_of_not_lt fun hc => ?_
      have h4 := (cmp (2 * below val vs (val v.1) + mult val vs (val v.1)) (total vs - 1) (by clear e3 b1 b2; omega) (by clear e3 b1 b2; omega)).mpr (by clear e3 b1 b2; omega)
      exact absurd (Int.lt_of_lt_of_le e3 (Int.le_trans h4 b1)) (Int.lt_irrefl _)
    · exact Or.inr e3

/-- but for rounding, `Quantile` lies between the extrema, merged or not -/
theorem C62_within {M : ℝ} (hM : 0 ≤ M) (n : Nat) (vs : List (ℝ × Nat)) (h0 h : Sketch ℝ) (en : new (exact M) n = some h0) (e : addAll (exact M) h0 vs = some h)
    (hne : vs ≠ []) (hp : ∀ p ∈ vs, 1 ≤ p.2) (hf : ∀ p ∈ vs, -M ≤ p.1 ∧ p.1 ≤ M) (p : ℝ) (hp0 : 0 ≤ p) (hp1 : p ≤ 1) :
    ∃ q, quantile (exact M) h p = some q ∧ h.min ≤ q ∧ q ≤ h.max := quantile_within hM n vs h0 h en e hne hp hf p hp0 hp1

/-! ### C63: `AddMany` -/

/-- but for rounding, `AddMany` is `Add` so many times, also when bins are merged -/
theorem C63_add_many {M : ℝ} (hM : 0 ≤ M) (n : Nat) (vs : List (ℝ × Nat)) (h0 h : Sketch ℝ) (en : new (exact M) n = some h0) (e : addAll (exact M) h0 vs = some h)
    (hp : ∀ p ∈ vs, 1 ≤ p.2) (v : ℝ) (k : Nat) (hk : 1 ≤ k) :
    (List.replicate k v).foldlM (add (exact M)) h = addMany (exact M) h v k := by
  rw [← addAll_replicate hM n vs h0 h en e hp v k hk]
  clear hk e
  induction k generalizing h with
  | zero => rfl
  | succ k ih =>
    simp only [List.replicate_succ, List.foldlM_cons, addAll, add]
    have e1 : ((1 : Nat) : Int) = 1 := rfl
    rw [e1]
    cases addMany (exact M) h v 1 with
    | none => rfl
    | some h1 => exact ih h1

/-! ### What does not hold, and examples -/

/-- the integer as a float64 -/
private abbrev F (i : Int) : UInt64 := Ieee.ofInt i

/-- a sketch with the values inserted -/
private def of (n : Nat) (vs : List (UInt64 × Nat)) : Option (Sketch UInt64) := (new ieee n).bind fun h => addAll ieee h vs

/-- rounding takes bins out of the range of the values: five times 0.1 and the float64 after it make a bin below 0.1 -/
theorem C30_not_within : ∃ h c, of 1 [(0x3FB999999999999A, 5), (0x3FB999999999999B, 1)] = some h ∧ h.cs = [c] ∧ Ieee.lt c.p h.min = true := by
  refine ⟨{ cs := [⟨0x3FB9999999999999, F (-6)⟩], cap := 2, count := F 6, min := 0x3FB999999999999A, max := 0x3FB999999999999B }, ⟨0x3FB9999999999999, F (-6)⟩, ?_, rfl, ?_⟩ <;> decide +kernel

/-- twice 1.7e308 and once 1e308 make a bin at infinity -/
theorem C30_overflow : ∃ h c, of 1 [(0x7FEE42D130773B76, 2), (0x7FE1CCF385EBC8A0, 1)] = some h ∧ h.cs = [c] ∧ Ieee.isInf c.p = true := by
  refine ⟨{ cs := [⟨0x7FF0000000000000, F (-3)⟩], cap := 2, count := F 3, min := 0x7FE1CCF385EBC8A0, max := 0x7FEE42D130773B76 }, ⟨0x7FF0000000000000, F (-3)⟩, ?_, rfl, ?_⟩ <;> decide +kernel

/-- after a NaN the bins are no longer sorted -/
theorem C30_nan : (of 3 [(F 1, 1), (Ieee.nan, 1), (F 0, 1)]).map (fun h => h.cs.map (·.p)) = some [F 1, Ieee.nan, F 0] := by decide +kernel

/-- at 2^53 the counter stops -/
theorem C30_saturated : (of 3 [(F 1, 2 ^ 53), (F 1, 1)]).map (fun h => h.count) = some (F (2 ^ 53)) := by decide +kernel

/-- `Merge` does not take over the extrema: of 0 and 10 only the bin at 5 is known -/
theorem C30_merge_extrema : ((of 1 [(F 0, 1), (F 10, 1)]).bind fun x => (of 1 []).bind fun h => merge ieee h x).map (fun h => (h.cs, h.min, h.max)) =
    some ([⟨F 5, F 2⟩], F 5, F 5) := by decide +kernel

/-- a loaded sketch has lost count: `Quantile` takes it for empty -/
theorem C31_lost : ((of 1 [(F 1, 1), (F 2, 1)]).bind fun h => load ieee (save h)).map (fun h => (h.count, quantile ieee h 0x3FE0000000000000)) =
    some (F (-2), none) := by decide +kernel

/-- insertion into a loaded empty sketch panics -/
theorem C31_empty (n : Nat) (h0 : Sketch UInt64) (en : new ieee n = some h0) (v : UInt64) :
    ∃ h', load ieee (save h0) = some h' ∧ addMany ieee h' v 1 = none := by
  refine ⟨_, C31_load ieee h0, ?_⟩
  unfold new at en
  split at en
  · cases en
  · cases en
    rfl

/-- `Sum` can fall: with ten zeros and a bin of 10 and 11 there are ten values up to 0, but fewer than six up to 1 -/
theorem C61_not_monotone : ∃ h s t, of 2 [(F 0, 10), (F 10, 1), (F 11, 1)] = some h ∧ sum ieee h (F 0) = some s ∧ sum ieee h (F 1) = some t ∧
    s = F 10 ∧ Ieee.lt t (F 6) = true := by
  refine ⟨{ cs := [⟨F 0, F 10⟩, ⟨0x4025000000000000, F (-2)⟩], cap := 3, count := F 12, min := F 0, max := F 11 }, F 10,
    ((sum ieee { cs := [⟨F 0, F 10⟩, ⟨0x4025000000000000, F (-2)⟩], cap := 3, count := F 12, min := F 0, max := F 11 } (F 1)).getD 0), ?_, ?_, ?_, ?_, ?_⟩ <;> decide +kernel

/-- `Quantile` is not what its documentation says: the median of three ones and a two is 2 -/
theorem C62_median_wrong : (of 32 [(F 1, 3), (F 2, 1)]).bind median = some (F 2) := by decide +kernel

/-- rounding makes a difference: after a zero, 0.9 three times -/
theorem C63_rounding : ∃ h, of 1 [(F 0, 1)] = some h ∧ (List.replicate 3 0x3FECCCCCCCCCCCCD).foldlM (add ieee) h ≠ addMany ieee h 0x3FECCCCCCCCCCCCD 3 := by
  refine ⟨{ cs := [⟨F 0, F 1⟩], cap := 2, count := F 1, min := F 0, max := F 0 }, ?_, ?_⟩ <;> decide +kernel

-- three bins for four values
example : (of 3 [(F 5, 1), (F 1, 2), (F 9, 1), (F 2, 1)]).map (fun h => (h.cs, h.count, h.min, h.max)) =
    some ([⟨0x3FF5555555555555, F (-3)⟩, ⟨F 5, F 1⟩, ⟨F 9, F 1⟩], F 5, F 1, F 9) := by decide +kernel
example : (of 3 [(F 5, 1), (F 1, 2), (F 9, 1), (F 5, 2)]).map (fun h => (h.cs, h.count)) = some ([⟨F 1, F 2⟩, ⟨F 5, F 3⟩, ⟨F 9, F 1⟩], F 6) := by decide +kernel
example : (of 3 [(F 5, 1), (F 1, 2), (F 9, 1), (F 5, 2)]).bind (fun h => sum ieee h (F 8)) = some (F 5) := by decide +kernel
example : (of 3 [(F 5, 1), (F 1, 2), (F 9, 1), (F 5, 2)]).bind (fun h => quantile ieee h 0x3FE0000000000000) = some (F 5) := by decide +kernel
example : (of 3 [(F 5, 1), (F 1, 2), (F 9, 1), (F 5, 2)]).bind (fun h => load ieee (save h)) = of 3 [(F 5, 1), (F 1, 2), (F 9, 1), (F 5, 2)] := by decide +kernel
example : (of 3 [(F 5, 1), (F 1, 2)]).bind (fun h => load ieee (save h)) =
    some { cs := [⟨F 1, F 2⟩, ⟨F 5, F 1⟩], cap := 3, count := F 3, min := F 1, max := F 5 } := by decide +kernel
example : (of 0 []).isNone = true := by decide +kernel

end Verif.Sketch
