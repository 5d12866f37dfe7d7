import Verif.Lemmas.Sketch
set_option autoImplicit false
set_option linter.unusedSimpArgs false
namespace Verif.Sketch

/-! ### Estimates in exact arithmetic -/

section
variable {M : ℝ}

theorem estimate_bounds {mi mj f : ℝ} (hi : 0 ≤ mi) (hj : 0 ≤ mj) (h0 : 0 ≤ f) (h1 : f ≤ 1) :
    0 ≤ (mi + (mi + (mj - mi) * f)) * f / 2 ∧ mi / 2 + (mi + (mi + (mj - mi) * f)) * f / 2 ≤ mi + mj / 2 := by
  have e : (mi + (mi + (mj - mi) * f)) * f / 2 = mi * (f * (2 - f)) / 2 + mj * (f * f) / 2 := by ring
  have h2 : 0 ≤ f * (2 - f) := mul_nonneg h0 (by linarith)
  have h3 : f * (2 - f) ≤ 1 := by nlinarith [sq_nonneg (1 - f)]
  have h4 : 0 ≤ f * f := mul_nonneg h0 h0
  have h5 : f * f ≤ 1 := by nlinarith
  rw [e]
  constructor
  · have := mul_nonneg hi h2
    have := mul_nonneg hj h4
    linarith
  · have := mul_le_mul_of_nonneg_left h3 hi
    have := mul_le_mul_of_nonneg_left h5 hj
    linarith

/-- the centroids around an index, with the extremes at the ends -/
theorem getCentroids_split {α : Type} (N : Num α) (h : Sketch α) (a b : List (Centroid α)) (e : h.cs = a ++ b) (hne : h.cs ≠ []) :
    ∃ ci cj, getCentroids N h a.length = some (ci, cj) ∧
      ((a = [] ∧ ci = { p := h.min, m := N.ofInt 0 }) ∨ ∃ a', a = a' ++ [ci]) ∧
      ((b = [] ∧ cj = { p := h.max, m := N.ofInt 0 }) ∨ ∃ b', b = cj :: b') ∧ (a ≠ [] ∨ b ≠ []) := by
  unfold getCentroids
  cases a with
  | nil =>
    cases b with
    | nil => exact absurd e hne
    | cons x xs => exact ⟨_, x, by simp [e], Or.inl ⟨rfl, rfl⟩, Or.inr ⟨xs, rfl⟩, Or.inr (by simp)⟩
  | cons y ys =>
    obtain ⟨a', ci, ha⟩ : ∃ a' ci, y :: ys = a' ++ [ci] := ⟨(y :: ys).dropLast, (y :: ys).getLast (by simp), (List.dropLast_append_getLast (by simp)).symm⟩
    rw [if_neg (by simp)]
    cases b with
    | nil =>
      refine ⟨ci, _, ?_, Or.inr ⟨a', ha⟩, Or.inl ⟨rfl, rfl⟩, Or.inl (by simp)⟩
      rw [if_pos (by rw [e]; simp), e, ha]
      simp
    | cons x xs =>
      refine ⟨ci, x, ?_, Or.inr ⟨a', ha⟩, Or.inr ⟨xs, rfl⟩, Or.inl (by simp)⟩
      rw [if_neg (by rw [e]; simp), e, ha]
      simp

/-- the weight of the centroids found, none for the extremes -/
theorem real_weight {B : Nat} (hM : 0 ≤ M) {c : Centroid ℝ} (h : ∃ w, IsW (exact M) c.m w ∧ w ≤ B) :
    1 ≤ size (exact M) c ∧ (exact M).abs c.m = (size (exact M) c : ℝ) ∧ (c.m = size (exact M) c ∨ c.m = -size (exact M) c) := by
  obtain ⟨w, hw, hb⟩ := h
  have L := exact_laws M hM B
  rw [size_eq L hw hb]
  refine ⟨by have := hw.1; omega, by rw [hw.abs L hb]; rfl, ?_⟩
  rcases hw.2 with h | h
  · left; rw [h]; simp [exact]
  · right; rw [h]; simp [exact]

theorem foldl_sizes {B : Nat} (hM : 0 ≤ M) (cs : List (Centroid ℝ)) (s : ℝ) (h : ∀ c ∈ cs, ∃ w, IsW (exact M) c.m w ∧ w ≤ B) :
    cs.foldl (fun s c => (exact M).add s ((exact M).abs c.m)) s = s + ((cs.map (size (exact M))).sum : ℤ) := by
  induction cs generalizing s with
  | nil => simp
  | cons c cs ih =>
    rw [List.foldl_cons, ih _ fun d hd => h d (by simp [hd]), (real_weight (B := B) hM (h c (by simp))).2.1]
    simp only [List.map_cons, List.sum_cons]
    simp only [exact]
    push_cast
    ring

theorem sum_bounds (hM : 0 ≤ M) (n : Nat) (vs : List (ℝ × Nat)) (h0 h : Sketch ℝ) (en : new (exact M) n = some h0) (e : addAll (exact M) h0 vs = some h)
    (hp : ∀ p ∈ vs, 1 ≤ p.2) (p : ℝ) : ∃ s, sum (exact M) h p = some s ∧ 0 ≤ s ∧ s ≤ total vs := by
  have ho := ordered_all hM n vs h0 h en e hp
  have L := exact_laws M hM (total vs)
  have hm := mass_all L n vs h0 h en e hp (Nat.le_refl _)
  unfold sum
  by_cases h1 : (exact M).le h.max p = true
  · rw [if_pos h1, hm.count]
    exact ⟨_, rfl, by simp [exact], by simp [exact]⟩
  · rw [if_neg h1]
    by_cases h2 : (exact M).lt p h.min = true
    · rw [if_pos h2]
      exact ⟨_, rfl, by simp [exact], by simp [exact]⟩
    · rw [if_neg h2]
      simp only [exact, decide_eq_true_eq, not_le, not_lt] at h1 h2
      obtain ⟨a, b, ecs, hlen, ha, hb⟩ := split_at L h.cs ho.sorted (fun _ _ => trivial) p trivial
      simp only [id] at ha hb
      have hne : h.cs ≠ [] := by
        intro hcs
        have hv : vs = [] := by
          have := hm.sum
          rw [hcs] at this
          cases vs with
          | nil => rfl
          | cons q vs =>
            have hq := hp q (by simp)
            unfold total at this
            simp only [List.map_nil, List.sum_nil, List.map_cons, List.sum_cons] at this
            omega
        subst hv
        simp only [addAll, Option.some.injEq] at e
        subst e
        unfold new at en
        split at en
        · cases en
        · cases en
          simp only [exact] at h1 h2
          linarith
      obtain ⟨ci, cj, hg, hi, hj, _⟩ := getCentroids_split (exact M) h a b ecs hne
      simp only [hlen, hg, Option.map_some]
      have hmass := hm.sum
      rw [ecs, List.map_append, List.sum_append] at hmass
      have hmemb : ∀ c ∈ b, ∃ w, IsW (exact M) c.m w ∧ w ≤ total vs := fun c hc => hm.each c (by rw [ecs]; simp [hc])
      have hmema : ∀ c ∈ a, ∃ w, IsW (exact M) c.m w ∧ w ≤ total vs := fun c hc => hm.each c (by rw [ecs]; simp [hc])
      -- weights of the two centroids and what is before and after them
      obtain ⟨wi, S, hwi, hS, hwS, hwa, hip⟩ : ∃ wi S : Int, 0 ≤ wi ∧ 0 ≤ S ∧ (a.map (size (exact M))).sum = S + wi ∧
          ((exact M).abs ci.m = wi ∧ (h.cs.take (a.length - 1)).foldl (fun s c => (exact M).add s ((exact M).abs c.m)) ((exact M).ofInt 0) = S ∧ (0 < ci.m → ci.m = wi)) ∧ ci.p ≤ p := by
        rcases hi with ⟨rfl, rfl⟩ | ⟨a', rfl⟩
        · refine ⟨0, 0, le_refl _, le_refl _, by simp, ⟨by simp [exact], by simp [exact], by simp [exact]⟩, h2⟩
        · obtain ⟨r1, r2, r3⟩ := real_weight hM (hmema ci (by simp))
          have r4 := sizes_nonneg L (cs := a') fun d hd => hmema d (by simp [hd])
          refine ⟨size (exact M) ci, (a'.map (size (exact M))).sum, by omega, r4, by simp, ⟨r2, ?_, ?_⟩, ha ci (by simp)⟩
          · have : h.cs.take ((a' ++ [ci]).length - 1) = a' := by rw [ecs]; simp
            rw [this, foldl_sizes hM a' _ fun d hd => hmema d (by simp [hd])]
            simp [exact]
          · intro hpos
            rcases r3 with r3 | r3
            · exact r3
            · have : (1 : ℝ) ≤ size (exact M) ci := by exact_mod_cast r1
              rw [r3] at hpos; linarith
      obtain ⟨wj, R, hwj, hR, hwR, haj, hjp⟩ : ∃ wj R : Int, 0 ≤ wj ∧ 0 ≤ R ∧ (b.map (size (exact M))).sum = R + wj ∧ (exact M).abs cj.m = wj ∧ p < cj.p := by
        rcases hj with ⟨rfl, rfl⟩ | ⟨b', rfl⟩
        · exact ⟨0, 0, le_refl _, le_refl _, by simp, by simp [exact], h1⟩
        · obtain ⟨r1, r2, r3⟩ := real_weight hM (hmemb cj (by simp))
          have r4 := sizes_nonneg L (cs := b') fun d hd => hmemb d (by simp [hd])
          exact ⟨size (exact M) cj, (b'.map (size (exact M))).sum, by omega, r4, by simp; omega, r2, hb cj (by simp)⟩
      obtain ⟨q1, q2, q3⟩ := hwa
      rw [q2, q1, haj]
      have hT : ((S : ℝ) + wi + (R + wj)) = total vs := by
        have : S + wi + (R + wj) = total vs := by omega
        exact_mod_cast this
      have c1 : (0 : ℝ) ≤ wi := by exact_mod_cast hwi
      have c2 : (0 : ℝ) ≤ S := by exact_mod_cast hS
      have c3 : (0 : ℝ) ≤ wj := by exact_mod_cast hwj
      have c4 : (0 : ℝ) ≤ R := by exact_mod_cast hR
      refine ⟨_, rfl, ?_⟩
      split
      · rename_i hb
        simp only [exact, Bool.and_eq_true, decide_eq_true_eq, Int.cast_zero] at hb
        rw [q3 hb.1]
        simp only [exact]
        constructor <;> linarith
      · simp only [exact]
        have hpos : 0 < cj.p - ci.p := by linarith
        have hf0 : 0 ≤ (p - ci.p) / (cj.p - ci.p) := div_nonneg (by linarith) (by linarith)
        have hf1 : (p - ci.p) / (cj.p - ci.p) ≤ 1 := by rw [div_le_one hpos]; linarith
        obtain ⟨b1, b2⟩ := estimate_bounds c1 c3 hf0 hf1
        have e1 : ((wi : ℝ) + (wi + (wj - wi) * (p - ci.p) / (cj.p - ci.p))) * (p - ci.p) / ((2 : ℤ) : ℝ) / (cj.p - ci.p)
            = (wi + (wi + (wj - wi) * ((p - ci.p) / (cj.p - ci.p)))) * ((p - ci.p) / (cj.p - ci.p)) / 2 := by
          push_cast
          field_simp
        rw [e1]
        push_cast
        generalize (wi + (wi + (wj - wi) * ((p - ci.p) / (cj.p - ci.p)))) * ((p - ci.p) / (cj.p - ci.p)) / 2 = z at *
        constructor <;> linarith
end

/-! ### Quantiles -/

section
variable {α : Type} {N : Num α} {Ok Fin : α → Prop} {κ : Type} [LinearOrder κ] {key : α → κ} {B : Nat} {hf : Nat → α}

/-- halves of whole numbers are exact, up to the bound -/
structure Halves {α : Type} (N : Num α) (Ok : α → Prop) {κ : Type} [LinearOrder κ] (key : α → κ) (B : Nat) (hf : Nat → α) : Prop where
  zero : N.ofInt 0 = hf 0
  div : ∀ {a : Nat}, a ≤ B → N.div (N.ofInt a) (N.ofInt 2) = hf a
  add : ∀ {a b : Nat}, a + b ≤ 2 * B → N.add (hf a) (hf b) = hf (a + b)
  ok : ∀ {a : Nat}, a ≤ 2 * B → Ok (hf a)
  mono : ∀ {a b : Nat}, a < b → b ≤ 2 * B → key (hf a) < key (hf b)

theorem walk_spec (L : Laws N Ok Fin key B) (H : Halves N Ok key B hf) (w : Centroid α → Nat) (t : α) (ht : Ok t) (cs : List (Centroid α)) (i S P : Nat)
    (hm : ∀ c ∈ cs, N.abs c.m = N.ofInt (w c)) (hw : (cs.map w).sum ≤ B) (hB : S + P + 2 * (cs.map w).sum ≤ 2 * B) :
    ∃ a b S', cs = a ++ b ∧ walk N t i (hf S) (hf P) cs = (i + a.length, hf S') ∧
      ((a = [] ∧ S' = S) ∨ ∃ a' c, a = a' ++ [c] ∧ S' = S + P + 2 * (a'.map w).sum + w c) ∧
      (∀ c b', b = c :: b' → key t < key (hf (S + P + 2 * (a.map w).sum + w c))) ∧
      (∀ a1 c a2, a = a1 ++ c :: a2 → key (hf (S + P + 2 * (a1.map w).sum + w c)) ≤ key t) := by
  induction cs generalizing i S P with
  | nil => exact ⟨[], [], S, rfl, rfl, Or.inl ⟨rfl, rfl⟩, by simp, by simp⟩
  | cons c cs ih =>
    simp only [List.map_cons, List.sum_cons] at hB hw
    simp only [walk]
    rw [hm c (by simp), H.div (by omega), H.add (by omega), H.add (by omega)]
    by_cases hlt : N.lt t (hf (S + w c + P)) = true
    · rw [if_pos hlt]
      rw [L.lt ht (H.ok (by omega))] at hlt
      refine ⟨[], c :: cs, S, rfl, rfl, Or.inl ⟨rfl, rfl⟩, ?_, by simp⟩
      intro d b' e
      simp only [List.cons.injEq] at e
      rw [← e.1]
      have : S + P + 2 * (([] : List (Centroid α)).map w).sum + w c = S + w c + P := by simp; omega
      rw [this]; exact hlt
    · rw [if_neg hlt]
      rw [L.lt ht (H.ok (by omega)), not_lt] at hlt
      rw [H.add (by omega), H.add (by omega)]
      obtain ⟨a, b, S', e1, e2, e3, e4, e5⟩ := ih (i + 1) (S + (w c + P)) (w c) (fun d hd => hm d (by simp [hd])) (by omega) (by omega)
      refine ⟨c :: a, b, S', by rw [e1]; rfl, by rw [e2]; simp; omega, Or.inr ?_, ?_, ?_⟩
      · rcases e3 with ⟨rfl, e3⟩ | ⟨a', d, rfl, e3⟩
        · exact ⟨[], c, rfl, by rw [e3]; simp; omega⟩
        · exact ⟨c :: a', d, rfl, by rw [e3]; simp; omega⟩
      · intro d b' e
        have := e4 d b' e
        have he : S + P + 2 * ((c :: a).map w).sum + w d = S + (w c + P) + w c + 2 * (a.map w).sum + w d := by simp; omega
        rw [he]; exact this
      · intro a1 d a2 e
        cases a1 with
        | nil =>
          simp only [List.nil_append, List.cons.injEq] at e
          rw [← e.1]
          have he : S + P + 2 * (([] : List (Centroid α)).map w).sum + w c = S + w c + P := by simp; omega
          rw [he]; exact hlt
        | cons x a1 =>
          simp only [List.cons_append, List.cons.injEq] at e
          have := e5 a1 d a2 e.2
          have he : S + P + 2 * ((x :: a1).map w).sum + w d = S + (w c + P) + w c + 2 * (a1.map w).sum + w d := by
            rw [← e.1]; simp; omega
          rw [he]; exact this

/-- what is needed of the interpolation at the ends, where both points are the same -/
structure Ends {α : Type} (N : Num α) (Ok Fin : α → Prop) {κ : Type} [LinearOrder κ] (key : α → κ) (B : Nat) (hf : Nat → α) : Prop where
  /-- the target is between nothing and everything -/
  target : ∀ {p : α} {T : Nat}, T ≤ B → Ok p → N.lt p (N.ofInt 0) = false → N.lt (N.ofInt 1) p = false →
    Ok (N.mul p (N.ofInt T)) ∧ key (hf 0) ≤ key (N.mul p (N.ofInt T)) ∧ key (N.mul p (N.ofInt T)) ≤ key (hf (2 * T))
  one : ∀ {T : Nat}, 1 ≤ T → T ≤ B → N.lt (N.ofInt T) (N.ofInt 1) = false
  low : ∀ {t x y : α} {w : Nat}, 1 ≤ w → w ≤ B → Ok t → key (hf 0) ≤ key t → key t ≤ key (hf w) → Fin x → Fin y → key x = key y →
    key (interpolate N t (hf 0) { p := x, m := N.ofInt 0 } { p := y, m := N.ofInt w }) = key x
  high : ∀ {t x y : α} {w T : Nat}, 1 ≤ w → w ≤ T → T ≤ B → Ok t → key (hf (2 * T - w)) ≤ key t → key t ≤ key (hf (2 * T)) → Fin x → Fin y → key x = key y →
    key (interpolate N t (hf (2 * T - w)) { p := x, m := N.ofInt w } { p := y, m := N.ofInt 0 }) = key x

/-- the number of values below -/
def below {κ : Type} [LinearOrder κ] (key : α → κ) (vs : List (α × Nat)) (k : κ) : Nat := total (vs.filter fun p => key p.1 < k)

theorem below_sorted {h : Sketch α} {vs : List (α × Nat)} (hx : Exact N Fin key h vs) {a b : List (Centroid α)} {c : Centroid α} (e : h.cs = a ++ c :: b) :
    below key vs (key c.p) = (a.map fun c => mult key vs (key c.p)).sum := by
  have hs := hx.sorted
  rw [e] at hs
  obtain ⟨s1, s2, s3⟩ := List.pairwise_append.mp hs
  have := sum_mult (key := key) (a.map fun c => key c.p) (sorted_nodup s1) vs
  rw [List.map_map] at this
  have hcomp : (mult key vs ∘ fun c : Centroid α => key c.p) = fun c => mult key vs (key c.p) := rfl
  rw [hcomp] at this
  rw [this]
  unfold below
  congr 1
  apply List.filter_congr
  intro q hq
  rw [decide_eq_decide]
  constructor
  · intro hlt
    obtain ⟨d, hd, hdk⟩ := hx.all q hq
    rw [e] at hd
    rw [List.mem_map]
    rcases List.mem_append.mp hd with hd | hd
    · exact ⟨d, hd, hdk⟩
    · exfalso
      rcases List.mem_cons.mp hd with hd | hd
      · rw [← hdk, hd] at hlt; exact lt_irrefl _ hlt
      · have := (List.pairwise_cons.mp s2).1 d hd
        order
  · intro hm
    obtain ⟨d, hd, hdk⟩ := List.mem_map.mp hm
    rw [← hdk]; exact s3 d hd c (by simp)

theorem quantile_exact (L : Laws N Ok Fin key B) (H : Halves N Ok key B hf) (E : Ends N Ok Fin key B hf) (n : Nat) (vs : List (α × Nat)) (h0 h : Sketch α)
    (en : new N n = some h0) (e : addAll N h0 vs = some h) (hne : vs ≠ [])
    (hp : ∀ p ∈ vs, 1 ≤ p.2) (hfin : ∀ p ∈ vs, Fin p.1) (hB : total vs ≤ B) (ks : List κ) (hks : ks.length ≤ n) (hk : ∀ p ∈ vs, key p.1 ∈ ks)
    (p : α) (hpo : Ok p) (hp0 : N.lt p (N.ofInt 0) = false) (hp1 : N.lt (N.ofInt 1) p = false) :
    ∃ q, quantile N h p = some q ∧ ∃ v ∈ vs, key q = key v.1 ∧
      (∀ u ∈ vs, key u.1 < key v.1 → key (hf (2 * below key vs (key u.1) + mult key vs (key u.1))) ≤ key (N.mul p (N.ofInt (total vs)))) ∧
      (key (N.mul p (N.ofInt (total vs))) < key (hf (2 * below key vs (key v.1) + mult key vs (key v.1))) ∨ ∀ u ∈ vs, key u.1 ≤ key v.1) := by
  have hx := exact_all L n vs h0 h en e hp hfin hB ks hks hk
  have hmass := mass_all L n vs h0 h en e hp hB
  obtain ⟨⟨f1, f2⟩, hb, hext⟩ := extrema L n vs h0 h en e hfin
  obtain ⟨⟨qm, hqm, em⟩, qM, hqM, eM⟩ := hext hne
  have hT1 : 1 ≤ total vs := by
    obtain ⟨q, hq⟩ := List.exists_mem_of_ne_nil vs hne
    obtain ⟨x, y, rfl⟩ := List.append_of_mem hq
    have := hp q hq
    rw [total_append]
    simp only [total, List.map_cons, List.sum_cons]
    omega
  obtain ⟨t1, t2, t3⟩ := E.target hB hpo hp0 hp1
  have hle : ∀ k, mult key vs k ≤ B := fun k => Nat.le_trans (mult_le vs k) hB
  have hW : (h.cs.map fun c => mult key vs (key c.p)).sum = total vs := by
    have := sum_mult (key := key) (h.cs.map fun c => key c.p) (sorted_nodup hx.sorted) vs
    rw [List.map_map] at this
    have hcomp : (mult key vs ∘ fun c : Centroid α => key c.p) = fun c => mult key vs (key c.p) := rfl
    rw [hcomp] at this
    rw [this, List.filter_eq_self.mpr]
    intro q hq
    obtain ⟨c, hc, hck⟩ := hx.all q hq
    simp only [decide_eq_true_eq, List.mem_map]
    exact ⟨c, hc, hck⟩
  obtain ⟨a, b, S', ecs, ew, eS, eb, ea⟩ := walk_spec L H (fun c => mult key vs (key c.p)) (N.mul p (N.ofInt (total vs))) t1 h.cs 0 0 0
    (fun c hc => by rw [(hx.each c hc).2.2.1, L.abs (hle _)]) (by omega) (by omega)
  have hcs : h.cs ≠ [] := by
    intro hcs
    obtain ⟨c, hc, _⟩ := hx.all qm hqm
    rw [hcs] at hc; cases hc
  obtain ⟨ci, cj, hg, hi, hj, hij⟩ := getCentroids_split N h a b ecs hcs
  have hsorted := hx.sorted
  rw [ecs] at hsorted
  obtain ⟨so1, so2, so3⟩ := List.pairwise_append.mp hsorted
  unfold quantile
  rw [hp0, hp1, hmass.count, E.one hT1 hB]
  simp only [Bool.or_self, Bool.false_eq_true, if_false]
  rw [← H.zero] at ew
  rw [ew]
  simp only [Nat.zero_add, hg, Option.map_some]
  -- the values before the place are all tried
  have hbefore : ∀ a1 c a2, a = a1 ++ c :: a2 → key (hf (2 * below key vs (key c.p) + mult key vs (key c.p))) ≤ key (N.mul p (N.ofInt (total vs))) := by
    intro a1 c a2 ea1
    have := ea a1 c a2 ea1
    rw [below_sorted hx (a := a1) (b := a2 ++ b) (c := c) (by rw [ecs, ea1]; simp)]
    simpa using this
  have hbelow : ∀ (cj : Centroid α) b', b = cj :: b' → ∀ u ∈ vs, key u.1 < key cj.p → key (hf (2 * below key vs (key u.1) + mult key vs (key u.1))) ≤ key (N.mul p (N.ofInt (total vs))) := by
    intro cj b' eb' u hu hlt
    obtain ⟨c, hc, hck⟩ := hx.all u hu
    rw [ecs] at hc
    rcases List.mem_append.mp hc with hc | hc
    · obtain ⟨a1, a2, ea1⟩ := List.append_of_mem hc
      rw [← hck]; exact hbefore a1 c a2 ea1
    · exfalso
      rw [eb'] at hc so2
      rcases List.mem_cons.mp hc with hc | hc
      · rw [hc] at hck; order
      · have := (List.pairwise_cons.mp so2).1 c hc
        order
  have hstop : ∀ (cj : Centroid α) b', b = cj :: b' → key (N.mul p (N.ofInt (total vs))) < key (hf (2 * below key vs (key cj.p) + mult key vs (key cj.p))) := by
    intro cj b' eb'
    have := eb cj b' eb'
    rw [below_sorted hx (a := a) (b := b') (c := cj) (by rw [ecs, eb'])]
    simpa using this
  rcases hj with ⟨rfl, rfl⟩ | ⟨b', rfl⟩
  · -- the end
    obtain ⟨a', rfl⟩ : ∃ a', a = a' ++ [ci] := by
      rcases hi with ⟨rfl, _⟩ | hi
      · simp at hij
      · exact hi
    have hz : N.lt (N.ofInt 0) (N.ofInt 0) = false := by
      have := L.pos (a := 0) (Nat.zero_le _)
      rw [Bool.eq_false_iff]
      intro hh
      have := this.mp (by simpa using hh)
      omega
    simp only [hz, Bool.and_false, Bool.false_eq_true, if_false]
    have hci := hx.each ci (by rw [ecs]; simp)
    have hlast : ∀ u ∈ vs, key u.1 ≤ key ci.p := by
      intro u hu
      obtain ⟨c, hc, hck⟩ := hx.all u hu
      rw [ecs, List.append_nil] at hc
      rcases List.mem_append.mp hc with hc | hc
      · have := (List.pairwise_append.mp so1).2.2 c hc ci (by simp)
        rw [← hck]; exact le_of_lt this
      · simp at hc; rw [← hck, hc]
    obtain ⟨v, hv, hvp⟩ := hci.2.2.2
    have hmax : key ci.p = key h.max := by
      apply le_antisymm
      · rw [← hvp]; exact (hb v hv).2
      · rw [eM]; exact hlast qM hqM
    have hS' : S' = 2 * total vs - mult key vs (key ci.p) := by
      rcases eS with ⟨eS, _⟩ | ⟨a2, c, eS, hS'⟩
      · simp at eS
      · obtain ⟨rfl, ec⟩ := List.append_inj' eS rfl
        simp at ec
        subst ec
        rw [ecs] at hW
        simp at hW
        rw [hS']
        simp
        omega
    have hci' : ci = { p := ci.p, m := N.ofInt (mult key vs (key ci.p)) } := by rw [← hci.2.2.1]
    have hlow := hbefore a' ci [] rfl
    rw [below_sorted hx (a := a') (b := []) (c := ci) (by rw [ecs]; simp)] at hlow
    rw [ecs] at hW
    simp only [List.append_nil, List.map_append, List.map_cons, List.map_nil, List.sum_append, List.sum_cons, List.sum_nil, Nat.add_zero] at hW
    have hE := E.high (t := N.mul p (N.ofInt (total vs))) (x := ci.p) (y := h.max) (w := mult key vs (key ci.p)) (T := total vs) hci.2.1 (mult_le _ _) hB t1
      (by
        have : 2 * total vs - mult key vs (key ci.p) = 2 * (a'.map fun c => mult key vs (key c.p)).sum + mult key vs (key ci.p) := by omega
        rw [this]; exact hlow) t3 hci.1 f2 hmax
    rw [← hci', ← hS'] at hE
    refine ⟨_, rfl, v, hv, by rw [hE, hvp], ?_, Or.inr (by rw [hvp]; exact hlast)⟩
    intro u hu hlt
    obtain ⟨c, hc, hck⟩ := hx.all u hu
    rw [ecs, List.append_nil] at hc
    obtain ⟨a1, a2, ea1⟩ := List.append_of_mem hc
    rw [← hck]; exact hbefore a1 c a2 ea1
  · have hcj := hx.each cj (by rw [ecs]; simp)
    have hpj : N.lt (N.ofInt 0) cj.m = true := by rw [hcj.2.2.1]; exact (L.pos (hle _)).mpr hcj.2.1
    obtain ⟨v, hv, hvp⟩ := hcj.2.2.2
    rcases hi with ⟨rfl, rfl⟩ | ⟨a', rfl⟩
    · -- the beginning
      have hz : N.lt (N.ofInt 0) (N.ofInt 0) = false := by
        have := L.pos (a := 0) (Nat.zero_le _)
        rw [Bool.eq_false_iff]
        intro hh
        have := this.mp (by simpa using hh)
        omega
      simp only [hz, Bool.false_and, Bool.false_eq_true, if_false]
      have hfirst : ∀ u ∈ vs, key cj.p ≤ key u.1 := by
        intro u hu
        obtain ⟨c, hc, hck⟩ := hx.all u hu
        rw [ecs, List.nil_append] at hc
        rcases List.mem_cons.mp hc with hc | hc
        · rw [← hck, hc]
        · have := (List.pairwise_cons.mp so2).1 c hc
          rw [← hck]; exact le_of_lt this
      have hmin : key h.min = key cj.p := by
        apply le_antisymm
        · rw [← hvp]; exact (hb v hv).1
        · rw [em]; exact hfirst qm hqm
      have hS' : S' = 0 := by
        rcases eS with ⟨_, eS⟩ | ⟨a2, c, eS, _⟩
        · exact eS
        · simp at eS
      have hcj' : cj = { p := cj.p, m := N.ofInt (mult key vs (key cj.p)) } := by rw [← hcj.2.2.1]
      have ht := eb cj b' rfl
      have hE := E.low (t := N.mul p (N.ofInt (total vs))) (x := h.min) (y := cj.p) (w := mult key vs (key cj.p)) hcj.2.1 (hle _) t1 t2
        (by simpa using le_of_lt ht) f1 hcj.1 hmin
      rw [← hcj', ← hS'] at hE
      refine ⟨_, rfl, v, hv, by rw [hE, hmin, hvp], ?_, Or.inl (by rw [hvp]; exact hstop cj b' rfl)⟩
      rw [hvp]; exact hbelow cj b' rfl
    · have hci := hx.each ci (by rw [ecs]; simp)
      have hpi : N.lt (N.ofInt 0) ci.m = true := by rw [hci.2.2.1]; exact (L.pos (hle _)).mpr hci.2.1
      simp only [hpi, hpj, Bool.and_self, if_true]
      exact ⟨_, rfl, v, hv, by rw [hvp], by rw [hvp]; exact hbelow cj b' rfl, Or.inl (by rw [hvp]; exact hstop cj b' rfl)⟩
end
end Verif.Sketch
