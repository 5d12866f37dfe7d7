import Verif.Lemmas.IeeeQuantile
set_option autoImplicit false
namespace Verif.Sketch

/-! ### Quantiles in exact arithmetic -/

theorem exact_halves (M : ℝ) (B : Nat) : Halves (exact M) (fun _ => True) id B (fun n => (n : ℝ) / 2) where
  zero := by simp [exact]
  div _ := by simp [exact]
  add {a b} _ := by simp [exact]; ring
  ok _ := trivial
  mono {a b} h _ := by
    simp only [id]
    have : (a : ℝ) < b := by exact_mod_cast h
    linarith

theorem exact_ends (M : ℝ) (B : Nat) : Ends (exact M) (fun _ => True) (fun x => -M ≤ x ∧ x ≤ M) id B (fun n => (n : ℝ) / 2) where
  target {p T} _ _ h0 h1 := by
    simp only [exact, decide_eq_false_iff_not, not_lt, Int.cast_zero, Int.cast_one, Int.cast_natCast, id] at h0 h1 ⊢
    have hT : (0 : ℝ) ≤ T := Nat.cast_nonneg T
    refine ⟨trivial, ?_, ?_⟩
    · simp; exact mul_nonneg h0 hT
    · push_cast
      nlinarith
  one {T} h1 _ := by
    simp only [exact, decide_eq_false_iff_not, not_lt, Int.cast_one, Int.cast_natCast]
    exact_mod_cast h1
  low {t x y w} _ _ _ _ _ _ _ h := by
    simp only [id] at h
    subst h
    unfold interpolate
    simp only [exact, id]
    split <;> simp
  high {t x y w T} _ _ _ _ _ _ _ _ h := by
    simp only [id] at h
    subst h
    unfold interpolate
    simp only [exact, id]
    split <;> simp

theorem interpolate_between {x y mi mj t s : ℝ} (M : ℝ) {wi wj : ℝ} (hi : (exact M).abs mi = wi) (hj : (exact M).abs mj = wj) (h0 : 0 ≤ wi) (hp : 0 < wi + wj)
    (hxy : x ≤ y) (hs : s ≤ t) (ht : t - s ≤ (wi + wj) / 2) :
    x ≤ interpolate (exact M) t s { p := x, m := mi } { p := y, m := mj } ∧ interpolate (exact M) t s { p := x, m := mi } { p := y, m := mj } ≤ y := by
  have key : ∀ z, 0 ≤ z → z ≤ 1 → x ≤ x + (y - x) * z ∧ x + (y - x) * z ≤ y := by
    intro z z0 z1
    have := mul_nonneg (sub_nonneg.mpr hxy) z0
    have := mul_le_mul_of_nonneg_left z1 (sub_nonneg.mpr hxy)
    constructor <;> linarith
  unfold interpolate
  simp only [hi, hj]
  simp only [exact, decide_eq_true_eq, Int.cast_zero, Int.cast_ofNat, Int.cast_neg]
  split
  · rename_i ha
    apply key
    · exact div_nonneg (by linarith) h0
    · rw [div_le_one (by linarith)]; linarith
  · rename_i ha
    apply key
    · rcases lt_or_gt_of_ne ha with ha' | ha'
      · apply div_nonneg_of_nonpos _ (by linarith)
        have : √(2 * wi * (2 * wi) - 4 * (wj - wi) * (-2 * (t - s))) ≤ 2 * wi := by
          apply Real.sqrt_le_iff.mpr
          refine ⟨by linarith, ?_⟩
          have := mul_nonneg (neg_nonneg.mpr (le_of_lt ha')) (sub_nonneg.mpr hs)
          nlinarith
        linarith
      · apply div_nonneg _ (by linarith)
        have : 2 * wi ≤ √(2 * wi * (2 * wi) - 4 * (wj - wi) * (-2 * (t - s))) := by
          apply Real.le_sqrt_of_sq_le
          have := mul_nonneg (le_of_lt ha') (sub_nonneg.mpr hs)
          nlinarith
        linarith
    · rcases lt_or_gt_of_ne ha with ha' | ha'
      · rw [div_le_one_of_neg (by linarith)]
        have : 2 * wj ≤ √(2 * wi * (2 * wi) - 4 * (wj - wi) * (-2 * (t - s))) := by
          apply Real.le_sqrt_of_sq_le
          have := mul_nonneg (neg_nonneg.mpr (le_of_lt ha')) (sub_nonneg.mpr ht)
          nlinarith
        linarith
      · rw [div_le_one (by linarith)]
        have : √(2 * wi * (2 * wi) - 4 * (wj - wi) * (-2 * (t - s))) ≤ 2 * wj := by
          apply Real.sqrt_le_iff.mpr
          refine ⟨by linarith, ?_⟩
          have := mul_nonneg (le_of_lt ha') (sub_nonneg.mpr ht)
          nlinarith
        linarith

theorem quantile_within {M : ℝ} (hM : 0 ≤ M) (n : Nat) (vs : List (ℝ × Nat)) (h0 h : Sketch ℝ) (en : new (exact M) n = some h0) (e : addAll (exact M) h0 vs = some h)
    (hne : vs ≠ []) (hp : ∀ p ∈ vs, 1 ≤ p.2) (hf : ∀ p ∈ vs, -M ≤ p.1 ∧ p.1 ≤ M) (p : ℝ) (hp0 : 0 ≤ p) (hp1 : p ≤ 1) :
    ∃ q, quantile (exact M) h p = some q ∧ h.min ≤ q ∧ q ≤ h.max := by
  have ho := ordered_all hM n vs h0 h en e hp
  have L := exact_laws M hM (total vs)
  have H := exact_halves M (total vs)
  have hm := mass_all L n vs h0 h en e hp (Nat.le_refl _)
  have hext := extrema L n vs h0 h en e hf
  have hmm : h.min ≤ h.max := by
    obtain ⟨q, hq⟩ := List.exists_mem_of_ne_nil vs hne
    have := hext.2.1 q hq
    simp only [id] at this
    linarith
  have hT1 : 1 ≤ total vs := by
    obtain ⟨q, hq⟩ := List.exists_mem_of_ne_nil vs hne
    obtain ⟨x, y, rfl⟩ := List.append_of_mem hq
    have := hp q hq
    rw [total_append]
    simp only [total, List.map_cons, List.sum_cons]
    omega
  have hT1' : (1 : ℝ) ≤ total vs := by exact_mod_cast hT1
  have hcs : h.cs ≠ [] := by
    intro hcs
    have := hm.sum
    rw [hcs] at this
    simp at this
    omega
  have hsize : ∀ c ∈ h.cs, size (exact M) c = ((size (exact M) c).toNat : Int) := by
    intro c hc
    have := (real_weight hM (hm.each c hc)).1
    omega
  have hsum : ∀ l : List (Centroid ℝ), (∀ c ∈ l, c ∈ h.cs) → (l.map (size (exact M))).sum = ((l.map fun c => (size (exact M) c).toNat).sum : Int) := by
    intro l hl
    induction l with
    | nil => rfl
    | cons c l ih =>
      have h1 := hsize c (hl c (by simp))
      have h2 := ih fun d hd => hl d (by simp [hd])
      simp only [List.map_cons, List.sum_cons]
      rw [Int.natCast_add]
      omega
  have hW : (h.cs.map fun c => (size (exact M) c).toNat).sum = total vs := by
    have h1 := hsum h.cs fun _ h => h
    rw [hm.sum] at h1
    exact_mod_cast h1.symm
  obtain ⟨a, b, S', ecs, ew, eS, eb, ea⟩ := walk_spec L H (fun c => (size (exact M) c).toNat) (p * total vs) trivial h.cs 0 0 0
    (fun c hc => by
      rw [(real_weight hM (hm.each c hc)).2.1, hsize c hc]
      rfl) (by omega) (by omega)
  obtain ⟨ci, cj, hg, hi, hj, hij⟩ := getCentroids_split (exact M) h a b ecs hcs
  unfold quantile
  have c1 : (exact M).lt p ((exact M).ofInt 0) = false := by simp [exact]; exact hp0
  have c2 : (exact M).lt ((exact M).ofInt 1) p = false := by simp [exact]; exact hp1
  have c3 : (exact M).lt ((exact M).ofInt (total vs)) ((exact M).ofInt 1) = false := by simp [exact]; omega
  have c4 : (exact M).mul p ((exact M).ofInt (total vs)) = p * total vs := by simp [exact]
  have c5 : (exact M).ofInt 0 = ((0 : Nat) : ℝ) / 2 := by simp [exact]
  rw [hm.count, c1, c2, c3, c4]
  simp only [Bool.or_self, Bool.false_eq_true, if_false]
  rw [c5, ew]
  simp only [Nat.zero_add, hg, Option.map_some]
  refine ⟨_, rfl, ?_⟩
  have hsorted := ho.sorted
  rw [ecs] at hsorted
  obtain ⟨so1, so2, so3⟩ := List.pairwise_append.mp hsorted
  have hci : h.min ≤ ci.p := by
    rcases hi with ⟨_, rfl⟩ | ⟨a', rfl⟩
    · exact le_refl _
    · exact (ho.within ci (by rw [ecs]; simp)).1
  have hcj : cj.p ≤ h.max := by
    rcases hj with ⟨_, rfl⟩ | ⟨b', rfl⟩
    · exact le_refl _
    · exact (ho.within cj (by rw [ecs]; simp)).2
  have hle : ci.p ≤ cj.p := by
    rcases hi with ⟨_, rfl⟩ | ⟨a', rfl⟩
    · rcases hj with ⟨_, rfl⟩ | ⟨b', rfl⟩
      · exact hmm
      · exact (ho.within cj (by rw [ecs]; simp)).1
    · rcases hj with ⟨_, rfl⟩ | ⟨b', rfl⟩
      · exact (ho.within ci (by rw [ecs]; simp)).2
      · exact le_of_lt (so3 ci (by simp) cj (by simp))
  split
  · exact ⟨by linarith, hcj⟩
  · -- weights
    obtain ⟨wi, hwi, hai, hSt⟩ : ∃ wi : Nat, (a = [] ∧ wi = 0 ∨ ∃ a', a = a' ++ [ci] ∧ wi = (size (exact M) ci).toNat ∧ 1 ≤ wi) ∧ (exact M).abs ci.m = wi ∧ ((S' : ℝ) / 2 ≤ p * total vs ∧ S' + wi = 2 * (a.map fun c => (size (exact M) c).toNat).sum) := by
      rcases hi with ⟨rfl, rfl⟩ | ⟨a', rfl⟩
      · refine ⟨0, Or.inl ⟨rfl, rfl⟩, by simp [exact], ?_⟩
        rcases eS with ⟨_, rfl⟩ | ⟨a', c, eS, _⟩
        · simp
          exact mul_nonneg hp0 (by linarith)
        · simp at eS
      · have hmem : ci ∈ h.cs := by rw [ecs]; simp
        have hw := real_weight hM (hm.each ci hmem)
        refine ⟨(size (exact M) ci).toNat, Or.inr ⟨a', rfl, rfl, by omega⟩, ?_, ?_⟩
        · rw [hw.2.1, hsize ci hmem]; rfl
        · rcases eS with ⟨eS, _⟩ | ⟨a2, c, eS, hS'⟩
          · simp at eS
          · obtain ⟨rfl, ec⟩ := List.append_inj' eS rfl
            simp only [List.cons.injEq, and_true] at ec
            subst ec
            have := ea a' ci [] rfl
            simp only [id] at this
            rw [hS']
            refine ⟨by simpa using this, ?_⟩
            simp
            omega
    obtain ⟨wj, hwj, haj, hSt'⟩ : ∃ wj : Nat, (b = [] ∧ wj = 0 ∨ 1 ≤ wj) ∧ (exact M).abs cj.m = wj ∧ p * total vs ≤ ((2 * (a.map fun c => (size (exact M) c).toNat).sum + wj : Nat) : ℝ) / 2 := by
      rcases hj with ⟨rfl, rfl⟩ | ⟨b', rfl⟩
      · refine ⟨0, Or.inl ⟨rfl, rfl⟩, by simp [exact], ?_⟩
        rw [ecs, List.append_nil] at hW
        rw [hW]
        push_cast
        nlinarith
      · have hmem : cj ∈ h.cs := by rw [ecs]; simp
        have hw := real_weight hM (hm.each cj hmem)
        refine ⟨(size (exact M) cj).toNat, Or.inr (by omega), ?_, ?_⟩
        · rw [hw.2.1, hsize cj hmem]; rfl
        · have := eb cj b' rfl
          simp only [id] at this
          have e0 : 0 + 0 + 2 * (a.map fun c => (size (exact M) c).toNat).sum + (size (exact M) cj).toNat = 2 * (a.map fun c => (size (exact M) c).toNat).sum + (size (exact M) cj).toNat := by omega
          rw [e0] at this
          exact le_of_lt this
    have hpos : (0 : ℝ) < wi + wj := by
      have : 0 < wi + wj := by
        rcases hwi with ⟨h1, _⟩ | ⟨_, _, _, h1⟩
        · rcases hwj with ⟨h2, _⟩ | h2
          · rcases hij with h3 | h3
            · exact absurd h1 h3
            · exact absurd h2 h3
          · omega
        · omega
      exact_mod_cast this
    have heq : (S' : ℝ) + wi = 2 * (a.map fun c => (size (exact M) c).toNat).sum := by exact_mod_cast hSt.2
    have := interpolate_between M hai haj (Nat.cast_nonneg _) hpos hle hSt.1 (by
      rw [Nat.cast_add, Nat.cast_mul, Nat.cast_ofNat] at hSt'
      linarith)
    exact ⟨le_trans hci this.1, le_trans this.2 hcj⟩
end Verif.Sketch
