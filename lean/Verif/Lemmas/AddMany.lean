import Verif.Lemmas.Sketch
/-
Inserting a value several times is inserting it once with a count, but for rounding.
-/
set_option autoImplicit false
namespace Verif.Sketch

section
variable {M : ℝ}

theorem exact_sub (x y : ℝ) : (exact M).sub x y = x - y := rfl
theorem exact_lt (x y : ℝ) : (exact M).lt x y = true ↔ x < y := by simp [exact]
theorem exact_max : (exact M).maxFinite = M := rfl

theorem closest_none (i : Nat) (cs : List (Centroid ℝ)) (mi : Nat) (md : ℝ) (h : ∀ e f, Adjacent cs e f → md ≤ f.p - e.p) : closest (exact M) i cs mi md = mi := by
  induction cs generalizing i with
  | nil => rfl
  | cons c cs ih =>
    cases cs with
    | nil => rfl
    | cons d cs =>
      have h1 := h c d ⟨[], cs, rfl⟩
      simp only [closest]
      rw [if_neg (by rw [exact_sub, exact_lt]; linarith)]
      exact ih (i + 1) fun e f ⟨x, y, hh⟩ => h e f ⟨c :: x, y, by rw [hh]; rfl⟩

theorem closest_at (i : Nat) (x y : List (Centroid ℝ)) (c d : Centroid ℝ) (mi : Nat) (md : ℝ) (h : d.p - c.p < md)
    (hx : ∀ e f, Adjacent (x ++ [c]) e f → d.p - c.p < f.p - e.p) (hy : ∀ e f, Adjacent (d :: y) e f → d.p - c.p < f.p - e.p) :
    closest (exact M) i (x ++ c :: d :: y) mi md = i + x.length := by
  induction x generalizing i mi md with
  | nil =>
    simp only [List.nil_append, closest]
    rw [if_pos (by rw [exact_sub, exact_lt]; exact h), closest_none]
    · rfl
    · intro e f hef
      exact le_of_lt (hy e f hef)
  | cons z x ih =>
    have hx' : ∀ e f, Adjacent (x ++ [c]) e f → d.p - c.p < f.p - e.p := fun e f ⟨a, b, hh⟩ => hx e f ⟨z :: a, b, by rw [List.cons_append, hh]; rfl⟩
    cases x with
    | nil =>
      have h1 := hx z c ⟨[], [], rfl⟩
      simp only [List.cons_append, List.nil_append, closest]
      split
      · have := ih (i + 1) i (c.p - z.p) h1 hx'
        simp only [List.nil_append, closest] at this
        exact this.trans (by simp)
      · have := ih (i + 1) mi md h hx'
        simp only [List.nil_append, closest] at this
        exact this.trans (by simp)
    | cons u x =>
      have h1 := hx z u ⟨[], x ++ [c], rfl⟩
      simp only [List.cons_append, closest]
      split
      · have := ih (i + 1) i (u.p - z.p) h1 hx'
        rw [exact_sub, ← List.cons_append, this]; simp; omega
      · have := ih (i + 1) mi md h hx'
        rw [← List.cons_append, this]; simp; omega

/-- the distances do not depend on the weights -/
theorem closest_congr (i : Nat) (cs cs' : List (Centroid ℝ)) (mi : Nat) (md : ℝ) (h : cs.map (·.p) = cs'.map (·.p)) :
    closest (exact M) i cs mi md = closest (exact M) i cs' mi md := by
  induction cs generalizing i mi md cs' with
  | nil =>
    cases cs' with
    | nil => rfl
    | cons a b => simp at h
  | cons c cs ih =>
    cases cs' with
    | nil => simp at h
    | cons c' cs' =>
      cases cs with
      | nil =>
        cases cs' with
        | nil => rfl
        | cons a b => simp at h
      | cons d cs =>
        cases cs' with
        | nil => simp at h
        | cons d' cs' =>
          have hc : c.p = c'.p := by simpa using (List.cons.inj h).1
          have hd : d.p = d'.p := by simpa using (List.cons.inj (List.cons.inj h).2).1
          simp only [closest, hc, hd]
          split
          · exact ih _ _ _ _ (List.cons.inj h).2
          · exact ih _ _ _ _ (List.cons.inj h).2

/-- the place of a value among sorted bins -/
theorem search_split (A B : List (Centroid ℝ)) (v : ℝ) (hA : ∀ c ∈ A, c.p < v) (hB : ∀ c ∈ B, v ≤ c.p) :
    search (A ++ B).length (at_ (A ++ B) fun c => (exact M).le v c.p) = A.length := by
  have hf : ∀ i c, (A ++ B)[i]? = some c → (at_ (A ++ B) (fun c => (exact M).le v c.p) i = true ↔ A.length ≤ i) := by
    intro i c hc
    rw [at_eq _ _ _ _ hc]
    have hle : (exact M).le v c.p = true ↔ v ≤ c.p := by simp [exact]
    rw [hle]
    by_cases hi : i < A.length
    · rw [List.getElem?_append_left hi] at hc
      have := hA c (List.mem_of_getElem? hc)
      constructor
      · intro h; linarith
      · omega
    · rw [List.getElem?_append_right (by omega)] at hc
      have := hB c (List.mem_of_getElem? hc)
      exact ⟨fun _ => by omega, fun _ => this⟩
  have hget : ∀ i < (A ++ B).length, ∃ c, (A ++ B)[i]? = some c := fun i hi => ⟨_, List.getElem?_eq_getElem hi⟩
  obtain ⟨h1, h2, h3⟩ := search_spec (A ++ B).length (at_ (A ++ B) fun c => (exact M).le v c.p)
  generalize search (A ++ B).length (at_ (A ++ B) fun c => (exact M).le v c.p) = k at *
  have hl : (A ++ B).length = A.length + B.length := List.length_append
  rcases Nat.lt_trichotomy k A.length with h | h | h
  · obtain ⟨c, hc⟩ := hget k (by omega)
    have := (hf k c hc).mp (h2 (by omega))
    omega
  · exact h
  · obtain ⟨c, hc⟩ := hget (k - 1) (by omega)
    have := (hf (k - 1) c hc).mpr (by omega)
    rw [h3 (by omega)] at this
    cases this

/-- the sketch after an insertion, with its bins -/
noncomputable def after (h : Sketch ℝ) (v : ℝ) (n : Int) (cs : List (Centroid ℝ)) : Sketch ℝ :=
  { cs := cs, cap := h.cap, count := h.count + n, min := if v < h.min then v else h.min, max := if h.max < v then v else h.max }

theorem addMany_hit (h : Sketch ℝ) (A B : List (Centroid ℝ)) (c : Centroid ℝ) (v : ℝ) (n : Int) (e : h.cs = A ++ c :: B) (hA : ∀ c ∈ A, c.p < v) (hB : ∀ c ∈ B, v ≤ c.p)
    (hc : c.p = v) : addMany (exact M) h v n = some (after h v n (A ++ { c with m := c.m + (if c.m < 0 then -1 else 1) * n } :: B)) := by
  have hB' : ∀ x ∈ c :: B, v ≤ x.p := by
    intro x hx
    rcases List.mem_cons.mp hx with rfl | hx
    · exact le_of_eq hc.symm
    · exact hB x hx
  unfold addMany
  rw [e, search_split A (c :: B) v hA hB']
  have hat : at_ (A ++ c :: B) (fun c => (exact M).eq c.p v) A.length = true := by
    rw [at_eq _ _ _ c (by simp)]
    simp [exact, hc]
  simp only [hat, if_true]
  congr 1
  simp only [after, exact, decide_eq_true_eq]
  congr 1
  rw [List.modify_eq_take_drop]
  simp

theorem addMany_miss (h : Sketch ℝ) (A B : List (Centroid ℝ)) (v : ℝ) (n : Int) (e : h.cs = A ++ B) (hA : ∀ c ∈ A, c.p < v) (hB : ∀ c ∈ B, v < c.p) :
    addMany (exact M) h v n = if h.cs.length + 1 < h.cap then some (after h v n (A ++ { p := v, m := n } :: B)) else
      (mergeAt (exact M) (closest (exact M) 0 (A ++ { p := v, m := n } :: B) 0 M) (A ++ { p := v, m := n } :: B)).map (after h v n) := by
  unfold addMany
  have hlen : h.cs.length + 1 = (A ++ { p := v, m := (n : ℝ) } :: B).length := by rw [e]; simp; omega
  rw [hlen, e, search_split A B v hA fun c hc => le_of_lt (hB c hc)]
  have hat : at_ (A ++ B) (fun c => (exact M).eq c.p v) A.length = false := by
    cases B with
    | nil => simp [at_]
    | cons b B =>
      rw [at_eq _ _ _ b (by simp)]
      have := hB b (by simp)
      simp [exact]
      linarith
  simp only [hat, Bool.false_eq_true, if_false]
  rw [insertIdx_eq _ _ _ (by simp)]
  simp only [List.take_left', List.drop_left']
  simp only [exact_max, after]
  simp only [exact, decide_eq_true_eq]
  rfl

theorem mergeAt_at {α : Type} (N : Num α) (x y : List (Centroid α)) (c d : Centroid α) : mergeAt N x.length (x ++ c :: d :: y) = some (x ++ c.merge N d :: y) := by
  induction x with
  | nil => rfl
  | cons z x ih => simp [mergeAt, ih]

theorem after_after (h : Sketch ℝ) (v : ℝ) (a b : Nat) (cs cs' : List (Centroid ℝ)) :
    after (after h v a cs) v b cs' = after h v ((a + b : Nat) : Int) cs' := by
  unfold after
  simp only [Sketch.mk.injEq, true_and]
  refine ⟨by push_cast; ring, ?_, ?_⟩
  · split
    · simp
    · simp
  · split
    · simp
    · simp

theorem abs_w {m : ℝ} {w : Nat} (h : m = w ∨ m = -w) : (exact M).abs m = w := by
  have hw : (0 : ℝ) ≤ w := Nat.cast_nonneg w
  rcases h with h | h
  · rw [h]; simp only [exact]; rw [if_neg (by linarith)]
  · rw [h]; simp only [exact]
    split
    · simp
    · linarith

theorem merge_w {c d : Centroid ℝ} {w u : Nat} (hc : c.m = w ∨ c.m = -w) (hd : d.m = u ∨ d.m = -u) :
    c.merge (exact M) d = { p := (c.p * w + d.p * u) / ((w + u : Nat) : ℝ), m := -((w + u : Nat) : ℝ) } := by
  unfold Centroid.merge
  rw [abs_w hc, abs_w hd]
  simp only [exact]
  push_cast
  rfl

/-- inserting a value twice, with counts, is inserting it once with their sum -/
theorem addMany_twice (hM : 0 ≤ M) (h : Sketch ℝ) (hs : Sorted id h.cs) (hw : ∀ c ∈ h.cs, ∃ w : Nat, 1 ≤ w ∧ (c.m = w ∨ c.m = -w)) (h2 : 2 ≤ h.cap)
    (v : ℝ) (a b : Nat) (ha : 1 ≤ a) (hb : 1 ≤ b) :
    (addMany (exact M) h v a).bind (fun h1 => addMany (exact M) h1 v b) = addMany (exact M) h v (a + b : Nat) := by
  have L := exact_laws M hM 0
  have ha' : (1 : ℝ) ≤ a := by exact_mod_cast ha
  have hb' : (1 : ℝ) ≤ b := by exact_mod_cast hb
  obtain ⟨A, B, e, hA, hB⟩ : ∃ A B, h.cs = A ++ B ∧ (∀ c ∈ A, c.p < v) ∧ ∀ c ∈ B, v ≤ c.p := by
    obtain ⟨_, pl⟩ := place_of_search (exact M) h.cs v
    generalize search h.cs.length (at_ h.cs fun c => (exact M).le v c.p) = k at *
    have e : h.cs = h.cs.take k ++ h.cs.drop k := (List.take_append_drop k h.cs).symm
    have := Place.lt L trivial (fun _ _ => trivial) (by rw [← e]; exact hs) pl
    exact ⟨_, _, e, this.1, this.2⟩
  have hs' := hs
  rw [e] at hs'
  obtain ⟨sA, sB, sAB⟩ := List.pairwise_append.mp hs'
  by_cases hhit : ∃ c B', B = c :: B' ∧ c.p = v
  · -- the value has a bin
    obtain ⟨c, B', rfl, hc⟩ := hhit
    have hB' : ∀ d ∈ B', v ≤ d.p := fun d hd => hB d (by simp [hd])
    rw [addMany_hit h A B' c v a e hA hB' hc, addMany_hit h A B' c v (a + b : Nat) e hA hB' hc, Option.bind_some]
    rw [addMany_hit (after h v a _) A B' { c with m := c.m + (if c.m < 0 then -1 else 1) * ((a : Int) : ℝ) } v b rfl hA hB' hc, after_after]
    congr 4
    simp only [Centroid.mk.injEq, true_and]
    push_cast
    by_cases hm : c.m < 0
    · rw [if_pos hm, if_pos (by linarith)]; ring
    · rw [if_neg hm, if_neg (by linarith)]; ring
  · -- it has not
    have hB' : ∀ c ∈ B, v < c.p := by
      intro c hc
      cases B with
      | nil => cases hc
      | cons d B =>
        have h1 := hB d (by simp)
        have h3 : d.p ≠ v := fun h => hhit ⟨d, B, rfl, h⟩
        have h4 : v < d.p := lt_of_le_of_ne h1 (Ne.symm h3)
        rcases List.mem_cons.mp hc with rfl | hc
        · exact h4
        · have := (List.pairwise_cons.mp sB).1 c hc
          simp only [id] at this
          linarith
    have hBle : ∀ c ∈ B, v ≤ c.p := fun c hc => le_of_lt (hB' c hc)
    rw [addMany_miss h A B v a e hA hB', addMany_miss h A B v (a + b : Nat) e hA hB']
    have hone : ¬ (((a : Nat) : Int) : ℝ) < 0 := by push_cast; linarith
    by_cases hr : h.cs.length + 1 < h.cap
    · rw [if_pos hr, if_pos hr, Option.bind_some, addMany_hit (after h v a _) A B { p := v, m := ((a : Int) : ℝ) } v b rfl hA hBle rfl, after_after]
      congr 4
      simp only [Centroid.mk.injEq, true_and]
      rw [if_neg hone]; push_cast; ring
    · rw [if_neg hr, if_neg hr]
      have hcl : closest (exact M) 0 (A ++ { p := v, m := ((a + b : Nat) : Int) } :: B) 0 M = closest (exact M) 0 (A ++ { p := v, m := (a : Int) } :: B) 0 M :=
        closest_congr _ _ _ _ _ (by simp)
      rw [hcl]
      by_cases hE : A ++ B = []
      · -- no bins: both panic
        have : h.cs.length = 0 := by rw [e, hE]; rfl
        omega
      obtain ⟨x, c, d, y, eL, hx, hmg⟩ := mergeAt_some (exact M) (closest (exact M) 0 (A ++ { p := v, m := (a : Int) } :: B) 0 M) (A ++ { p := v, m := (a : Int) } :: B) (by
        have hlen : 1 ≤ (A ++ B).length := by
          cases hAB : A ++ B with
          | nil => exact absurd hAB hE
          | cons => simp
        rw [List.length_append] at hlen
        rcases closest_range (exact M) 0 (A ++ { p := v, m := ((a : Int) : ℝ) } :: B) 0 M with h0 | h0
        · rw [h0]; simp; omega
        · omega)
      have hmin := merged_closest_lt L x y c d (by rw [hx, ← eL]; rfl) fun _ _ _ => trivial
      rw [hmg, Option.map_some, Option.bind_some]
      have hlenx : x.length = closest (exact M) 0 (A ++ { p := v, m := ((a : Int) : ℝ) } :: B) 0 M := hx
      rw [← hlenx]
      have hwA : ∀ g ∈ A, ∃ w : Nat, 1 ≤ w ∧ (g.m = w ∨ g.m = -w) := fun g hg => hw g (by rw [e]; simp [hg])
      have hwB : ∀ g ∈ B, ∃ w : Nat, 1 ≤ w ∧ (g.m = w ∨ g.m = -w) := fun g hg => hw g (by rw [e]; simp [hg])
      clear hcl hmg hlenx hx
      have hmin' : (x = [] ∧ ∀ e f, Adjacent (x ++ c :: d :: y) e f → M ≤ f.p - e.p) ∨
        (d.p - c.p < M ∧ ∀ e f, Adjacent (x ++ c :: d :: y) e f → d.p - c.p ≤ f.p - e.p) := hmin
      clear hmin
      have hva : ∀ n : Nat, (((n : Int) : ℝ) = (n : ℝ) ∨ ((n : Int) : ℝ) = -(n : ℝ)) := fun n => Or.inl (by push_cast; rfl)
      have case_new_right : ∀ (hA' : A = x ++ [c]) (hd : d = { p := v, m := ((a : Int) : ℝ) }) (hy : y = B),
          addMany (exact M) (after h v a (x ++ c.merge (exact M) d :: y)) v b =
            (mergeAt (exact M) x.length (A ++ { p := v, m := (((a + b : Nat) : Int) : ℝ) } :: B)).map (after h v (a + b : Nat)) := by
        rintro rfl rfl rfl
        obtain ⟨w, hw1, hw2⟩ := hwA c (by simp)
        have hcv : c.p < v := hA c (by simp)
        have hbt := between hcv hw1 ha
        have em : c.merge (exact M) { p := v, m := ((a : Int) : ℝ) } = { p := (c.p * w + v * a) / ((w + a : Nat) : ℝ), m := -((w + a : Nat) : ℝ) } := merge_w hw2 (hva a)
        rw [em]
        generalize hc' : (c.p * w + v * a) / ((w + a : Nat) : ℝ) = c' at *
        have hxl : ∀ g ∈ x ++ [({ p := c', m := -((w + a : Nat) : ℝ) } : Centroid ℝ)], g.p < v := by
          intro g hg
          rcases List.mem_append.mp hg with hg | hg
          · exact hA g (by simp [hg])
          · simp at hg; rw [hg]; exact hbt.2
        rw [addMany_miss (after h v a _) (x ++ [{ p := c', m := -((w + a : Nat) : ℝ) }]) y v b (by simp [after]) hxl hB']
        rw [if_neg (by
          show ¬ (x ++ _ :: y).length + 1 < h.cap
          rw [e] at hr
          simpa using hr)]
        rw [List.append_assoc, List.append_assoc, List.singleton_append, List.singleton_append, mergeAt_at]
        have hcl : closest (exact M) 0 (x ++ { p := c', m := -((w + a : Nat) : ℝ) } :: { p := v, m := ((b : Int) : ℝ) } :: y) 0 M = x.length := by
          -- pairs of the new list but the one to be merged
          have hl : ∀ e f, Adjacent (x ++ [({ p := c', m := -((w + a : Nat) : ℝ) } : Centroid ℝ)]) e f →
              ∃ e' f', Adjacent (x ++ c :: { p := v, m := ((a : Int) : ℝ) } :: y) e' f' ∧ f'.p - e'.p ≤ f.p - e.p := by
            rintro e f ⟨x1, y1, h1⟩
            rcases List.append_eq_append_iff.mp h1 with ⟨t, ht1, ht2⟩ | ⟨t, ht1, ht2⟩
            · have := congrArg List.length ht2
              simp at this
              omega
            · cases t with
              | nil => simp at ht2
              | cons t0 t =>
                cases t with
                | nil =>
                  simp at ht2
                  obtain ⟨rfl, rfl, rfl⟩ := ht2
                  exact ⟨e, c, ⟨x1, { p := v, m := ((a : Int) : ℝ) } :: y, by rw [ht1]; simp⟩, by simp only; linarith [hbt.1]⟩
                | cons t1 t =>
                  simp at ht2
                  obtain ⟨rfl, rfl, ht2⟩ := ht2
                  exact ⟨e, f, ⟨x1, t ++ c :: { p := v, m := ((a : Int) : ℝ) } :: y, by rw [ht1]; simp⟩, le_refl _⟩
          have hr' : ∀ e f, Adjacent (({ p := v, m := ((b : Int) : ℝ) } : Centroid ℝ) :: y) e f →
              ∃ e' f', Adjacent (x ++ c :: { p := v, m := ((a : Int) : ℝ) } :: y) e' f' ∧ f'.p - e'.p ≤ f.p - e.p := by
            rintro e f ⟨x1, y1, h1⟩
            cases x1 with
            | nil =>
              simp at h1
              obtain ⟨rfl, rfl⟩ := h1
              exact ⟨{ p := v, m := ((a : Int) : ℝ) }, f, ⟨x ++ [c], y1, by simp⟩, le_refl _⟩
            | cons z x1 =>
              simp at h1
              obtain ⟨rfl, h1⟩ := h1
              exact ⟨e, f, ⟨x ++ c :: { p := v, m := ((a : Int) : ℝ) } :: x1, y1, by rw [h1]; simp⟩, le_refl _⟩
          by_cases hlt : v - c' < M
          · have := closest_at (M := M) 0 x y { p := c', m := -((w + a : Nat) : ℝ) } { p := v, m := ((b : Int) : ℝ) } 0 M hlt ?_ ?_
            · rw [this]; simp
            · intro e f hef
              obtain ⟨e', f', h1, h3⟩ := hl e f hef
              simp only
              rcases hmin' with ⟨_, hm⟩ | ⟨_, hm⟩
              · have := hm e' f' h1; linarith
              · have := hm e' f' h1; simp only at this; linarith [hbt.1]
            · intro e f hef
              obtain ⟨e', f', h1, h3⟩ := hr' e f hef
              simp only
              rcases hmin' with ⟨_, hm⟩ | ⟨_, hm⟩
              · have := hm e' f' h1; linarith
              · have := hm e' f' h1; simp only at this; linarith [hbt.1]
          · rcases hmin' with ⟨rfl, hm⟩ | ⟨hm, _⟩
            · refine closest_none 0 _ 0 M fun e f hef => ?_
              rcases adjacent_cons hef with ⟨rfl, rfl⟩ | hef
              · simp only; linarith
              · obtain ⟨e', f', h1, h3⟩ := hr' e f hef
                have := hm e' f' h1; linarith
            · simp only at hm; linarith [hbt.1]
        rw [hcl, mergeAt_at, Option.map_some, after_after, Option.map_some]
        congr 4
        rw [merge_w (Or.inr rfl) (hva b), merge_w hw2 (hva (a + b))]
        simp only [Centroid.mk.injEq]
        have hpos : ((w + a : Nat) : ℝ) ≠ 0 := by have : 0 < w + a := by omega
                                                  exact_mod_cast this.ne'
        have hpos' : ((w + (a + b) : Nat) : ℝ) ≠ 0 := by have : 0 < w + (a + b) := by omega
                                                         exact_mod_cast this.ne'
        constructor
        · rw [← hc', Nat.add_assoc]
          field_simp
          push_cast
          ring
        · push_cast; ring
      have case_new_left : ∀ (hA' : A = x) (hc : c = { p := v, m := ((a : Int) : ℝ) }) (hy : B = d :: y),
          addMany (exact M) (after h v a (x ++ c.merge (exact M) d :: y)) v b =
            (mergeAt (exact M) x.length (A ++ { p := v, m := (((a + b : Nat) : Int) : ℝ) } :: B)).map (after h v (a + b : Nat)) := by
        rintro rfl rfl rfl
        obtain ⟨w, hw1, hw2⟩ := hwB d (by simp)
        have hdv : v < d.p := hB' d (by simp)
        have hbt := between hdv ha hw1
        have em : ({ p := v, m := ((a : Int) : ℝ) } : Centroid ℝ).merge (exact M) d = { p := (v * a + d.p * w) / ((a + w : Nat) : ℝ), m := -((a + w : Nat) : ℝ) } := merge_w (hva a) hw2
        rw [em]
        generalize hc' : (v * a + d.p * w) / ((a + w : Nat) : ℝ) = c' at *
        have hyl : ∀ g ∈ ({ p := c', m := -((a + w : Nat) : ℝ) } : Centroid ℝ) :: y, v < g.p := by
          intro g hg
          rcases List.mem_cons.mp hg with rfl | hg
          · exact hbt.1
          · exact hB' g (by simp [hg])
        rw [addMany_miss (after h v a _) A ({ p := c', m := -((a + w : Nat) : ℝ) } :: y) v b rfl hA hyl]
        rw [if_neg (by
          show ¬ (A ++ _ :: y).length + 1 < h.cap
          rw [e] at hr
          simpa using hr)]
        rw [mergeAt_at]
        have hcl : closest (exact M) 0 (A ++ { p := v, m := ((b : Int) : ℝ) } :: { p := c', m := -((a + w : Nat) : ℝ) } :: y) 0 M = A.length := by
          have hl : ∀ e f, Adjacent (A ++ [({ p := v, m := ((b : Int) : ℝ) } : Centroid ℝ)]) e f →
              ∃ e' f', Adjacent (A ++ { p := v, m := ((a : Int) : ℝ) } :: d :: y) e' f' ∧ f'.p - e'.p ≤ f.p - e.p := by
            rintro e f ⟨x1, y1, h1⟩
            rcases List.append_eq_append_iff.mp h1 with ⟨t, ht1, ht2⟩ | ⟨t, ht1, ht2⟩
            · have := congrArg List.length ht2
              simp at this
              omega
            · cases t with
              | nil => simp at ht2
              | cons t0 t =>
                cases t with
                | nil =>
                  simp at ht2
                  obtain ⟨rfl, rfl, rfl⟩ := ht2
                  exact ⟨e, { p := v, m := ((a : Int) : ℝ) }, ⟨x1, d :: y, by rw [ht1]; simp⟩, le_refl _⟩
                | cons t1 t =>
                  simp at ht2
                  obtain ⟨rfl, rfl, ht2⟩ := ht2
                  exact ⟨e, f, ⟨x1, t ++ { p := v, m := ((a : Int) : ℝ) } :: d :: y, by rw [ht1]; simp⟩, le_refl _⟩
          have hr' : ∀ e f, Adjacent (({ p := c', m := -((a + w : Nat) : ℝ) } : Centroid ℝ) :: y) e f →
              ∃ e' f', Adjacent (A ++ { p := v, m := ((a : Int) : ℝ) } :: d :: y) e' f' ∧ f'.p - e'.p ≤ f.p - e.p := by
            rintro e f ⟨x1, y1, h1⟩
            cases x1 with
            | nil =>
              simp at h1
              obtain ⟨rfl, rfl⟩ := h1
              exact ⟨d, f, ⟨A ++ [{ p := v, m := ((a : Int) : ℝ) }], y1, by simp⟩, by simp only; linarith [hbt.2]⟩
            | cons z x1 =>
              simp at h1
              obtain ⟨rfl, h1⟩ := h1
              exact ⟨e, f, ⟨A ++ { p := v, m := ((a : Int) : ℝ) } :: d :: x1, y1, by rw [h1]; simp⟩, le_refl _⟩
          by_cases hlt : c' - v < M
          · have := closest_at (M := M) 0 A y { p := v, m := ((b : Int) : ℝ) } { p := c', m := -((a + w : Nat) : ℝ) } 0 M hlt ?_ ?_
            · rw [this]; simp
            · intro e f hef
              obtain ⟨e', f', h1, h3⟩ := hl e f hef
              simp only
              rcases hmin' with ⟨_, hm⟩ | ⟨_, hm⟩
              · have := hm e' f' h1; linarith
              · have := hm e' f' h1; simp only at this; linarith [hbt.2]
            · intro e f hef
              obtain ⟨e', f', h1, h3⟩ := hr' e f hef
              simp only
              rcases hmin' with ⟨_, hm⟩ | ⟨_, hm⟩
              · have := hm e' f' h1; linarith
              · have := hm e' f' h1; simp only at this; linarith [hbt.2]
          · rcases hmin' with ⟨rfl, hm⟩ | ⟨hm, _⟩
            · refine closest_none 0 _ 0 M fun e f hef => ?_
              rcases adjacent_cons hef with ⟨rfl, rfl⟩ | hef
              · simp only; linarith
              · obtain ⟨e', f', h1, h3⟩ := hr' e f hef
                have := hm e' f' h1; linarith
            · simp only at hm; linarith [hbt.2]
        rw [hcl, mergeAt_at, Option.map_some, after_after, Option.map_some]
        congr 4
        rw [merge_w (hva b) (Or.inr rfl), merge_w (hva (a + b)) hw2]
        simp only [Centroid.mk.injEq]
        have hpos : ((a + w : Nat) : ℝ) ≠ 0 := by have : 0 < a + w := by omega
                                                  exact_mod_cast this.ne'
        have hpos' : ((b + (a + w) : Nat) : ℝ) ≠ 0 := by have : 0 < b + (a + w) := by omega
                                                         exact_mod_cast this.ne'
        constructor
        · have eqn : a + b + w = b + (a + w) := by omega
          rw [← hc', eqn]
          field_simp
          push_cast
          ring
        · push_cast; ring
      have hmerge_p : ∀ g k : Centroid ℝ, (∃ w : Nat, 1 ≤ w ∧ (g.m = w ∨ g.m = -w)) → (∃ w : Nat, 1 ≤ w ∧ (k.m = w ∨ k.m = -w)) → g.p < k.p →
          g.p < (g.merge (exact M) k).p ∧ (g.merge (exact M) k).p < k.p := by
        rintro g k ⟨w, hw1, hw2⟩ ⟨u, hu1, hu2⟩ hlt
        rw [merge_w hw2 hu2]
        exact between hlt hw1 hu1
      have hsum : ((a : Int) : ℝ) + (if ((a : Int) : ℝ) < 0 then -1 else 1) * ((b : Int) : ℝ) = (((a + b : Nat) : Int) : ℝ) := by
        rw [if_neg hone]; push_cast; ring
      rcases List.append_eq_append_iff.mp eL with ⟨t, ht1, ht2⟩ | ⟨t, ht1, ht2⟩
      · cases t with
        | nil =>
          simp at ht1 ht2
          exact case_new_left ht1.symm ht2.1.symm ht2.2
        | cons t0 t =>
          -- both bins are above
          simp at ht2
          obtain ⟨rfl, rfl⟩ := ht2
          have sB' := List.pairwise_append.mp sB
          have hcd : c.p < d.p := (List.pairwise_cons.mp sB'.2.1).1 d (by simp)
          have hm := hmerge_p c d (hwB c (by simp)) (hwB d (by simp)) hcd
          have hgt : ∀ g ∈ t ++ c.merge (exact M) d :: y, v ≤ g.p := by
            intro g hg
            rcases List.mem_append.mp hg with hg | hg
            · exact hBle g (by simp [hg])
            · rcases List.mem_cons.mp hg with rfl | hg
              · have := hBle c (by simp); linarith [hm.1]
              · exact hBle g (by simp [hg])
          subst ht1
          rw [addMany_hit (after h v a _) A (t ++ c.merge (exact M) d :: y) { p := v, m := ((a : Int) : ℝ) } v b (by simp [after]) hA hgt rfl]
          have eL' : A ++ ({ p := v, m := (((a + b : Nat) : Int) : ℝ) } : Centroid ℝ) :: (t ++ c :: d :: y) = (A ++ { p := v, m := (((a + b : Nat) : Int) : ℝ) } :: t) ++ c :: d :: y := by simp
          have el : (A ++ ({ p := v, m := (a : ℝ) } : Centroid ℝ) :: t).length = (A ++ ({ p := v, m := (((a + b : Nat) : Int) : ℝ) } : Centroid ℝ) :: t).length := by simp
          rw [eL', el, mergeAt_at, Option.map_some, after_after, hsum]
          simp
      · cases t with
        | nil =>
          simp at ht1 ht2
          exact case_new_left ht1 ht2.1 ht2.2.symm
        | cons t0 t =>
          cases t with
          | nil =>
            simp at ht2
            obtain ⟨rfl, rfl, rfl⟩ := ht2
            exact case_new_right ht1 rfl rfl
          | cons t1 t =>
            -- both bins are below
            simp at ht2
            obtain ⟨rfl, rfl, rfl⟩ := ht2
            subst ht1
            have sA' := List.pairwise_append.mp sA
            have hcd : c.p < d.p := (List.pairwise_cons.mp sA'.2.1).1 d (by simp)
            have hm := hmerge_p c d (hwA c (by simp)) (hwA d (by simp)) hcd
            have hlt : ∀ g ∈ x ++ c.merge (exact M) d :: t, g.p < v := by
              intro g hg
              rcases List.mem_append.mp hg with hg | hg
              · exact hA g (by simp [hg])
              · rcases List.mem_cons.mp hg with rfl | hg
                · have := hA d (by simp); linarith [hm.2]
                · exact hA g (by simp [hg])
            rw [addMany_hit (after h v a _) (x ++ c.merge (exact M) d :: t) B { p := v, m := ((a : Int) : ℝ) } v b (by simp [after]) hlt hBle rfl]
            have eL' : (x ++ c :: d :: t) ++ ({ p := v, m := (((a + b : Nat) : Int) : ℝ) } : Centroid ℝ) :: B = x ++ c :: d :: (t ++ { p := v, m := (((a + b : Nat) : Int) : ℝ) } :: B) := by simp
            rw [eL', mergeAt_at, Option.map_some, after_after, hsum]
            simp

/-- inserting a value so many times is inserting it once with the count -/
theorem addAll_replicate (hM : 0 ≤ M) (n : Nat) (vs : List (ℝ × Nat)) (h0 h : Sketch ℝ) (en : new (exact M) n = some h0) (e : addAll (exact M) h0 vs = some h)
    (hp : ∀ p ∈ vs, 1 ≤ p.2) (v : ℝ) (k : Nat) (hk : 1 ≤ k) :
    addAll (exact M) h (List.replicate k (v, 1)) = addMany (exact M) h v k := by
  have hcap : h.cap = n + 1 ∧ h.cs.length < h.cap ∧ 1 ≤ n := by
    unfold new at en
    split at en
    · cases en
    · cases en
      obtain ⟨h', e', c, l, _⟩ := addAll_some (exact M) { cs := [], cap := n + 1, count := (exact M).ofInt 0, min := (exact M).maxFinite, max := (exact M).neg (exact M).maxFinite } vs (by simp) (by simp; omega)
      rw [e] at e'
      cases e'
      simp only at c
      exact ⟨c, l, by omega⟩
  induction k with
  | zero => omega
  | succ k ih =>
    rcases Nat.eq_zero_or_pos k with h0 | h0
    · subst h0
      simp [addAll]
    · have hrep : List.replicate (k + 1) (v, 1) = List.replicate k (v, 1) ++ [(v, 1)] := List.replicate_succ'
      have happ : ∀ (l : List (ℝ × Nat)) (h : Sketch ℝ), addAll (exact M) h (l ++ [(v, 1)]) = (addAll (exact M) h l).bind fun h' => addMany (exact M) h' v 1 := by
        intro l
        induction l with
        | nil => intro h; simp [addAll]
        | cons q l ih =>
          intro h
          simp only [List.cons_append, addAll]
          cases addMany (exact M) h q.1 q.2 with
          | none => rfl
          | some h1 => exact ih h1
      have hm := mass_all (exact_laws M hM (total vs)) n vs _ h en e hp (Nat.le_refl _)
      have ho := ordered_all hM n vs _ h en e hp
      rw [hrep, happ, ih (by omega)]
      refine addMany_twice hM h ho.sorted (fun c hc => ?_) (by omega) v k 1 h0 (Nat.le_refl 1)
      obtain ⟨w, hw, _⟩ := hm.each c hc
      refine ⟨w, hw.1, ?_⟩
      rcases hw.2 with h | h
      · left; rw [h]; simp [exact]
      · right; rw [h]; simp [exact]
end
end Verif.Sketch
