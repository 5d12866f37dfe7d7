import Verif.Model.ReplaceCr
/-
C26: the carriage-return repair.
-/
set_option autoImplicit false
namespace Verif.ReplaceCr

/-- the intended effect: a line feed after each carriage return that has none; the text behind decides
about the last one -/
def fix (behindIsLone : Bool) : Bytes → Bytes
  | [] => []
  | [c] => if c = 13 ∧ behindIsLone = true then [13, 10] else [c]
  | c :: d :: s => if c = 13 ∧ d ≠ 10 then 13 :: 10 :: fix behindIsLone (d :: s) else c :: fix behindIsLone (d :: s)

theorem fix_cons (b : Bool) (c : UInt8) (s : Bytes) :
    fix b (c :: s) = if c = 13 ∧ lone b s = true then 13 :: 10 :: fix b s else c :: fix b s := by
  cases s with
  | nil => rfl
  | cons d s => simp [fix, lone]

theorem lone_append (b : Bool) (s t : Bytes) : lone b (s ++ t) = lone (lone b t) s := by
  cases s <;> rfl

theorem fix_append (b : Bool) (s t : Bytes) : fix b (s ++ t) = fix (lone b t) s ++ fix b t := by
  induction s with
  | nil => rfl
  | cons c s ih =>
    rw [List.cons_append, fix_cons, fix_cons, ih, lone_append]
    split <;> simp

/-- One read: it takes some bytes off the source and delivers them repaired, filling the buffer unless
the source ended.  The one exception: when a lone carriage return lands in the last place of the buffer it is
delivered as it is. -/
theorem C26_read (b : Bool) (k : Nat) (s : Bytes) :
    ∃ taken, s = taken ++ (read b k s).2.2 ∧ (read b k s).1.length ≤ k ∧
      ((read b k s).2.1 = true ↔ (read b k s).1.length < k) ∧
      ((read b k s).1.length < k → (read b k s).2.2 = []) ∧
      ((read b k s).1 = fix (lone b (read b k s).2.2) taken ∨
        (read b k s).1.length = k ∧ lone b (read b k s).2.2 = true ∧ ∃ u, taken = u ++ [13] ∧ (read b k s).1 = fix true u ++ [13]) := by
  induction s generalizing k with
  | nil =>
    cases k with
    | zero => exact ⟨[], by simp [read], by simp [read], by simp [read], by simp [read], .inl rfl⟩
    | succ k => exact ⟨[], by simp [read], by simp [read], by simp [read], by simp [read], .inl rfl⟩
  | cons c s ih =>
    cases k with
    | zero => exact ⟨[], by simp [read], by simp [read], by simp [read], by simp [read], .inl rfl⟩
    | succ k =>
      by_cases hc : c = 13 ∧ 0 < k ∧ lone b s = true
      · obtain ⟨taken, h1, h2, h3, h4, h5⟩ := ih (k - 1)
        have e : read b (k + 1) (c :: s) = (13 :: 10 :: (read b (k - 1) s).1, (read b (k - 1) s).2) := by rw [read, if_pos hc]
        obtain ⟨rfl, hk, hl⟩ := hc
        rw [e]
        refine ⟨13 :: taken, by simp [← h1], by simp; omega, by simp [h3]; omega, fun h => h4 (by simp at h; omega), ?_⟩
        have hl' : lone (lone b (read b (k - 1) s).2.2) taken = true := by rw [← lone_append, ← h1]; exact hl
        rcases h5 with h5 | ⟨h5, h6, u, rfl, h7⟩
        · left
          rw [fix_cons, if_pos ⟨rfl, hl'⟩, h5]
        · right
          refine ⟨by simp; omega, h6, 13 :: u, rfl, ?_⟩
          have hu : lone true u = true := by
            cases u with
            | nil => rfl
            | cons d u => exact hl'
          rw [fix_cons, if_pos ⟨rfl, hu⟩, h7]; rfl
      · obtain ⟨taken, h1, h2, h3, h4, h5⟩ := ih k
        have e : read b (k + 1) (c :: s) = (c :: (read b k s).1, (read b k s).2) := by rw [read, if_neg hc]
        rw [e]
        refine ⟨c :: taken, by simp [← h1], by simp; omega, by simp [h3], fun h => h4 (by simp at h; omega), ?_⟩
        have hlone : lone (lone b (read b k s).2.2) taken = lone b s := by rw [← lone_append, ← h1]
        by_cases hlast : c = 13 ∧ lone b s = true
        · -- no room left
          obtain ⟨rfl, hl⟩ := hlast
          have hk : k = 0 := by
            apply Nat.eq_zero_of_not_pos
            intro h; exact hc ⟨rfl, h, hl⟩
          subst hk
          right
          have hr : read b 0 s = ([], false, s) := by cases s <;> rfl
          have ht : taken = [] := by
            rw [hr] at h1
            have := congrArg List.length h1
            simp only [List.length_append] at this
            exact List.length_eq_zero_iff.mp (by omega)
          subst ht
          exact ⟨by simp [hr], by rw [hr]; exact hl, [], rfl, by simp [hr, fix]⟩
        · rcases h5 with h5 | ⟨h5, h6, u, rfl, h7⟩
          · left
            rw [fix_cons, hlone, if_neg hlast, h5]
          · right
            refine ⟨by simp; omega, h6, c :: u, rfl, ?_⟩
            have hu : ¬ (c = 13 ∧ lone true u = true) := by
              rintro ⟨hc', hu⟩
              apply hlast
              refine ⟨hc', ?_⟩
              rw [← hlone]
              cases u with
              | nil => rfl
              | cons d u => exact hu
            rw [fix_cons, if_neg hu, h7]; rfl

/-- A read with room for two bytes per source byte repairs the whole source. -/
theorem C26_one_read (b : Bool) (s : Bytes) (k : Nat) (h : 2 * s.length < k) : read b k s = (fix b s, true, []) := by
  induction s generalizing k with
  | nil =>
    cases k with
    | zero => omega
    | succ k => rfl
  | cons c s ih =>
    simp only [List.length_cons] at h
    cases k with
    | zero => omega
    | succ k =>
      rw [read, fix_cons]
      by_cases hc : c = 13 ∧ lone b s = true
      · rw [if_pos ⟨hc.1, by omega, hc.2⟩, if_pos hc, ih (k - 1) (by omega)]
      · rw [if_neg (fun h => hc ⟨h.1, h.2.2⟩), if_neg hc, ih k (by omega)]

/-- text in which every carriage return is followed by a line feed -/
def Clean (b : Bool) (s : Bytes) : Prop := ∀ u v, s = u ++ 13 :: v → lone b v = false

theorem clean_cons {b : Bool} {c : UInt8} {s : Bytes} (h : Clean b (c :: s)) : Clean b s ∧ ¬ (c = 13 ∧ lone b s = true) := by
  refine ⟨fun u v e => h (c :: u) v (by rw [e]; rfl), ?_⟩
  rintro ⟨rfl, h2⟩
  have := h [] s rfl
  rw [this] at h2
  simp at h2

theorem read_clean {b : Bool} (k : Nat) {s : Bytes} (h : Clean b s) : (read b k s).1 ++ (read b k s).2.2 = s ∧ Clean b (read b k s).2.2 ∧ ((read b k s).1.length = k ∨ (read b k s).2.2 = []) := by
  induction s generalizing k with
  | nil => cases k <;> simp [read, h]
  | cons c s ih =>
    cases k with
    | zero => simp [read, h]
    | succ k =>
      have h' := clean_cons h
      rw [read, if_neg (fun e => h'.2 ⟨e.1, e.2.2⟩)]
      have := ih k h'.1
      simp only [List.cons_append]
      refine ⟨by rw [this.1], this.2.1, ?_⟩
      rcases this.2.2 with h | h
      · left; simp [h]
      · exact .inr h

/-- Text without lone carriage returns passes unchanged, whatever the sizes of the caller's buffers. -/
theorem C26_transparent (b : Bool) (s : Bytes) (h : Clean b s) (ks : List Nat) :
    (reads b ks s).1 ++ (reads b ks s).2 = s ∧ (s.length ≤ ks.sum → (reads b ks s).1 = s) := by
  induction ks generalizing s with
  | nil => simp [reads]
  | cons k ks ih =>
    have h1 := read_clean k h
    have h2 := ih _ h1.2.1
    have e1 : (reads b (k :: ks) s).1 ++ (reads b (k :: ks) s).2 = s := by
      simp only [reads, List.append_assoc, h2.1, h1.1]
    refine ⟨e1, fun hl => ?_⟩
    have h3 := h2.2
    simp only [reads]
    rcases h1.2.2 with hk | hk
    · rw [h3 ?_, h1.1]
      have := congrArg List.length h1.1
      simp only [List.length_append, List.sum_cons] at this hl
      omega
    · rw [h3 (by simp [hk]), h1.1]

/-- the delivered text with some lone carriage returns repaired and some not -/
inductive Mended (b : Bool) : Bytes → Bytes → Prop where
  | nil : Mended b [] []
  | keep (c : UInt8) (s t : Bytes) : Mended b s t → Mended b (c :: s) (c :: t)
  | mend (s t : Bytes) : lone b s = true → Mended b s t → Mended b (13 :: s) (13 :: 10 :: t)

/-- Nothing else is ever changed: for every sequence of buffer sizes that reads to the end, the delivered text is the source
with line feeds inserted behind some of its lone carriage returns. -/
theorem C26_only_line_feeds (b : Bool) (ks : List Nat) (s : Bytes) (h : (reads b ks s).2 = []) : Mended b s (reads b ks s).1 := by
  have one : ∀ (s : Bytes) (k : Nat) (t : Bytes), Mended b (read b k s).2.2 t → Mended b s ((read b k s).1 ++ t) := by
    intro s
    induction s with
    | nil => intro k t h; cases k <;> simpa [read] using h
    | cons c s ih =>
      intro k t h
      cases k with
      | zero => simpa [read] using h
      | succ k =>
        rw [read] at h ⊢
        by_cases hc : c = 13 ∧ 0 < k ∧ lone b s = true
        · rw [if_pos hc] at h ⊢
          rw [hc.1]
          exact .mend s _ hc.2.2 (ih _ _ h)
        · rw [if_neg hc] at h ⊢
          exact .keep c s _ (ih _ _ h)
  induction ks generalizing s with
  | nil => simp only [reads] at h ⊢; rw [h]; exact .nil
  | cons k ks ih =>
    simp only [reads] at h ⊢
    exact one s k _ (ih _ h)

/-- The claim that all lone carriage returns are repaired is false for every buffer size: one in the last
place of the buffer stays as it is. -/
theorem C26_false_for_every_size (k : Nat) (hk : 0 < k) :
    ∃ s, (reads true [k, 3] s).2 = [] ∧ (reads true [k, 3] s).1 ≠ fix true s ∧ (reads true [k, 3] s).1 = s ∧ fix true s ≠ s := by
  have hr : ∀ n : Nat, read true (n + 1) (List.replicate n 97 ++ [13, 98]) = (List.replicate n 97 ++ [13], false, [98]) := by
    intro n
    induction n with
    | zero => decide
    | succ n ih =>
      rw [List.replicate_succ, List.cons_append, read, if_neg (by simp), ih]
      rfl
  have hf : ∀ n : Nat, fix true (List.replicate n 97 ++ [13, 98]) = List.replicate n 97 ++ [13, 10, 98] := by
    intro n
    induction n with
    | zero => decide
    | succ n ih =>
      rw [List.replicate_succ, List.cons_append, fix_cons, if_neg (by simp), ih]
      rfl
  obtain ⟨n, rfl⟩ : ∃ n, k = n + 1 := ⟨k - 1, by omega⟩
  have e : reads true [n + 1, 3] (List.replicate n 97 ++ [13, 98]) = (List.replicate n 97 ++ [13, 98], []) := by
    simp only [reads, hr]
    have : read true 3 [98] = ([98], true, []) := by decide
    simp [this]
  refine ⟨List.replicate n 97 ++ [13, 98], by rw [e], ?_, by rw [e], ?_⟩
  · rw [e, hf]
    simp
  · rw [hf]
    simp

/-- With every read having room left for two bytes per carriage return this does not happen: reads that
do not end in a carriage return repair everything. -/
theorem C26_reads_repair (b : Bool) (ks : List Nat) (s : Bytes) (h : (reads b ks s).2 = [])
    (hn : ∀ j, (read b (ks.getD j 0) (reads b (ks.take j) s).2).1.getLast? ≠ some 13) : (reads b ks s).1 = fix b s := by
  induction ks generalizing s with
  | nil => simp only [reads] at h ⊢; rw [h]; rfl
  | cons k ks ih =>
    simp only [reads] at h ⊢
    rw [ih _ h (fun j => by simpa [reads] using hn (j + 1))]
    obtain ⟨taken, h1, _, _, _, h5⟩ := C26_read b k s
    rcases h5 with h5 | ⟨_, _, u, _, h7⟩
    · rw [h5, ← fix_append, ← h1]
    · exfalso
      have := hn 0
      simp only [List.getD_cons_zero, List.take_zero, reads] at this
      rw [h7] at this
      simp at this

example : (reads true [100] b!"a\rb\r\nc\r").1 = b!"a\r\nb\r\nc\r\n" := by decide
example : (reads true [2, 100] b!"a\rb\r\nc\r").1 = b!"a\rb\r\nc\r\n" := by decide
example : (reads true [1, 1, 1, 1, 1, 1, 1] b!"a\rb\r\nc\r").1 = b!"a\rb\r\nc\r" := by decide

end Verif.ReplaceCr
