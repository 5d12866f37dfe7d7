import Verif.Go.Bytes
/-
The part of Go's `regexp` the repository uses: anchored expressions built from ASCII character classes,
concatenation and repetition.  On such expressions matching bytes and matching runes is the same thing.
-/
set_option autoImplicit false
namespace Verif

/-- regular expressions -/
inductive Re where
  | cls (p : UInt8 → Bool)
  | seq (a b : Re)
  | upTo (n : Nat) (a : Re)
  | star (a : Re)

/-- what can be left of the text after up to `n` matches of `f` -/
def upToRest (f : Bytes → List Bytes) : Nat → Bytes → List Bytes
  | 0, s => [s]
  | n + 1, s => s :: (f s).flatMap (upToRest f n)

/-- what can be left of the text after a match at its start -/
def Re.rest : Re → Bytes → List Bytes
  | .cls _, [] => []
  | .cls p, c :: s => if p c then [s] else []
  | .seq a b, s => (a.rest s).flatMap b.rest
  | .upTo n a, s => upToRest a.rest n s
  | .star a, s => upToRest a.rest s.length s

/-- `MatchString` of an expression between `^` and `$` (without the `m` flag: begin and end of the text) -/
def Re.full (r : Re) (s : Bytes) : Bool := [] ∈ r.rest s

def isLetter (c : UInt8) : Bool := (97 ≤ c && c ≤ 122) || (65 ≤ c && c ≤ 90)

/-- `\w` -/
def isWord (c : UInt8) : Bool := isLetter c || (48 ≤ c && c ≤ 57) || c == 95

theorem upToRest_cls (p : UInt8 → Bool) (n : Nat) (s : Bytes) :
    [] ∈ upToRest (Re.cls p).rest n s ↔ s.length ≤ n ∧ ∀ b ∈ s, p b = true := by
  induction n generalizing s with
  | zero =>
    cases s <;> simp [upToRest]
  | succ n ih =>
    cases s with
    | nil => simp [upToRest]
    | cons c s =>
      simp only [upToRest, Re.rest, List.mem_cons, reduceCtorEq, false_or, List.length_cons, Nat.add_le_add_iff_right]
      by_cases h : p c = true
      · simp only [h, if_true, List.flatMap_cons, List.flatMap_nil, List.append_nil, ih]
        constructor
        · rintro ⟨h1, h2⟩
          refine ⟨h1, ?_⟩
          rintro b (rfl | hb)
          · exact h
          · exact h2 b hb
        · rintro ⟨h1, h2⟩
          exact ⟨h1, fun b hb => h2 b (Or.inr hb)⟩
      · simp only [h]
        simp only [Bool.false_eq_true, if_false, List.flatMap_nil, List.not_mem_nil, false_iff, not_and]
        intro _ h2
        exact h (h2 c (Or.inl rfl))

/-- one character of a class, then up to `n` of another -/
theorem full_head_upTo (p q : UInt8 → Bool) (n : Nat) (s : Bytes) :
    (Re.seq (.cls p) (.upTo n (.cls q))).full s = true ↔ ∃ c t, s = c :: t ∧ p c = true ∧ t.length ≤ n ∧ ∀ b ∈ t, q b = true := by
  unfold Re.full
  rw [decide_eq_true_eq]
  cases s with
  | nil => simp [Re.rest]
  | cons c s =>
    simp only [Re.rest]
    by_cases h : p c = true
    · simp only [h, if_true, List.flatMap_cons, List.flatMap_nil, List.append_nil, upToRest_cls]
      constructor
      · rintro ⟨h1, h2⟩; exact ⟨c, s, rfl, h, h1, h2⟩
      · rintro ⟨c', t, e, _, h1, h2⟩; cases e; exact ⟨h1, h2⟩
    · simp only [h, Bool.false_eq_true, if_false, List.flatMap_nil, List.not_mem_nil, false_iff]
      rintro ⟨c', t, e, h1, _⟩; cases e; exact h h1

/-- one character of a class, then any number of another -/
theorem full_head_star (p q : UInt8 → Bool) (s : Bytes) :
    (Re.seq (.cls p) (.star (.cls q))).full s = true ↔ ∃ c t, s = c :: t ∧ p c = true ∧ ∀ b ∈ t, q b = true := by
  unfold Re.full
  rw [decide_eq_true_eq]
  cases s with
  | nil => simp [Re.rest]
  | cons c s =>
    simp only [Re.rest]
    by_cases h : p c = true
    · simp only [h, if_true, List.flatMap_cons, List.flatMap_nil, List.append_nil, upToRest_cls]
      constructor
      · rintro ⟨_, h2⟩; exact ⟨c, s, rfl, h, h2⟩
      · rintro ⟨c', t, e, _, h2⟩; cases e; exact ⟨Nat.le_refl _, h2⟩
    · simp only [h, Bool.false_eq_true, if_false, List.flatMap_nil, List.not_mem_nil, false_iff]
      rintro ⟨c', t, e, h1, _⟩; cases e; exact h h1

end Verif
