import Verif.Lemmas.Json
/- Termination and progress of the JSON reader. -/
namespace Verif.Json

/-- the recursion bound was not hit and at most `n` bytes remain -/
def Tot {α : Type} (n : Nat) : Res α → Prop
  | .ok _ r => r.length ≤ n
  | .err e r => e ≠ .fuel ∧ r.length ≤ n

theorem Tot.mono {α : Type} {n m : Nat} {x : Res α} (h : Tot n x) (hnm : n ≤ m) : Tot m x := by
  cases x with
  | ok a r => simp only [Tot] at *; omega
  | err e r => simp only [Tot] at *; exact ⟨h.1, by omega⟩

theorem tot_ite {α : Type} {n : Nat} {p : Prop} [Decidable p] {x y : Res α} (hx : Tot n x) (hy : Tot n y) :
    Tot n (if p then x else y) := by split <;> assumption

theorem token_length {ch : UInt8} {s r : Bytes} (h : token ch s = some r) : r.length + 1 ≤ s.length := by
  have hl := skipWS_length s
  unfold token at h
  split at h
  · simp at h
  · rename_i c t he
    split at h
    · injection h with h; subst h; rw [he] at hl; simpa using hl
    · simp at h

theorem scanStr_length {t i r : Bytes} (h : scanStr t = some (i, r)) : r.length + 1 ≤ t.length := by
  fun_induction scanStr t generalizing i r with
  | case1 => simp at h
  | case2 => simp at h
  | case3 d t ih =>
    rw [Option.map_eq_some_iff] at h
    obtain ⟨⟨i', r'⟩, h1, h2⟩ := h
    injection h2 with h2 h3; subst h3
    have := ih h1; simp; omega
  | case4 t => injection h with h; injection h with h1 h2; subst h2; simp
  | case5 c t h1 h2 ih =>
    rw [Option.map_eq_some_iff] at h
    obtain ⟨⟨i', r'⟩, h1, h2⟩ := h
    injection h2 with h2 h3; subst h3
    have := ih h1; simp; omega

theorem tot_readStringBody (t : Bytes) : Tot t.length (readStringBody t) := by
  unfold readStringBody
  split
  · rename_i i r h; have := scanStr_length h; simp only [Tot]; omega
  · simp [Tot]

theorem tot_readString (s : Bytes) : Tot s.length (readString s) := by
  have hl := skipWS_length s
  unfold readString
  split
  · simp [Tot]
  · rename_i c t he
    rw [he] at hl; simp at hl
    exact tot_ite ((tot_readStringBody t).mono (by omega)) (by simp [Tot]; omega)

theorem tot_readLit (tok : Bytes) (v : Val) {e : Err} (he : e ≠ .fuel) (s : Bytes) : Tot s.length (readLit tok v e s) := by
  unfold readLit
  refine tot_ite (by simp [Tot, he]) (tot_ite (by simp [Tot]) (by simp [Tot, he]))

theorem tot_convNumber (F : FloatCodec) (t r : Bytes) : Tot r.length (convNumber F t r) := by
  unfold convNumber
  refine tot_ite ?_ ?_ <;> split <;> simp [Tot]

theorem tot_readNumber (F : FloatCodec) (s : Bytes) : Tot s.length (readNumber F s) :=
  (tot_convNumber F _ _).mono (List.dropWhile_suffix _).length_le

theorem tot_all (F : FloatCodec) (f : Nat) :
    (∀ s : Bytes, 3 * s.length + 1 ≤ f → Tot s.length (readValue F f s)) ∧
    (∀ s : Bytes, 3 * s.length + 3 ≤ f → Tot s.length (readObject F f s)) ∧
    (∀ m (s : Bytes), 3 * s.length + 2 ≤ f → Tot s.length (readObjectRest F f m s)) ∧
    (∀ s : Bytes, 3 * s.length + 2 ≤ f → Tot s.length (readArray F f s)) ∧
    (∀ l (s : Bytes), 3 * s.length + 1 ≤ f → Tot s.length (readArrayRest F f l s)) ∧
    (∀ s : Bytes, 3 * s.length + 2 ≤ f → Tot s.length (readPair F f s)) := by
  induction f with
  | zero =>
    refine ⟨?_, ?_, ?_, ?_, ?_, ?_⟩ <;> intros <;> omega
  | succ f ih =>
    obtain ⟨ihV, ihO, ihOR, ihA, ihAR, ihP⟩ := ih
    refine ⟨?_, ?_, ?_, ?_, ?_, ?_⟩
    · intro s hf
      have hl := skipWS_length s
      simp only [readValue]
      split
      · simp [Tot]
      · rename_i c t he
        rw [he] at hl; simp at hl
        have H := fun tok v e he => (tot_readLit tok v (e := e) he (c :: t)).mono (m := s.length) (by simpa using hl)
        refine tot_ite (H _ _ _ (by decide)) (tot_ite (H _ _ _ (by decide)) (tot_ite (H _ _ _ (by decide)) (tot_ite ?_
          (tot_ite ((tot_readNumber F _).mono (by simpa using hl)) (tot_ite ((ihO t (by omega)).mono (by omega))
            (tot_ite ((ihA t (by omega)).mono (by omega)) (by simp [Tot]; omega)))))))
        have := (tot_readStringBody t).mono (show t.length ≤ s.length by omega)
        split
        · rename_i a r h; rw [h] at this; exact this
        · rename_i e r h; rw [h] at this; exact this
    · intro s hf
      simp only [readObject]
      split
      · rename_i r h; have := token_length h; simp only [Tot]; omega
      · have := ihP s (by omega)
        split
        · rename_i e r h; rw [h] at this; exact this
        · rename_i k v r h; rw [h] at this; simp only [Tot] at this
          exact (ihOR _ r (by omega)).mono this
    · intro m s hf
      simp only [readObjectRest]
      split
      · rename_i r h; have := token_length h; simp only [Tot]; omega
      · split
        · have := skipWS_length s; simp only [Tot]; exact ⟨by decide, this⟩
        · rename_i s' h; have hl := token_length h
          have := ihP s' (by omega)
          split
          · rename_i e r h; rw [h] at this; exact Tot.mono (α := Val) (x := .err e r) this (by omega)
          · rename_i k v r h; rw [h] at this; simp only [Tot] at this
            exact (ihOR _ r (by omega)).mono (by omega)
    · intro s hf
      simp only [readArray]
      split
      · rename_i r h; have := token_length h; simp only [Tot]; omega
      · have := ihV s (by omega)
        split
        · rename_i e r h; rw [h] at this; exact this.2
        · rename_i v r h; rw [h] at this; simp only [Tot] at this
          exact (ihAR _ r (by omega)).mono this
    · intro l s hf
      simp only [readArrayRest]
      split
      · rename_i r h; have := token_length h; simp only [Tot]; omega
      · split
        · have := skipWS_length s; simp only [Tot]; exact ⟨by decide, this⟩
        · rename_i s' h; have hl := token_length h
          have := ihV s' (by omega)
          split
          · rename_i e r h; rw [h] at this; exact Tot.mono (α := Val) (x := .err e r) this (by omega)
          · rename_i v r h; rw [h] at this; simp only [Tot] at this
            exact (ihAR _ r (by omega)).mono (by omega)
    · intro s hf
      simp only [readPair]
      have hs := tot_readString s
      split
      · rename_i e r h; rw [h] at hs; exact hs
      · rename_i k r h; rw [h] at hs; simp only [Tot] at hs
        split
        · have := skipWS_length r; simp only [Tot]; exact ⟨by decide, by omega⟩
        · rename_i r' h'; have hl := token_length h'
          have := ihV r' (by omega)
          split
          · rename_i e r h; rw [h] at this; exact Tot.mono (α := Val) (x := .err e r) this (by omega)
          · rename_i v r h; rw [h] at this; simp only [Tot] at *; omega

/-- outcome of a `ReadEntry` that started with `n` unread bytes -/
def StepTot (n : Nat) : Step → Prop
  | .entry _ s => s.rest.length + 1 ≤ n ∧ s.initialized = true
  | .eof s => s.rest.length + 1 ≤ n
  | .err e s => e ≠ .fuel ∧ s.rest.length ≤ n

theorem tot_readBody (F : FloatCodec) (tl : TopLevel) (n : Int) (s : Bytes) :
    StepTot (s.length + 1) (readBody F tl n s) := by
  cases tl with
  | object =>
    have := (tot_all F (fuelFor s)).2.2.2.2.2 s (by unfold fuelFor; omega)
    simp only [readBody]
    split
    · rename_i k v r h; rw [h] at this; simp only [Tot] at this; simp [StepTot]; omega
    · rename_i e r h; rw [h] at this; simp only [Tot] at this; simp only [StepTot]; exact ⟨this.1, by omega⟩
  | array =>
    have := (tot_all F (fuelFor s)).1 s (by unfold fuelFor; omega)
    simp only [readBody]
    split
    · rename_i v r h; rw [h] at this; simp only [Tot] at this; simp [StepTot]; omega
    · rename_i e r h; rw [h] at this; simp only [Tot] at this; simp only [StepTot]; exact ⟨this.1, by omega⟩

theorem StepTot.mono {n m : Nat} {x : Step} (h : StepTot n x) (hnm : n ≤ m) : StepTot m x := by
  cases x with
  | entry e s => exact ⟨Nat.le_trans h.1 hnm, h.2⟩
  | eof s => exact Nat.le_trans h hnm
  | err e s => exact ⟨h.1, Nat.le_trans h.2 hnm⟩

theorem tot_readEntry (F : FloatCodec) (tl : TopLevel) (st : RState) :
    StepTot st.rest.length (readEntry F tl st) := by
  unfold readEntry
  split
  · split
    · rename_i r h; exact token_length h
    · split
      · exact ⟨by decide, skipWS_length _⟩
      · rename_i r h; exact (tot_readBody F tl _ r).mono (token_length h)
  · split
    · exact ⟨by decide, skipWS_length _⟩
    · rename_i r h
      split
      · rename_i r' h'
        have := token_length h
        have := token_length h'
        simp only [StepTot]; omega
      · exact (tot_readBody F tl _ r).mono (token_length h)

theorem tot_readLoop (F : FloatCodec) (tl : TopLevel) : ∀ (n : Nat) (st : RState), st.rest.length < n →
    (readLoop F tl n st).1.length ≤ st.rest.length ∧ (readLoop F tl n st).2 ≠ .outOfCalls ∧
      (readLoop F tl n st).2 ≠ .err .fuel
  | 0, _, h => by omega
  | n + 1, st, h => by
    have := tot_readEntry F tl st
    simp only [readLoop]
    split
    · simp
    · rename_i e s he; rw [he] at this; simp only [StepTot] at this; simp [this.1]
    · rename_i e s he; rw [he] at this; simp only [StepTot] at this
      have IH := tot_readLoop F tl n s (by omega)
      refine ⟨?_, IH.2⟩
      simp; omega

end Verif.Json
