import Verif.Model.JsonBuf
/-
A JSON reader only takes bytes from the front of its source.
-/
set_option autoImplicit false
namespace Verif.JsonBuf
open Json

theorem fill_src (st : St) : (fill st).src <:+ st.src := by
  unfold fill
  split
  · exact List.suffix_refl _
  · exact List.drop_suffix _ _

theorem fillLoop_src (n : Nat) (st : St) : (fillLoop n st).src <:+ st.src := by
  induction n generalizing st with
  | zero => exact List.suffix_refl _
  | succ n ih =>
    rw [fillLoop]
    split
    · exact (ih _).trans (fill_src _)
    · exact List.suffix_refl _

theorem peek_suffix (st : St) : (peek st).src <:+ st.src := by
  unfold peek
  dsimp only
  split <;> exact fillLoop_src _ _

theorem extend_src (E : Env) (orig : Bytes) (st : St) : (extend E orig st).2.src <:+ st.src := by
  unfold extend
  dsimp only
  split <;> exact peek_suffix _

theorem more_src (E : Env) (b : Slice) (i : Nat) (st : St) : (if b.data.length ≤ i then extend E b.data st else (some b, st)).2.src <:+ st.src := by
  split
  · exact extend_src _ _ _
  · exact List.suffix_refl _

theorem span_src (E : Env) (p : UInt8 → Bool) (n : Nat) (b : Slice) (i : Nat) (st : St) : (span E p n b i st).2.2.src <:+ st.src := by
  induction n generalizing b i st with
  | zero => exact List.suffix_refl _
  | succ n ih =>
    rw [span]
    have h := more_src E b i st
    split
    · rename_i e; rw [e] at h; exact h
    · rename_i e; rw [e] at h
      split
      · exact h
      · split
        · exact (ih _ _ _).trans h
        · exact h

theorem current_src (E : Env) (st : St) : (current E st).2.src <:+ st.src := by
  unfold current
  dsimp only
  split <;> exact span_src E isWhitespace _ _ _ { st with prev := 0 }

theorem token_src (E : Env) (ch : UInt8) (st : St) : (token E ch st).2.src <:+ st.src := by
  unfold token
  dsimp only
  split <;> exact current_src E st

/-- the state of a result -/
def Res.SrcOf {α : Type} (r : Res α) (s : Bytes) : Prop :=
  match r with
  | .ok _ st => st.src <:+ s
  | .err _ st => st.src <:+ s
  | .panic => True

theorem Res.SrcOf.mono {α : Type} {r : Res α} {s t : Bytes} (h : r.SrcOf s) (hs : s <:+ t) : r.SrcOf t := by
  cases r with
  | ok a st => exact List.IsSuffix.trans h hs
  | err e st => exact List.IsSuffix.trans h hs
  | panic => trivial

theorem ite_src {α : Type} {p : Prop} [Decidable p] {a b : Res α} {s : Bytes} (ha : a.SrcOf s) (hb : b.SrcOf s) : (if p then a else b).SrcOf s := by
  split
  · exact ha
  · exact hb

theorem readLit_src (E : Env) (tok : Bytes) (v : Val) (e : Err) (st : St) : (readLit E tok v e st).SrcOf st.src := by
  unfold readLit
  dsimp only
  have h0 := current_src E st
  have h : (if (current E st).1.data.length < tok.length then extend E (current E st).1.data (current E st).2 else (some (current E st).1, (current E st).2)).2.src
      <:+ st.src := by
    split
    · exact (extend_src _ _ _).trans h0
    · exact h0
  split
  · rename_i e; rw [e] at h; exact h
  · rename_i e; rw [e] at h
    split <;> exact h

theorem scan_src (E : Env) (n : Nat) (b : Slice) (i : Nat) (st : St) : (scan E n b i st).SrcOf st.src := by
  induction n generalizing b i st with
  | zero => exact List.suffix_refl _
  | succ n ih =>
    rw [scan]
    have h := more_src E b i st
    split
    · rename_i e; rw [e] at h; exact h
    · rename_i e; rw [e] at h
      split
      · trivial
      · split
        · exact (ih _ _ _).mono h
        · split
          · split
            · trivial
            · exact h
          · exact (ih _ _ _).mono h

theorem readString_src (E : Env) (st : St) : (readString E st).SrcOf st.src := by
  unfold readString
  dsimp only
  split
  · exact (scan_src _ _ _ _ _).mono (current_src E st)
  · exact current_src E st

theorem readNumber_src (F : FloatCodec) (E : Env) (st : St) : (readNumber F E st).SrcOf st.src := by
  unfold readNumber
  dsimp only
  have h := (span_src E isNumCh ((current E st).1.data.length + (current E st).2.src.length + 1) (current E st).1 0 (current E st).2).trans (current_src E st)
  split <;> exact h

mutual
theorem readValue_src (F : FloatCodec) (E : Env) : ∀ (f : Nat) (st : St), (readValue F E f st).SrcOf st.src
  | 0, st => List.suffix_refl _
  | f + 1, st => by
    rw [readValue]
    have h := current_src E st
    generalize current E st = p at h
    obtain ⟨b, st1⟩ := p
    dsimp only at h ⊢
    cases b.data.head? with
    | none => exact h
    | some c =>
      dsimp only
      refine ite_src ((readLit_src _ _ _ _ _).mono h) (ite_src ((readLit_src _ _ _ _ _).mono h) (ite_src ((readLit_src _ _ _ _ _).mono h)
        (ite_src ?_ (ite_src ((readNumber_src _ _ _).mono h) (ite_src ((readObject_src F E f _).mono ((token_src _ _ _).trans h))
          (ite_src ((readArray_src F E f _).mono ((token_src _ _ _).trans h)) h))))))
      have hs := (readString_src E st1).mono h
      generalize readString E st1 = q at hs
      cases q with
      | ok => exact hs
      | err => exact hs
      | panic => trivial
theorem readObject_src (F : FloatCodec) (E : Env) : ∀ (f : Nat) (st : St), (readObject F E f st).SrcOf st.src
  | 0, st => List.suffix_refl _
  | f + 1, st => by
    rw [readObject]
    have h := token_src E 125 st
    split
    · rename_i e; rw [e] at h; exact h
    · rename_i st1 e; rw [e] at h
      have hp := (readPair_src F E f st1).mono h
      split
      · trivial
      · rename_i e; rw [e] at hp; exact hp
      · rename_i e; rw [e] at hp; exact (readObjectRest_src F E f _ _).mono hp
theorem readObjectRest_src (F : FloatCodec) (E : Env) : ∀ (f : Nat) (m : List (Bytes × Val)) (st : St), (readObjectRest F E f m st).SrcOf st.src
  | 0, m, st => List.suffix_refl _
  | f + 1, m, st => by
    rw [readObjectRest]
    have h := token_src E 125 st
    split
    · rename_i e; rw [e] at h; exact h
    · rename_i st1 e; rw [e] at h
      have h2 := (token_src E 44 st1).trans h
      split
      · rename_i e; rw [e] at h2; exact h2
      · rename_i st2 e; rw [e] at h2
        have hp := (readPair_src F E f st2).mono h2
        split
        · trivial
        · rename_i e; rw [e] at hp; exact hp
        · rename_i e; rw [e] at hp; exact (readObjectRest_src F E f _ _).mono hp
theorem readArray_src (F : FloatCodec) (E : Env) : ∀ (f : Nat) (st : St), (readArray F E f st).SrcOf st.src
  | 0, st => List.suffix_refl _
  | f + 1, st => by
    rw [readArray]
    have h := token_src E 93 st
    split
    · rename_i e; rw [e] at h; exact h
    · rename_i st1 e; rw [e] at h
      have hp := (readValue_src F E f st1).mono h
      split
      · trivial
      · rename_i e; rw [e] at hp; exact hp
      · rename_i e; rw [e] at hp; exact (readArrayRest_src F E f _ _).mono hp
theorem readArrayRest_src (F : FloatCodec) (E : Env) : ∀ (f : Nat) (l : List Val) (st : St), (readArrayRest F E f l st).SrcOf st.src
  | 0, l, st => List.suffix_refl _
  | f + 1, l, st => by
    rw [readArrayRest]
    have h := token_src E 93 st
    split
    · rename_i e; rw [e] at h; exact h
    · rename_i st1 e; rw [e] at h
      have h2 := (token_src E 44 st1).trans h
      split
      · rename_i e; rw [e] at h2; exact (current_src _ _).trans h2
      · rename_i st2 e; rw [e] at h2
        have hp := (readValue_src F E f st2).mono h2
        split
        · trivial
        · rename_i e; rw [e] at hp; exact hp
        · rename_i e; rw [e] at hp; exact (readArrayRest_src F E f _ _).mono hp
theorem readPair_src (F : FloatCodec) (E : Env) : ∀ (f : Nat) (st : St), (readPair F E f st).SrcOf st.src
  | 0, st => List.suffix_refl _
  | f + 1, st => by
    rw [readPair]
    have h := readString_src E st
    split
    · trivial
    · rename_i e; rw [e] at h; exact h
    · rename_i k st1 e; rw [e] at h
      have h2 := (token_src E 58 st1).trans h
      split
      · rename_i e; rw [e] at h2; exact h2
      · rename_i st2 e; rw [e] at h2
        have hp := (readValue_src F E f st2).mono h2
        split
        · trivial
        · rename_i e; rw [e] at hp; exact hp
        · rename_i e; rw [e] at hp; exact hp
end

/-- the state of a step -/
def Step.SrcOf (r : Step) (s : Bytes) : Prop :=
  match r with
  | .entry _ r => r.st.src <:+ s
  | .eof r => r.st.src <:+ s
  | .err _ r => r.st.src <:+ s
  | .panic => True

theorem readBody_src (F : FloatCodec) (E : Env) (tl : TopLevel) (f : Nat) (n : Int) (st : St) : (readBody F E tl f n st).SrcOf st.src := by
  unfold readBody
  cases tl with
  | object =>
    have h := readPair_src F E f st
    dsimp only
    split <;> first | trivial | (rename_i e; rw [e] at h; exact h)
  | array =>
    have h := readValue_src F E f st
    dsimp only
    split <;> first | trivial | (rename_i e; rw [e] at h; exact h)

theorem Step.SrcOf.mono {r : Step} {s t : Bytes} (h : r.SrcOf s) (hs : s <:+ t) : r.SrcOf t := by
  cases r with
  | entry e r => exact List.IsSuffix.trans h hs
  | eof r => exact List.IsSuffix.trans h hs
  | err e r => exact List.IsSuffix.trans h hs
  | panic => trivial

/-- `ReadEntry` first fills the buffer -/
theorem readEntry_src (F : FloatCodec) (E : Env) (tl : TopLevel) (r : Reader) : (readEntry F E tl r).SrcOf (peek r.st).src := by
  unfold readEntry
  dsimp only
  split
  · have h := token_src E (closeCh tl) (peek r.st)
    split
    · rename_i e; rw [e] at h; exact h
    · rename_i st1 e; rw [e] at h
      have h2 := (token_src E 44 st1).trans h
      split
      · rename_i e; rw [e] at h2; exact h2
      · rename_i e; rw [e] at h2; exact (readBody_src _ _ _ _ _ _).mono h2
  · have h := token_src E (openCh tl) (peek r.st)
    split
    · rename_i e; rw [e] at h; exact h
    · rename_i st1 e; rw [e] at h
      have h2 := (token_src E (closeCh tl) st1).trans h
      split
      · rename_i e; rw [e] at h2; exact h2
      · rename_i e; rw [e] at h2; exact (readBody_src _ _ _ _ _ _).mono h2

/-- a text that fits the buffer is in it after the first read, if the source delivers all it has -/
theorem peek_all (size : Nat) (s : Bytes) (hs : s.length ≤ max size 16) : (peek (new size [] s)).src = [] := by
  have h : (fillLoop (s.length + 1) (new size [] s)).src = [] := by
    rw [fillLoop]
    have hl : (new size [] s).buf.length < blockSize ∧ (new size [] s).buf.length < (new size [] s).size ∧ (new size [] s).eof = false := by
      refine ⟨by simp [new, blockSize], by simp [new]; omega, rfl⟩
    rw [if_pos hl]
    have hf : (fill (new size [] s)).src = [] := by
      unfold fill
      split
      · assumption
      · simp only [St.portion, new, List.length_nil, Nat.sub_zero]
        exact List.drop_eq_nil_of_le hs
    exact List.suffix_nil.1 (hf ▸ fillLoop_src _ _)
  unfold peek
  dsimp only
  split <;> exact h

end Verif.JsonBuf
