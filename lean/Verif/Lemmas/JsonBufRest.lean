import Verif.Model.JsonBuf
/-
A JSON reader only takes bytes from the front of what is unread.
-/
set_option autoImplicit false
namespace Verif.JsonBuf
open Json

theorem fill_rest (st : St) : (fill st).rest <:+ st.rest := by
  unfold fill
  split
  · exact List.suffix_refl _
  · simp only [St.rest, List.append_assoc, List.take_append_drop]
    exact List.suffix_refl _

theorem discard_rest (n : Nat) (st : St) : (discard n st).rest <:+ st.rest := by
  have : st.rest = st.buf.take n ++ (discard n st).rest := by
    simp only [St.rest, discard]
    rw [← List.append_assoc, List.take_append_drop]
  rw [this]
  exact List.suffix_append _ _

theorem fillLoop_rest (n : Nat) (st : St) : (fillLoop n st).rest <:+ st.rest := by
  induction n generalizing st with
  | zero => exact List.suffix_refl _
  | succ n ih =>
    rw [fillLoop]
    split
    · exact (ih _).trans (fill_rest _)
    · exact List.suffix_refl _

theorem peek_rest (st : St) : (peek st).rest <:+ st.rest := by
  unfold peek
  dsimp only
  split <;> exact fillLoop_rest _ _

theorem extend_rest (E : Env) (orig : Bytes) (st : St) : (extend E orig st).2.rest <:+ st.rest := by
  unfold extend
  dsimp only
  split <;> exact (peek_rest _).trans (discard_rest _ { st with prev := st.prev + st.buf.length })

theorem more_rest (E : Env) (b : Slice) (i : Nat) (st : St) : (if b.data.length ≤ i then extend E b.data st else (some b, st)).2.rest <:+ st.rest := by
  split
  · exact extend_rest _ _ _
  · exact List.suffix_refl _

theorem span_rest (E : Env) (p : UInt8 → Bool) (n : Nat) (b : Slice) (i : Nat) (st : St) : (span E p n b i st).2.2.rest <:+ st.rest := by
  induction n generalizing b i st with
  | zero => exact List.suffix_refl _
  | succ n ih =>
    rw [span]
    have h := more_rest E b i st
    split
    · rename_i e; rw [e] at h; exact h
    · rename_i e; rw [e] at h
      split
      · exact h
      · split
        · exact (ih _ _ _).trans h
        · exact h

theorem discard_rest' (n k : Nat) (st : St) : ({ discard n st with prev := k } : St).rest <:+ st.rest := discard_rest n st

theorem current_rest (E : Env) (st : St) : (current E st).2.rest <:+ st.rest := by
  unfold current
  have h : (span E isWhitespace (st.buf.length + st.src.length + 1) ⟨st.buf, st.size - st.pos - st.buf.length⟩ 0 { st with prev := 0 }).2.2.rest
      <:+ st.rest := span_rest E isWhitespace _ _ _ { st with prev := 0 }
  dsimp only
  generalize span E isWhitespace (st.buf.length + st.src.length + 1) ⟨st.buf, st.size - st.pos - st.buf.length⟩ 0 { st with prev := 0 } = x at h
  obtain ⟨b, i, st1⟩ := x
  dsimp only at h ⊢
  split
  · exact (discard_rest' _ 0 _).trans h
  · exact h

theorem token_rest (E : Env) (ch : UInt8) (st : St) : (token E ch st).2.rest <:+ st.rest := by
  unfold token
  dsimp only
  split
  · exact (discard_rest _ _).trans (current_rest E st)
  · exact current_rest E st

/-- the state of a result -/
def Res.RestOf {α : Type} (r : Res α) (s : Bytes) : Prop :=
  match r with
  | .ok _ st => st.rest <:+ s
  | .err _ st => st.rest <:+ s
  | .panic => True

theorem Res.RestOf.mono {α : Type} {r : Res α} {s t : Bytes} (h : r.RestOf s) (hs : s <:+ t) : r.RestOf t := by
  cases r with
  | ok a st => exact List.IsSuffix.trans h hs
  | err e st => exact List.IsSuffix.trans h hs
  | panic => trivial

theorem ite_rest {α : Type} {p : Prop} [Decidable p] {a b : Res α} {s : Bytes} (ha : a.RestOf s) (hb : b.RestOf s) : (if p then a else b).RestOf s := by
  split
  · exact ha
  · exact hb

theorem readLit_rest (E : Env) (tok : Bytes) (v : Val) (e : Err) (st : St) : (readLit E tok v e st).RestOf st.rest := by
  unfold readLit
  dsimp only
  have h0 := current_rest E st
  have h : (if (current E st).1.data.length < tok.length then extend E (current E st).1.data (current E st).2 else (some (current E st).1, (current E st).2)).2.rest
      <:+ st.rest := by
    split
    · exact (extend_rest _ _ _).trans h0
    · exact h0
  split
  · rename_i e; rw [e] at h; exact h
  · rename_i e; rw [e] at h
    split
    · exact (discard_rest _ _).trans h
    · exact h

theorem scan_rest (E : Env) (n : Nat) (b : Slice) (i : Nat) (st : St) : (scan E n b i st).RestOf st.rest := by
  induction n generalizing b i st with
  | zero => exact List.suffix_refl _
  | succ n ih =>
    rw [scan]
    have h := more_rest E b i st
    split
    · rename_i e; rw [e] at h; exact h
    · rename_i e; rw [e] at h
      split
      · trivial
      · split
        · exact (ih _ _ _).mono h
        · split
          · split
            · trivial
            · exact (discard_rest _ _).trans h
          · exact (ih _ _ _).mono h

theorem readString_rest (E : Env) (st : St) : (readString E st).RestOf st.rest := by
  unfold readString
  dsimp only
  split
  · exact (scan_rest _ _ _ _ _).mono (current_rest E st)
  · exact current_rest E st

theorem readNumber_rest (F : FloatCodec) (E : Env) (st : St) : (readNumber F E st).RestOf st.rest := by
  unfold readNumber
  have h := current_rest E st
  generalize current E st = x at h
  obtain ⟨b, st1⟩ := x
  dsimp only at h ⊢
  have h2 := (span_rest E isNumCh (b.data.length + st1.src.length + 1) b 0 st1).trans h
  generalize span E isNumCh (b.data.length + st1.src.length + 1) b 0 st1 = y at h2
  obtain ⟨b2, i, st2⟩ := y
  dsimp only at h2 ⊢
  have h3 := (discard_rest' (i - st2.prev) 0 st2).trans h2
  generalize ({ discard (i - st2.prev) st2 with prev := 0 } : St) = st3 at h3
  split
  · exact h3
  · exact h3

mutual
theorem readValue_rest (F : FloatCodec) (E : Env) : ∀ (f : Nat) (st : St), (readValue F E f st).RestOf st.rest
  | 0, st => List.suffix_refl _
  | f + 1, st => by
    rw [readValue]
    have h := current_rest E st
    generalize current E st = p at h
    obtain ⟨b, st1⟩ := p
    dsimp only at h ⊢
    cases b.data.head? with
    | none => exact h
    | some c =>
      dsimp only
      refine ite_rest ((readLit_rest _ _ _ _ _).mono h) (ite_rest ((readLit_rest _ _ _ _ _).mono h) (ite_rest ((readLit_rest _ _ _ _ _).mono h)
        (ite_rest ?_ (ite_rest ((readNumber_rest _ _ _).mono h) (ite_rest ((readObject_rest F E f _).mono ((token_rest _ _ _).trans h))
          (ite_rest ((readArray_rest F E f _).mono ((token_rest _ _ _).trans h)) h))))))
      have hs := (readString_rest E st1).mono h
      generalize readString E st1 = q at hs
      cases q with
      | ok => exact hs
      | err => exact hs
      | panic => trivial
theorem readObject_rest (F : FloatCodec) (E : Env) : ∀ (f : Nat) (st : St), (readObject F E f st).RestOf st.rest
  | 0, st => List.suffix_refl _
  | f + 1, st => by
    rw [readObject]
    have h := token_rest E 125 st
    split
    · rename_i e; rw [e] at h; exact h
    · rename_i st1 e; rw [e] at h
      have hp := (readPair_rest F E f st1).mono h
      split
      · trivial
      · rename_i e; rw [e] at hp; exact hp
      · rename_i e; rw [e] at hp; exact (readObjectRest_rest F E f _ _).mono hp
theorem readObjectRest_rest (F : FloatCodec) (E : Env) : ∀ (f : Nat) (m : List (Bytes × Val)) (st : St), (readObjectRest F E f m st).RestOf st.rest
  | 0, m, st => List.suffix_refl _
  | f + 1, m, st => by
    rw [readObjectRest]
    have h := token_rest E 125 st
    split
    · rename_i e; rw [e] at h; exact h
    · rename_i st1 e; rw [e] at h
      have h2 := (token_rest E 44 st1).trans h
      split
      · rename_i e; rw [e] at h2; exact h2
      · rename_i st2 e; rw [e] at h2
        have hp := (readPair_rest F E f st2).mono h2
        split
        · trivial
        · rename_i e; rw [e] at hp; exact hp
        · rename_i e; rw [e] at hp; exact (readObjectRest_rest F E f _ _).mono hp
theorem readArray_rest (F : FloatCodec) (E : Env) : ∀ (f : Nat) (st : St), (readArray F E f st).RestOf st.rest
  | 0, st => List.suffix_refl _
  | f + 1, st => by
    rw [readArray]
    have h := token_rest E 93 st
    split
    · rename_i e; rw [e] at h; exact h
    · rename_i st1 e; rw [e] at h
      have hp := (readValue_rest F E f st1).mono h
      split
      · trivial
      · rename_i e; rw [e] at hp; exact hp
      · rename_i e; rw [e] at hp; exact (readArrayRest_rest F E f _ _).mono hp
theorem readArrayRest_rest (F : FloatCodec) (E : Env) : ∀ (f : Nat) (l : List Val) (st : St), (readArrayRest F E f l st).RestOf st.rest
  | 0, l, st => List.suffix_refl _
  | f + 1, l, st => by
    rw [readArrayRest]
    have h := token_rest E 93 st
    split
    · rename_i e; rw [e] at h; exact h
    · rename_i st1 e; rw [e] at h
      have h2 := (token_rest E 44 st1).trans h
      split
      · rename_i e; rw [e] at h2; exact (current_rest _ _).trans h2
      · rename_i st2 e; rw [e] at h2
        have hp := (readValue_rest F E f st2).mono h2
        split
        · trivial
        · rename_i e; rw [e] at hp; exact hp
        · rename_i e; rw [e] at hp; exact (readArrayRest_rest F E f _ _).mono hp
theorem readPair_rest (F : FloatCodec) (E : Env) : ∀ (f : Nat) (st : St), (readPair F E f st).RestOf st.rest
  | 0, st => List.suffix_refl _
  | f + 1, st => by
    rw [readPair]
    have h := readString_rest E st
    split
    · trivial
    · rename_i e; rw [e] at h; exact h
    · rename_i k st1 e; rw [e] at h
      have h2 := (token_rest E 58 st1).trans h
      split
      · rename_i e; rw [e] at h2; exact h2
      · rename_i st2 e; rw [e] at h2
        have hp := (readValue_rest F E f st2).mono h2
        split
        · trivial
        · rename_i e; rw [e] at hp; exact hp
        · rename_i e; rw [e] at hp; exact hp
end

/-- the state of a step -/
def Step.RestOf (r : Step) (s : Bytes) : Prop :=
  match r with
  | .entry _ r => r.st.rest <:+ s
  | .eof r => r.st.rest <:+ s
  | .err _ r => r.st.rest <:+ s
  | .panic => True

theorem readBody_rest (F : FloatCodec) (E : Env) (tl : TopLevel) (f : Nat) (n : Int) (st : St) : (readBody F E tl f n st).RestOf st.rest := by
  unfold readBody
  cases tl with
  | object =>
    have h := readPair_rest F E f st
    dsimp only
    split <;> first | trivial | (rename_i e; rw [e] at h; exact h)
  | array =>
    have h := readValue_rest F E f st
    dsimp only
    split <;> first | trivial | (rename_i e; rw [e] at h; exact h)

theorem Step.RestOf.mono {r : Step} {s t : Bytes} (h : r.RestOf s) (hs : s <:+ t) : r.RestOf t := by
  cases r with
  | entry e r => exact List.IsSuffix.trans h hs
  | eof r => exact List.IsSuffix.trans h hs
  | err e r => exact List.IsSuffix.trans h hs
  | panic => trivial

/-- `ReadEntry` first fills the buffer -/
theorem readEntry_rest (F : FloatCodec) (E : Env) (tl : TopLevel) (r : Reader) : (readEntry F E tl r).RestOf (peek r.st).rest := by
  unfold readEntry
  dsimp only
  split
  · have h := token_rest E (closeCh tl) (peek r.st)
    split
    · rename_i e; rw [e] at h; exact h
    · rename_i st1 e; rw [e] at h
      have h2 := (token_rest E 44 st1).trans h
      split
      · rename_i e; rw [e] at h2; exact h2
      · rename_i e; rw [e] at h2; exact (readBody_rest _ _ _ _ _ _).mono h2
  · have h := token_rest E (openCh tl) (peek r.st)
    split
    · rename_i e; rw [e] at h; exact h
    · rename_i st1 e; rw [e] at h
      have h2 := (token_rest E (closeCh tl) st1).trans h
      split
      · rename_i e; rw [e] at h2; exact h2
      · rename_i e; rw [e] at h2; exact (readBody_rest _ _ _ _ _ _).mono h2

end Verif.JsonBuf
