import Verif.Lemmas.JsonBuf
import Verif.Lemmas.JsonTotal
/- Termination and progress of the JSON reader, for every size of its buffer and every text. -/
set_option autoImplicit false
namespace Verif.JsonBuf
open Json

/-- at most `n` bytes are unread -/
def Good (n : Nat) (st : St) : Prop := ∃ s, Inv st s ∧ s.length ≤ n

theorem Good.mono {n m : Nat} {st : St} (h : Good n st) (hn : n ≤ m) : Good m st := by
  obtain ⟨s, h1, h2⟩ := h
  exact ⟨s, h1, by omega⟩

theorem Good.discard {n : Nat} {st : St} (h : Good n st) (k : Nat) : Good n (discard k st) := by
  obtain ⟨s, h1, h2⟩ := h
  refine ⟨st.buf.drop k ++ st.src, ⟨rfl, h1.size, h1.eof⟩, ?_⟩
  rw [← h1.rest] at h2
  simp only [List.length_append, List.length_drop] at h2 ⊢; omega

theorem Good.prev {n : Nat} {st : St} (h : Good n st) (k : Nat) : Good n { st with prev := k } := by
  obtain ⟨s, h1, h2⟩ := h
  exact ⟨s, ⟨h1.rest, h1.size, h1.eof⟩, h2⟩

theorem Good.peek {n : Nat} {st : St} (h : Good n st) : Good n (peek st) := by
  obtain ⟨s, h1, h2⟩ := h
  exact ⟨s, (peek_inv h1).1, h2⟩

theorem extend_good (E : Env) (orig : Bytes) {n : Nat} {st : St} (h : Good n st) :
    Good n (extend E orig st).2 ∧ ∀ b, (extend E orig st).1 = some b → b.data.length + (extend E orig st).2.src.length = orig.length + st.src.length := by
  obtain ⟨s, h1, h2⟩ := h
  obtain ⟨o, st', e, i, _, _, hc⟩ := extend_spec E orig h1
  rw [e]
  refine ⟨⟨_, i, ?_⟩, ?_⟩
  · have := h1.rest
    rw [← this] at h2
    simp only [List.length_append] at h2; omega
  · intro b hb
    rcases hc with ⟨_, rfl, _⟩ | ⟨_, rfl, _⟩
    · simp at hb
    · have hb' : (⟨orig ++ st'.buf, E.spare (orig ++ st'.buf)⟩ : Slice) = b := Option.some.inj hb
      subst hb'
      have := congrArg List.length i.rest
      simp only [List.length_append] at this ⊢; omega

theorem more_good (E : Env) (b : Slice) (i : Nat) {n : Nat} {st : St} (h : Good n st) :
    Good n (if b.data.length ≤ i then extend E b.data st else (some b, st)).2 ∧
      ∀ b', (if b.data.length ≤ i then extend E b.data st else (some b, st)).1 = some b' →
        b'.data.length + (if b.data.length ≤ i then extend E b.data st else (some b, st)).2.src.length = b.data.length + st.src.length := by
  split
  · exact extend_good E _ h
  · exact ⟨h, by rintro _ ⟨⟩; rfl⟩

theorem span_good (E : Env) (p : UInt8 → Bool) {m : Nat} (n : Nat) (b : Slice) (i : Nat) (st : St) (h : Good m st) : Good m (span E p n b i st).2.2 := by
  induction n generalizing b i st with
  | zero => exact h
  | succ n ih =>
    rw [span]
    have hm := (more_good E b i h).1
    split
    · rename_i e; rw [e] at hm; exact hm
    · rename_i e; rw [e] at hm
      split
      · exact hm
      · split
        · exact ih _ _ _ hm
        · exact hm

theorem current_good (E : Env) {n : Nat} {st : St} (h : Good n st) : Good n (current E st).2 := by
  obtain ⟨s, h1, h2⟩ := h
  obtain ⟨b, st', e, _, i, _⟩ := current_spec E h1
  rw [e]
  exact ⟨_, i, Nat.le_trans (skipWS_length s) h2⟩

/-- a character that is found is a byte less -/
theorem token_good (E : Env) (ch : UInt8) {n : Nat} {st : St} (h : Good n st) :
    ∃ ok st', token E ch st = (ok, st') ∧ Good n st' ∧ (ok = true → 1 ≤ n ∧ Good (n - 1) st') := by
  obtain ⟨s, h1, h2⟩ := h
  obtain ⟨ok, st', e, _, hc⟩ := token_spec E ch h1
  rcases hc with ⟨rfl, r, hr, i⟩ | ⟨rfl, _, i⟩
  · have := Json.token_length hr
    exact ⟨true, st', e, ⟨r, i, by omega⟩, fun _ => ⟨by omega, r, i, by omega⟩⟩
  · exact ⟨false, st', e, ⟨_, i, Nat.le_trans (skipWS_length s) h2⟩, by simp⟩

/-- the recursion bound was not hit and at most `n` bytes are unread -/
def TotB {α : Type} (n : Nat) : Res α → Prop
  | .ok _ st => Good n st
  | .err e st => e ≠ .fuel ∧ Good n st
  | .panic => True

theorem TotB.mono {α : Type} {n m : Nat} {x : Res α} (h : TotB n x) (hnm : n ≤ m) : TotB m x := by
  cases x with
  | ok a r => exact Good.mono h hnm
  | err e r => exact ⟨h.1, h.2.mono hnm⟩
  | panic => trivial

theorem totB_ite {α : Type} {n : Nat} {p : Prop} [Decidable p] {x y : Res α} (hx : p → TotB n x) (hy : ¬p → TotB n y) :
    TotB n (if p then x else y) := by
  split
  · exact hx (by assumption)
  · exact hy (by assumption)

theorem totB_readLit (E : Env) (tok : Bytes) (v : Val) {e : Err} (he : e ≠ .fuel) {n : Nat} {st : St} (h : Good n st) : TotB n (readLit E tok v e st) := by
  unfold readLit
  dsimp only
  have h0 := current_good E h
  have h1 : Good n (if (current E st).1.data.length < tok.length then extend E (current E st).1.data (current E st).2 else (some (current E st).1, (current E st).2)).2 := by
    split
    · exact (extend_good _ _ h0).1
    · exact h0
  split
  · rename_i e; rw [e] at h1; exact ⟨he, h1⟩
  · rename_i e; rw [e] at h1
    split
    · exact h1.discard _
    · exact ⟨he, h1⟩

theorem totB_scan (E : Env) {m : Nat} (n : Nat) (b : Slice) (i : Nat) (st : St) (h : Good m st) (h1 : b.data.length + st.src.length + 2 ≤ n + i)
    (h2 : i ≤ b.data.length + st.src.length + 1) : TotB m (scan E n b i st) := by
  induction n generalizing b i st with
  | zero => omega
  | succ n ih =>
    rw [scan]
    have hm := more_good E b i h
    split
    · rename_i e; rw [e] at hm; exact ⟨by decide, hm.1⟩
    · rename_i b' st' e; rw [e] at hm
      have hl := hm.2 b' rfl
      dsimp only at hl
      split
      · trivial
      · rename_i c hc
        have hi : i < b'.data.length := by
          rw [List.getElem?_eq_some_iff] at hc
          exact hc.1
        split
        · exact ih _ _ _ hm.1 (by omega) (by omega)
        · split
          · split
            · trivial
            · exact (hm.1.discard _).prev _
          · exact ih _ _ _ hm.1 (by omega) (by omega)

theorem totB_readString (E : Env) {n : Nat} {st : St} (h : Good n st) : TotB n (readString E st) := by
  unfold readString
  dsimp only
  split
  · exact totB_scan _ _ _ _ _ (current_good E h) (by omega) (by omega)
  · exact ⟨by decide, current_good E h⟩

theorem totB_readNumber (F : FloatCodec) (E : Env) {n : Nat} {st : St} (h : Good n st) : TotB n (readNumber F E st) := by
  unfold readNumber
  dsimp only
  have h1 := span_good E isNumCh ((current E st).1.data.length + (current E st).2.src.length + 1) (current E st).1 0 (current E st).2 (current_good E h)
  have h2 := Json.tot_convNumber F (((span E isNumCh ((current E st).1.data.length + (current E st).2.src.length + 1) (current E st).1 0 (current E st).2)).1.data.take
    (span E isNumCh ((current E st).1.data.length + (current E st).2.src.length + 1) (current E st).1 0 (current E st).2).2.1) []
  split
  · exact (h1.discard _).prev _
  · rename_i e; rw [e] at h2; exact ⟨h2.1, (h1.discard _).prev _⟩

/-- a first character is a byte -/
theorem head_good (E : Env) {n : Nat} {st : St} (h : Good n st) {c : UInt8} (hc : (current E st).1.data.head? = some c) :
    ∃ st', token E c (current E st).2 = (true, st') ∧ 1 ≤ n ∧ Good (n - 1) st' := by
  obtain ⟨s, h1, h2⟩ := h
  obtain ⟨b, st', e, hb, i, _, hne, _⟩ := current_spec E h1
  rw [e] at hc ⊢
  dsimp only at hc ⊢
  rw [hb] at hc
  have hs : (skipWS s).head? = some c := by rw [← head_buf i hne, hc]
  obtain ⟨t, ht⟩ : ∃ t, skipWS s = c :: t := by
    cases hx : skipWS s with
    | nil => rw [hx] at hs; simp at hs
    | cons x t => rw [hx] at hs; simp at hs; exact ⟨t, by rw [hs]⟩
  obtain ⟨ok, st'', e2, h3, h4⟩ := token_good E c (n := n) ⟨_, i, Nat.le_trans (skipWS_length s) h2⟩
  obtain ⟨ok', st3, e3, _, h5⟩ := token_spec E c i
  rw [e2] at e3; cases e3
  rcases h5 with ⟨rfl, _⟩ | ⟨rfl, h5, _⟩
  · exact ⟨st'', e2, h4 rfl⟩
  · exfalso
    have : Json.token c (skipWS s) = some t := by
      rw [ht]
      unfold Json.token
      rw [skipWS_cons_eq ht]; simp
    rw [this] at h5; cases h5

theorem totB_all (F : FloatCodec) (E : Env) (f : Nat) :
    (∀ n st, Good n st → 3 * n + 1 ≤ f → TotB n (readValue F E f st)) ∧
    (∀ n st, Good n st → 3 * n + 3 ≤ f → TotB n (readObject F E f st)) ∧
    (∀ n m st, Good n st → 3 * n + 2 ≤ f → TotB n (readObjectRest F E f m st)) ∧
    (∀ n st, Good n st → 3 * n + 2 ≤ f → TotB n (readArray F E f st)) ∧
    (∀ n l st, Good n st → 3 * n + 1 ≤ f → TotB n (readArrayRest F E f l st)) ∧
    (∀ n st, Good n st → 3 * n + 2 ≤ f → TotB n (readPair F E f st)) := by
  induction f with
  | zero =>
    refine ⟨?_, ?_, ?_, ?_, ?_, ?_⟩ <;> intros <;> omega
  | succ f ih =>
    obtain ⟨ihV, ihO, ihOR, ihA, ihAR, ihP⟩ := ih
    refine ⟨?_, ?_, ?_, ?_, ?_, ?_⟩
    · intro n st h hf
      rw [readValue]
      have hh := fun c => head_good E h (c := c)
      have h := current_good E h
      generalize current E st = p at h hh
      obtain ⟨b, st1⟩ := p
      dsimp only at h hh ⊢
      cases hd : b.data.head? with
      | none => exact h
      | some c =>
        obtain ⟨st', e, h1, h2⟩ := hh c hd
        dsimp only
        refine totB_ite (fun _ => totB_readLit _ _ _ (by decide) h) fun _ => totB_ite (fun _ => totB_readLit _ _ _ (by decide) h) fun _ =>
          totB_ite (fun _ => totB_readLit _ _ _ (by decide) h) fun _ => totB_ite (fun _ => ?_) fun _ => totB_ite (fun _ => totB_readNumber F E h) fun _ =>
          totB_ite (fun hc => ?_) fun _ => totB_ite (fun hc => ?_) fun _ => h
        · have hs := totB_readString E h
          generalize readString E st1 = q at hs
          cases q with
          | ok => exact hs
          | err => exact hs
          | panic => trivial
        · subst hc; rw [e]
          exact (ihO _ _ h2 (by omega)).mono (by omega)
        · subst hc; rw [e]
          exact (ihA _ _ h2 (by omega)).mono (by omega)
    · intro n st h hf
      rw [readObject]
      obtain ⟨ok, st', e, h1, h2⟩ := token_good E 125 h
      rw [e]
      cases ok with
      | true => exact h1
      | false =>
        dsimp only
        have := ihP n st' h1 (by omega)
        split
        · trivial
        · rename_i e; rw [e] at this; exact this
        · rename_i e; rw [e] at this; exact ihOR _ _ _ this (by omega)
    · intro n m st h hf
      rw [readObjectRest]
      obtain ⟨ok, st', e, h1, h2⟩ := token_good E 125 h
      rw [e]
      cases ok with
      | true => exact h1
      | false =>
        dsimp only
        obtain ⟨ok, st2, e, h3, h4⟩ := token_good E 44 h1
        rw [e]
        cases ok with
        | false => exact ⟨by decide, h3⟩
        | true =>
          dsimp only
          obtain ⟨h5, h6⟩ := h4 rfl
          have := ihP (n - 1) st2 h6 (by omega)
          split
          · trivial
          · rename_i e; rw [e] at this; exact TotB.mono (α := Val) (x := .err _ _) this (by omega)
          · rename_i e; rw [e] at this; exact (ihOR _ _ _ this (by omega)).mono (by omega)
    · intro n st h hf
      rw [readArray]
      obtain ⟨ok, st', e, h1, h2⟩ := token_good E 93 h
      rw [e]
      cases ok with
      | true => exact h1
      | false =>
        dsimp only
        have := ihV n st' h1 (by omega)
        split
        · trivial
        · rename_i e; rw [e] at this; exact this.2
        · rename_i e; rw [e] at this; exact ihAR _ _ _ this (by omega)
    · intro n l st h hf
      rw [readArrayRest]
      obtain ⟨ok, st', e, h1, h2⟩ := token_good E 93 h
      rw [e]
      cases ok with
      | true => exact h1
      | false =>
        dsimp only
        obtain ⟨ok, st2, e, h3, h4⟩ := token_good E 44 h1
        rw [e]
        cases ok with
        | false => exact ⟨by decide, current_good E h3⟩
        | true =>
          dsimp only
          obtain ⟨h5, h6⟩ := h4 rfl
          have := ihV (n - 1) st2 h6 (by omega)
          split
          · trivial
          · rename_i e; rw [e] at this; exact TotB.mono (α := Val) (x := .err _ _) this (by omega)
          · rename_i e; rw [e] at this; exact (ihAR _ _ _ this (by omega)).mono (by omega)
    · intro n st h hf
      rw [readPair]
      have hs := totB_readString E h
      split
      · trivial
      · rename_i e; rw [e] at hs; exact hs
      · rename_i k st1 e; rw [e] at hs
        obtain ⟨ok, st2, e, h3, h4⟩ := token_good E 58 (show Good n st1 from hs)
        rw [e]
        cases ok with
        | false => exact ⟨by decide, h3⟩
        | true =>
          dsimp only
          obtain ⟨h5, h6⟩ := h4 rfl
          have := ihV (n - 1) st2 h6 (by omega)
          split
          · trivial
          · rename_i e; rw [e] at this; exact TotB.mono (α := Bytes × Val) (x := .err _ _) this (by omega)
          · rename_i e; rw [e] at this; exact Good.mono this (by omega)

/-- outcome of a `ReadEntry` that started with `n` unread bytes -/
def StepTotB (n : Nat) : Step → Prop
  | .entry _ r => 1 ≤ n ∧ Good (n - 1) r.st
  | .eof _ => True
  | .err e _ => e ≠ .fuel
  | .panic => True

theorem good_rest {n : Nat} {st : St} (h : Good n st) : st.rest.length ≤ n := by
  obtain ⟨s, h1, h2⟩ := h
  have : st.rest = s := h1.rest
  rw [this]; exact h2

theorem totB_readBody (F : FloatCodec) (E : Env) (tl : TopLevel) (i : Int) {n f : Nat} {st : St} (hn : 1 ≤ n) (h : Good (n - 1) st) (hf : 3 * (n - 1) + 2 ≤ f) :
    StepTotB n (readBody F E tl f i st) := by
  cases tl with
  | object =>
    have := (totB_all F E f).2.2.2.2.2 (n - 1) st h hf
    simp only [readBody]
    split
    · rename_i e; rw [e] at this; exact ⟨hn, this⟩
    · rename_i e; rw [e] at this; exact this.1
    · trivial
  | array =>
    have := (totB_all F E f).1 (n - 1) st h (by omega)
    simp only [readBody]
    split
    · rename_i e; rw [e] at this; exact ⟨hn, this⟩
    · rename_i e; rw [e] at this; exact this.1
    · trivial

theorem Good.exact {n : Nat} {st : St} (h : Good n st) : Good st.rest.length st := by
  obtain ⟨s, h1, _⟩ := h
  have : st.rest = s := h1.rest
  exact ⟨s, h1, by rw [this]; exact Nat.le_refl _⟩

theorem StepTotB.mono {n m : Nat} {x : Step} (h : StepTotB n x) (hnm : n ≤ m) : StepTotB m x := by
  cases x with
  | entry e s => exact ⟨Nat.le_trans h.1 hnm, h.2.mono (by omega)⟩
  | eof s => trivial
  | err e s => exact h
  | panic => trivial

theorem totB_readEntry (F : FloatCodec) (E : Env) (tl : TopLevel) {n : Nat} {r : Reader} (h : Good n r.st) : StepTotB n (readEntry F E tl r) := by
  have h := h.peek
  unfold readEntry
  dsimp only
  split
  · obtain ⟨ok, st', e, h1, h2⟩ := token_good E (closeCh tl) h
    rw [e]
    cases ok with
    | true => trivial
    | false =>
      dsimp only
      obtain ⟨ok, st2, e, h3, h4⟩ := token_good E 44 h1
      rw [e]
      cases ok with
      | false => exact (by decide : Err.separator ≠ .fuel)
      | true =>
        dsimp only
        obtain ⟨h5, h6⟩ := h4 rfl
        have h7 := good_rest h6
        exact (totB_readBody F E tl _ (n := st2.rest.length + 1) (by omega) (by simpa using h6.exact) (by unfold fuelFor; omega)).mono (by omega)
  · obtain ⟨ok, st', e, h1, h2⟩ := token_good E (openCh tl) h
    rw [e]
    cases ok with
    | false => exact (by decide : Err.openTop ≠ .fuel)
    | true =>
      dsimp only
      obtain ⟨h5, h6⟩ := h2 rfl
      have h7 := good_rest h6
      obtain ⟨ok, st2, e, h3, h4⟩ := token_good E (closeCh tl) h6.exact
      rw [e]
      cases ok with
      | true => trivial
      | false =>
        dsimp only
        exact (totB_readBody F E tl _ (n := st'.rest.length + 1) (by omega) (by simpa using h3) (by unfold fuelFor; omega)).mono (by omega)

theorem totB_readLoop (F : FloatCodec) (E : Env) (tl : TopLevel) : ∀ (n : Nat) (r : Reader) (k : Nat), Good k r.st → k < n →
    (readLoop F E tl n r).1.length ≤ k ∧ (readLoop F E tl n r).2 ≠ .outOfCalls ∧ (readLoop F E tl n r).2 ≠ .err .fuel
  | 0, _, _, _, h => by omega
  | n + 1, r, k, hg, h => by
    have := totB_readEntry F E tl hg
    simp only [readLoop]
    split
    · simp
    · rename_i e s he; rw [he] at this; simp only [StepTotB] at this; simp [this]
    · simp
    · rename_i e s he; rw [he] at this
      have IH := totB_readLoop F E tl n s (k - 1) this.2 (by have := this.1; omega)
      have := this.1
      refine ⟨?_, IH.2⟩
      simp; omega

end Verif.JsonBuf
