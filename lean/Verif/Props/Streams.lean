import Verif.Model.Streams
import Verif.Lemmas.Map
import Verif.Props.Json
import Verif.Props.Cbor
import Verif.Model.DocJson
/-
C12 (paging), C13 (copying and iterating), C49 (reading everything), C14 (converting), C27
(counting bytes), for every behaviour of reader and writer.
-/
set_option autoImplicit false
namespace Verif.Streams

/-! ## Specification: what a reader delivers -/

/-- the first reads deliver exactly these entries, leading from `s` to `s'` -/
inductive Yields {σ : Type} (rd : Reader σ) : σ → List Entry → σ → Prop
  | nil (s : σ) : Yields rd s [] s
  | cons {s s₁ s' : σ} {e : Entry} {es : List Entry} : rd s = (.entry e, s₁) → Yields rd s₁ es s' → Yields rd s (e :: es) s'

/-- reading until the first failure delivers these entries and that failure -/
def Drains {σ : Type} (rd : Reader σ) (s : σ) (es : List Entry) (x : RErr) (s' : σ) : Prop :=
  ∃ s₁, Yields rd s es s₁ ∧ rd s₁ = (.fail x, s')

/-- the writer accepts these entries in order -/
inductive Accepts {τ : Type} (w : Writer τ) : τ → List Entry → τ → Prop
  | nil (t : τ) : Accepts w t [] t
  | cons {t t₁ t' : τ} {e : Entry} {es : List Entry} : w e t = (none, t₁) → Accepts w t₁ es t' → Accepts w t (e :: es) t'

theorem Yields.det {σ : Type} {rd : Reader σ} {s s₁ s₂ : σ} {es : List Entry} (h₁ : Yields rd s es s₁) (h₂ : Yields rd s es s₂) : s₁ = s₂ := by
  induction h₁ with
  | nil s => cases h₂; rfl
  | cons h _ ih =>
    cases h₂ with
    | cons h' h'' => rw [h] at h'; cases h'; exact ih h''

theorem Yields.append {σ : Type} {rd : Reader σ} {s s₁ s₂ : σ} {es fs : List Entry} (h₁ : Yields rd s es s₁) (h₂ : Yields rd s₁ fs s₂) :
    Yields rd s (es ++ fs) s₂ := by
  induction h₁ with
  | nil s => exact h₂
  | cons h _ ih => exact .cons h (ih h₂)

theorem Yields.split {σ : Type} {rd : Reader σ} {s s₂ : σ} {es fs : List Entry} (h : Yields rd s (es ++ fs) s₂) :
    ∃ s₁, Yields rd s es s₁ ∧ Yields rd s₁ fs s₂ := by
  induction es generalizing s with
  | nil => exact ⟨s, .nil s, h⟩
  | cons e es ih =>
    cases h with
    | cons h h' =>
      obtain ⟨s₁, a, b⟩ := ih h'
      exact ⟨s₁, .cons h a, b⟩

/-- what is delivered is determined -/
theorem Drains.det {σ : Type} {rd : Reader σ} {s s₁ s₂ : σ} {es fs : List Entry} {x y : RErr} (h₁ : Drains rd s es x s₁) (h₂ : Drains rd s fs y s₂) :
    es = fs ∧ x = y ∧ s₁ = s₂ := by
  obtain ⟨m₁, a₁, b₁⟩ := h₁
  obtain ⟨m₂, a₂, b₂⟩ := h₂
  induction a₁ generalizing fs with
  | nil s =>
    cases a₂ with
    | nil => rw [b₁] at b₂; cases b₂; exact ⟨rfl, rfl, rfl⟩
    | cons h _ => rw [b₁] at h; cases h
  | cons h _ ih =>
    cases a₂ with
    | nil => rw [h] at b₂; cases b₂
    | cons h' h'' =>
      rw [h] at h'; cases h'
      obtain ⟨rfl, r⟩ := ih b₁ h''
      exact ⟨rfl, r⟩

/-! ## C12 – paging -/

theorem skip_yields {σ : Type} {rd : Reader σ} {s s' : σ} {es : List Entry} (h : Yields rd s es s') : skip rd es.length s = (none, 0, s') := by
  induction h with
  | nil s => rfl
  | cons h _ ih => simp only [List.length_cons, skip, h, ih]

theorem skip_fails {σ : Type} {rd : Reader σ} {s s₁ s' : σ} {es : List Entry} {x : RErr} (h : Yields rd s es s₁) (hx : rd s₁ = (.fail x, s'))
    (n : Nat) : skip rd (es.length + (n + 1)) s = (some x, n + 1, s') := by
  induction h with
  | nil s => simp [skip, hx]
  | cons h _ ih => rw [List.length_cons, Nat.add_right_comm, skip, h]; exact ih hx

theorem paged_zero {σ : Type} (rd : Reader σ) (o : Int) (ho : o ≤ 0) (s : σ) : paged rd ⟨o, 0, s⟩ = (.fail .eof, ⟨o, 0, s⟩) := by
  simp [paged, show ¬ 0 < o by omega]

theorem paged_read {σ : Type} (rd : Reader σ) (o l : Int) (ho : o ≤ 0) (hl : l ≠ 0) (s : σ) :
    paged rd ⟨o, l, s⟩ = ((rd s).1, ⟨o, l - 1, (rd s).2⟩) := by
  simp [paged, show ¬ 0 < o by omega, hl]

theorem paged_yields {σ : Type} {rd : Reader σ} {s s' : σ} {es : List Entry} (h : Yields rd s es s') (o l : Int) (ho : o ≤ 0)
    (hl : l < 0 ∨ (es.length : Int) ≤ l) : Yields (paged rd) ⟨o, l, s⟩ es ⟨o, l - es.length, s'⟩ := by
  induction h generalizing l with
  | nil s => simpa using Yields.nil (rd := paged rd) ⟨o, l, s⟩
  | cons h _ ih =>
    simp only [List.length_cons, Int.natCast_add, Int.cast_ofNat_Int] at hl ⊢
    have := ih (l - 1) (by omega)
    rw [show ∀ k : Int, l - 1 - k = l - (k + 1) by intro k; omega] at this
    exact .cons (by rw [paged_read rd o l ho (by omega), h]) this

/-- the first call after skipping behaves as if nothing had been skipped -/
theorem paged_after_skip {σ : Type} {rd : Reader σ} {s s₁ : σ} {es : List Entry} (h : Yields rd s es s₁) (l : Int) :
    (paged rd ⟨es.length, l, s⟩) = paged rd ⟨0, l, s₁⟩ := by
  cases es with
  | nil => cases h; rfl
  | cons e es =>
    have hs := skip_yields h
    unfold paged
    simp only [List.length_cons, Int.natCast_add, Int.cast_ofNat_Int] at *
    rw [if_pos (by omega), show ((es.length : Int) + 1).toNat = es.length + 1 by omega, hs]
    simp only [Int.lt_irrefl, if_false]

theorem drains_head {σ : Type} {rd : Reader σ} {s s₁ s' : σ} {es : List Entry} {x : RErr} (he : rd s = rd s₁) (h : Drains rd s₁ es x s') :
    Drains rd s es x s' := by
  obtain ⟨m, a, b⟩ := h
  cases a with
  | nil => exact ⟨s, .nil s, by rw [he]; exact b⟩
  | cons h1 h2 => exact ⟨m, .cons (by rw [he]; exact h1) h2, b⟩

/-- With at least `o + l` entries there, the page is entries `o` to `o + l`, then end-of-file, and the
underlying reader stands right after them. -/
theorem C12_full_page {σ : Type} (rd : Reader σ) (s s' : σ) (es : List Entry) (o l : Nat) (h : Yields rd s es s') (hlen : es.length = o + l) :
    Drains (paged rd) ⟨o, l, s⟩ (es.drop o) .eof ⟨0, 0, s'⟩ := by
  obtain ⟨s₁, h1, h2⟩ := (show Yields rd s (es.take o ++ es.drop o) s' by rw [List.take_append_drop]; exact h).split
  have ho : (es.take o).length = o := by simp; omega
  have hd : (es.drop o).length = l := by simp; omega
  have hy := paged_yields h2 0 l (by omega) (by omega)
  rw [hd, Int.sub_self] at hy
  have : Drains (paged rd) ⟨0, l, s₁⟩ (es.drop o) .eof ⟨0, 0, s'⟩ := ⟨_, hy, paged_zero rd 0 (by omega) s'⟩
  refine drains_head ?_ this
  have := paged_after_skip h1 (l : Int)
  rwa [ho] at this

/-- With fewer, or without a limit, everything from `o` on is delivered and the reader's own failure (or
end) surfaces. -/
theorem C12_partial_page {σ : Type} (rd : Reader σ) (s s' : σ) (es : List Entry) (x : RErr) (o : Nat) (l : Int) (h : Drains rd s es x s')
    (hl : l < 0 ∨ (es.length : Int) < o + l) :
    ∃ p, Drains (paged rd) ⟨o, l, s⟩ (es.drop o) x p ∧ p.inner = s' := by
  obtain ⟨m, hy, hx⟩ := h
  by_cases ho : o ≤ es.length
  · obtain ⟨s₁, h1, h2⟩ := (show Yields rd s (es.take o ++ es.drop o) m by rw [List.take_append_drop]; exact hy).split
    have hol : (es.take o).length = o := by simp; omega
    have hd : (es.drop o).length = es.length - o := by simp
    have hl' : l < 0 ∨ ((es.drop o).length : Int) ≤ l := by omega
    have hyp := paged_yields h2 0 l (by omega) hl'
    have hfail : paged rd ⟨0, l - (es.drop o).length, m⟩ = (.fail x, ⟨0, l - (es.drop o).length - 1, s'⟩) := by
      rw [paged_read rd 0 _ (by omega) (by omega), hx]
    refine ⟨_, drains_head ?_ ⟨_, hyp, hfail⟩, rfl⟩
    have := paged_after_skip h1 l
    rwa [hol] at this
  · obtain ⟨n, rfl⟩ : ∃ n, o = es.length + (n + 1) := ⟨o - es.length - 1, by omega⟩
    have hs := skip_fails hy hx n
    have hdrop : es.drop (es.length + (n + 1)) = [] := List.drop_eq_nil_of_le (by omega)
    rw [hdrop]
    refine ⟨{ offset := (n + 1 : Nat), limit := l, inner := s' }, ⟨_, .nil _, ?_⟩, rfl⟩
    unfold paged
    rw [if_pos (by simp; omega)]
    simp only [Int.toNat_natCast, hs]

/-- Without a limit, even an endless reader is delivered from `o` on, entry by entry. -/
theorem C12_unlimited {σ : Type} (rd : Reader σ) (s s' : σ) (es : List Entry) (o : Nat) (l : Int) (hl : l < 0) (h : Yields rd s es s') (ho : o < es.length) :
    ∃ p, Yields (paged rd) ⟨o, l, s⟩ (es.drop o) p ∧ p.inner = s' := by
  obtain ⟨s₁, h1, h2⟩ := (show Yields rd s (es.take o ++ es.drop o) s' by rw [List.take_append_drop]; exact h).split
  have hol : (es.take o).length = o := by simp; omega
  have hyp := paged_yields h2 0 l (by omega) (.inl hl)
  have he := paged_after_skip h1 l
  rw [hol] at he
  refine ⟨⟨0, l - (es.drop o).length, s'⟩, ?_, rfl⟩
  · cases hd : es.drop o with
    | nil => have := congrArg List.length hd; simp at this; omega
    | cons e fs =>
      rw [hd] at hyp
      cases hyp with
      | cons a b => exact .cons (by rw [he]; exact a) b

/-- A negative offset skips nothing. -/
theorem C12_negative_offset {σ : Type} (rd : Reader σ) (s s' : σ) (es : List Entry) (o : Int) (l : Nat) (ho : o ≤ 0) (h : Yields rd s es s')
    (hlen : es.length = l) : Drains (paged rd) ⟨o, l, s⟩ es .eof ⟨o, 0, s'⟩ := by
  have hy := paged_yields h o l ho (by omega)
  rw [hlen, Int.sub_self] at hy
  exact ⟨_, hy, paged_zero rd o ho s'⟩

/-- an example reader: it delivers a list, then fails -/
def listReader (x : RErr) : Reader (List Entry)
  | [] => (.fail x, [])
  | e :: es => (.entry e, es)

theorem listReader_drains (x : RErr) (es : List Entry) : Drains (listReader x) es es x [] := by
  refine ⟨[], ?_, rfl⟩
  induction es with
  | nil => exact .nil _
  | cons e es ih => exact .cons rfl ih

example : ∃ p, Drains (paged (listReader (.other b!"bad"))) ⟨1, 5, [{ value := .null }, { value := .bool true }]⟩ [{ value := .bool true }] (.other b!"bad") p ∧ p.inner = [] :=
  C12_partial_page _ _ _ _ _ 1 5 (listReader_drains _ _) (by decide)
example : Drains (paged (listReader (.other b!"bad"))) ⟨1, 1, [{ value := .null }, { value := .bool true }]⟩ [{ value := .bool true }] .eof ⟨0, 0, []⟩ :=
  C12_full_page _ _ _ [{ value := .null }, { value := .bool true }] 1 1 (.cons rfl (.cons rfl (.nil _))) rfl

/-! ## C13 – copying and iterating -/

theorem copy_yields {σ τ : Type} {rd : Reader σ} {w : Writer τ} {s s' : σ} {t t' : τ} {es : List Entry} (h : Yields rd s es s') (ha : Accepts w t es t')
    (n : Nat) : copy rd w (es.length + n) s t = copy rd w n s' t' := by
  induction h generalizing t with
  | nil s => cases ha; simp
  | cons h _ ih =>
    cases ha with
    | cons a b => rw [List.length_cons, Nat.add_right_comm, copy, h]; simp only [a]; exact ih b

/-- more rounds do not change a result -/
theorem copy_mono {σ τ : Type} {rd : Reader σ} {w : Writer τ} {n m : Nat} {s : σ} {t : τ} {r : CopyRes × σ × τ} (h : copy rd w n s t = some r) (hm : n ≤ m) :
    copy rd w m s t = some r := by
  induction n generalizing m s t with
  | zero => cases h
  | succ n ih =>
    obtain ⟨m, rfl⟩ : ∃ k, m = k + 1 := ⟨m - 1, by omega⟩
    unfold copy at h ⊢
    split
    · simp_all
    · simp_all
    · rename_i e s' hrd
      rw [hrd] at h
      simp only at h
      split
      · rename_i x t' hw; rw [hw] at h; exact h
      · rename_i t' hw; rw [hw] at h; exact ih h (by omega)

/-- every result of `Copy` has one of three explanations -/
theorem copy_cases {σ τ : Type} {rd : Reader σ} {w : Writer τ} {n : Nat} {s : σ} {t : τ} {r : CopyRes} {s' : σ} {t' : τ} (h : copy rd w n s t = some (r, s', t')) :
    (r = .ok ∧ ∃ es, Drains rd s es .eof s' ∧ Accepts w t es t') ∨
    (∃ x es, r = .readErr x ∧ Drains rd s es (.other x) s' ∧ Accepts w t es t') ∨
    (∃ x es e t₁, r = .writeErr x ∧ Yields rd s (es ++ [e]) s' ∧ Accepts w t es t₁ ∧ w e t₁ = (some x, t')) := by
  induction n generalizing s t with
  | zero => cases h
  | succ n ih =>
    unfold copy at h
    split at h
    · rename_i s₁ hrd
      simp only [Option.some.injEq, Prod.mk.injEq] at h
      obtain ⟨rfl, rfl, rfl⟩ := h
      exact .inl ⟨rfl, [], ⟨s, .nil s, hrd⟩, .nil t⟩
    · rename_i x s₁ hrd
      simp only [Option.some.injEq, Prod.mk.injEq] at h
      obtain ⟨rfl, rfl, rfl⟩ := h
      exact .inr (.inl ⟨x, [], rfl, ⟨s, .nil s, hrd⟩, .nil t⟩)
    · rename_i e s₁ hrd
      split at h
      · rename_i x t₁ hw
        simp only [Option.some.injEq, Prod.mk.injEq] at h
        obtain ⟨rfl, rfl, rfl⟩ := h
        exact .inr (.inr ⟨x, [], e, t, rfl, .cons hrd (.nil _), .nil t, hw⟩)
      · rename_i t₁ hw
        rcases ih h with ⟨rfl, es, ⟨m, a, b⟩, c⟩ | ⟨x, es, rfl, ⟨m, a, b⟩, c⟩ | ⟨x, es, f, t₂, rfl, a, b, c⟩
        · exact .inl ⟨rfl, e :: es, ⟨m, .cons hrd a, b⟩, .cons hw c⟩
        · exact .inr (.inl ⟨x, e :: es, rfl, ⟨m, .cons hrd a, b⟩, .cons hw c⟩)
        · exact .inr (.inr ⟨x, e :: es, f, t₂, rfl, .cons hrd a, .cons hw b, c⟩)

/-- Success means: the reader reached end-of-file and the writer accepted exactly its entries, in order; … -/
theorem C13_copy_ok_iff {σ τ : Type} (rd : Reader σ) (w : Writer τ) (s s' : σ) (t t' : τ) :
    (∃ n, copy rd w n s t = some (.ok, s', t')) ↔ ∃ es, Drains rd s es .eof s' ∧ Accepts w t es t' := by
  constructor
  · rintro ⟨n, h⟩
    rcases copy_cases h with ⟨_, h⟩ | ⟨_, _, h, _⟩ | ⟨_, _, _, _, h, _⟩
    · exact h
    · cases h
    · cases h
  · rintro ⟨es, ⟨m, a, b⟩, c⟩
    refine ⟨es.length + 1, ?_⟩
    rw [copy_yields a c, copy, b]

/-- … a read error means: it is the reader's, and everything before it was written; … -/
theorem C13_copy_readErr_iff {σ τ : Type} (rd : Reader σ) (w : Writer τ) (s s' : σ) (t t' : τ) (x : Bytes) :
    (∃ n, copy rd w n s t = some (.readErr x, s', t')) ↔ ∃ es, Drains rd s es (.other x) s' ∧ Accepts w t es t' := by
  constructor
  · rintro ⟨n, h⟩
    rcases copy_cases h with ⟨h, _⟩ | ⟨_, es, h, h1, h2⟩ | ⟨_, _, _, _, h, _⟩
    · cases h
    · cases h; exact ⟨es, h1, h2⟩
    · cases h
  · rintro ⟨es, ⟨m, a, b⟩, c⟩
    refine ⟨es.length + 1, ?_⟩
    rw [copy_yields a c, copy, b]

/-- … a write error means: the writer refused an entry after accepting all earlier ones, and nothing more
was read. -/
theorem C13_copy_writeErr_iff {σ τ : Type} (rd : Reader σ) (w : Writer τ) (s s' : σ) (t t' : τ) (x : Bytes) :
    (∃ n, copy rd w n s t = some (.writeErr x, s', t')) ↔
      ∃ es e t₁, Yields rd s (es ++ [e]) s' ∧ Accepts w t es t₁ ∧ w e t₁ = (some x, t') := by
  constructor
  · rintro ⟨n, h⟩
    rcases copy_cases h with ⟨h, _⟩ | ⟨_, es, h, h1, h2⟩ | ⟨_, es, e, t₁, h, h1⟩
    · cases h
    · cases h
    · cases h; exact ⟨es, e, t₁, h1⟩
  · rintro ⟨es, e, t₁, hy, ha, hw⟩
    obtain ⟨s₁, h1, h2⟩ := hy.split
    cases h2 with
    | cons h3 h4 =>
      cases h4
      refine ⟨es.length + 1, ?_⟩
      rw [copy_yields h1 ha, copy, h3]
      simp only [hw]

/-- It stops whenever the reader does. -/
theorem C13_copy_terminates {σ τ : Type} (rd : Reader σ) (w : Writer τ) (s s' : σ) (es : List Entry) (x : RErr) (h : Drains rd s es x s') (t : τ) :
    ∃ r, copy rd w (es.length + 1) s t = some r := by
  obtain ⟨m, a, b⟩ := h
  induction a generalizing t with
  | nil s => cases x <;> exact ⟨_, by rw [copy, b]⟩
  | cons h _ ih =>
    rename_i _ _ _ e _ _
    cases hw : w e t with
    | mk o t₁ =>
      cases o with
      | some y => exact ⟨(.writeErr y, _, t₁), by rw [List.length_cons, copy, h]; simp only [hw]; rfl⟩
      | none =>
        obtain ⟨r, hr⟩ := ih t₁ b
        exact ⟨r, by rw [List.length_cons, copy, h]; simp only [hw]; exact hr⟩

/-- a writer that collects entries and refuses the ones with a null value -/
def pickyWriter : Writer (List Entry) := fun e t => if e.value = .null then (some b!"null", t) else (none, t ++ [e])

example : copy (listReader .eof) pickyWriter 5 [{ value := .bool true }, { value := .null }, { value := .bool false }] [] =
    some (.writeErr b!"null", [{ value := .bool false }], [{ value := .bool true }]) := by decide +kernel
example : copy (listReader .eof) pickyWriter 5 [{ value := .bool true }] [] = some (.ok, [], [{ value := .bool true }]) := by decide +kernel

/-- the callback is called with numbers `num, num+1, …` on these entries without error -/
inductive Called {τ : Type} (fn : Callback τ) : Nat → τ → List Entry → τ → Prop
  | nil (i : Nat) (t : τ) : Called fn i t [] t
  | cons {i : Nat} {t t₁ t' : τ} {e : Entry} {es : List Entry} : fn i e t = (none, t₁) → Called fn (i + 1) t₁ es t' → Called fn i t (e :: es) t'

theorem each_yields {σ τ : Type} {rd : Reader σ} {fn : Callback τ} {s s' : σ} {t t' : τ} {es : List Entry} {i : Nat} (h : Yields rd s es s')
    (ha : Called fn i t es t') (n : Nat) : eachEntry rd fn (es.length + n) i s t = eachEntry rd fn n (i + es.length) s' t' := by
  induction h generalizing t i with
  | nil s => cases ha; simp
  | cons h _ ih =>
    cases ha with
    | cons a b =>
      rw [List.length_cons, Nat.add_right_comm, eachEntry, h]; simp only [a]
      rw [ih b, show ∀ k : Nat, i + 1 + k = i + (k + 1) by omega]

theorem each_cases {σ τ : Type} {rd : Reader σ} {fn : Callback τ} {n i : Nat} {s : σ} {t : τ} {r : EachRes} {s' : σ} {t' : τ} (h : eachEntry rd fn n i s t = some (r, s', t')) :
    (∃ x es, Drains rd s es x s' ∧ Called fn i t es t' ∧ r = if x.text = b!"EOF" then .ok else .readErr (i + es.length) x.text) ∨
    (∃ x es e t₁, Yields rd s (es ++ [e]) s' ∧ Called fn i t es t₁ ∧ fn (i + es.length) e t₁ = (some x, t') ∧ r = if x = b!"EOF" then .ok else .fnErr x) := by
  induction n generalizing s t i with
  | zero => cases h
  | succ n ih =>
    unfold eachEntry at h
    split at h
    · rename_i x s₁ hrd
      simp only [Option.some.injEq, Prod.mk.injEq] at h
      obtain ⟨rfl, rfl, rfl⟩ := h
      exact .inl ⟨x, [], ⟨s, .nil s, hrd⟩, .nil i t, rfl⟩
    · rename_i e s₁ hrd
      split at h
      · rename_i x t₁ hw
        simp only [Option.some.injEq, Prod.mk.injEq] at h
        obtain ⟨rfl, rfl, rfl⟩ := h
        exact .inr ⟨x, [], e, t, .cons hrd (.nil _), .nil i t, hw, rfl⟩
      · rename_i t₁ hw
        have hadd : ∀ k : Nat, i + 1 + k = i + (k + 1) := by intro k; omega
        rcases ih h with ⟨x, es, ⟨m, a, b⟩, c, d⟩ | ⟨x, es, f, t₂, a, b, c, d⟩
        · exact .inl ⟨x, e :: es, ⟨m, .cons hrd a, b⟩, .cons hw c, by rw [d, List.length_cons, hadd]⟩
        · exact .inr ⟨x, e :: es, f, t₂, .cons hrd a, .cons hw b, by rw [List.length_cons, ← hadd]; exact c, d⟩

/-- Iterating calls the function on exactly the entries, in order, numbered from 0; it ends well when
the reader fails with an error that reads "EOF" or the function asks to stop with one. -/
theorem C13_each_ok_iff {σ τ : Type} (rd : Reader σ) (fn : Callback τ) (s s' : σ) (t t' : τ) :
    (∃ n, eachEntry rd fn n 0 s t = some (.ok, s', t')) ↔
      (∃ x es, x.text = b!"EOF" ∧ Drains rd s es x s' ∧ Called fn 0 t es t') ∨
      (∃ es e t₁, Yields rd s (es ++ [e]) s' ∧ Called fn 0 t es t₁ ∧ fn es.length e t₁ = (some b!"EOF", t')) := by
  constructor
  · rintro ⟨n, h⟩
    rcases each_cases h with ⟨x, es, a, b, c⟩ | ⟨x, es, e, t₁, a, b, c, d⟩
    · split at c
      · exact .inl ⟨x, es, by assumption, a, b⟩
      · cases c
    · split at d
      · rename_i hx; subst hx; rw [Nat.zero_add] at c; exact .inr ⟨es, e, t₁, a, b, c⟩
      · cases d
  · rintro (⟨x, es, hx, ⟨m, a, b⟩, c⟩ | ⟨es, e, t₁, a, b, c⟩)
    · refine ⟨es.length + 1, ?_⟩
      rw [each_yields a c, eachEntry, b]
      simp [hx]
    · obtain ⟨s₁, h1, h2⟩ := a.split
      cases h2 with
      | cons h3 h4 =>
        cases h4
        refine ⟨es.length + 1, ?_⟩
        rw [each_yields h1 b, Nat.zero_add, eachEntry, h3]
        simp [c]

/-- A read error is reported with the number of the row it belongs to. -/
theorem C13_each_readErr_iff {σ τ : Type} (rd : Reader σ) (fn : Callback τ) (s s' : σ) (t t' : τ) (i : Nat) (x : Bytes) :
    (∃ n, eachEntry rd fn n 0 s t = some (.readErr i x, s', t')) ↔
      ∃ es y, es.length = i ∧ y.text = x ∧ x ≠ b!"EOF" ∧ Drains rd s es y s' ∧ Called fn 0 t es t' := by
  constructor
  · rintro ⟨n, h⟩
    rcases each_cases h with ⟨y, es, a, b, c⟩ | ⟨y, es, e, t₁, a, b, c, d⟩
    · split at c
      · cases c
      · rename_i hne
        simp only [EachRes.readErr.injEq, Nat.zero_add] at c
        exact ⟨es, y, c.1.symm, c.2.symm, by rw [c.2]; exact hne, a, b⟩
    · split at d <;> cases d
  · rintro ⟨es, y, rfl, rfl, hne, ⟨m, a, b⟩, c⟩
    refine ⟨es.length + 1, ?_⟩
    rw [each_yields a c, eachEntry, b]
    simp [hne]

/-- The two loops differ on errors that only read like end-of-file: iterating takes them for the end,
copying does not. -/
theorem C13_copy_and_each_differ :
    copy (listReader (.other b!"EOF")) pickyWriter 2 [] [] = some (.readErr b!"EOF", [], []) ∧
    eachEntry (listReader (.other b!"EOF")) (fun _ _ t => (none, t)) 2 0 [] () = some (.ok, [], ()) := by decide +kernel

/-! ## C49 – reading everything -/

theorem readAllArray_yields {σ : Type} {rd : Reader σ} {s s' : σ} {es : List Entry} (h : Yields rd s es s') (n i : Nat) (acc : List Val) :
    readAllArray rd (es.length + n) i s acc = readAllArray rd n (i + es.length) s' (acc ++ es.map (·.value)) := by
  induction h generalizing i acc with
  | nil s => simp
  | cons h _ ih =>
    rw [List.length_cons, Nat.add_right_comm, readAllArray, h]
    simp only
    rw [ih, show ∀ k : Nat, i + 1 + k = i + (k + 1) by omega]
    simp

theorem readAllObject_yields {σ : Type} {rd : Reader σ} {s s' : σ} {es : List Entry} (h : Yields rd s es s') (n i : Nat) (acc : List (Bytes × Val)) :
    readAllObject rd (es.length + n) i s acc = readAllObject rd n (i + es.length) s' (es.foldl (fun m e => mapSet m e.key e.value) acc) := by
  induction h generalizing i acc with
  | nil s => simp
  | cons h _ ih =>
    rw [List.length_cons, Nat.add_right_comm, readAllObject, h]
    simp only
    rw [ih, show ∀ k : Nat, i + 1 + k = i + (k + 1) by omega]
    simp

/-- An array body: all values in order, or the error with its one-based position. -/
theorem C49_array {σ : Type} (rd : Reader σ) (s s' : σ) (es : List Entry) (x : RErr) (h : Drains rd s es x s') (n : Nat) (hn : es.length < n) :
    readAll rd .array n s = some (if x.text = b!"EOF" then .ok (.arr (es.map (·.value))) else .error (es.length + 1, x.text), s') := by
  obtain ⟨m, a, b⟩ := h
  obtain ⟨k, rfl⟩ : ∃ k, n = es.length + (k + 1) := ⟨n - es.length - 1, by omega⟩
  unfold readAll
  simp only
  rw [readAllArray_yields a, readAllArray, b]
  simp only [Nat.zero_add, List.nil_append, Option.map_some]
  split <;> rfl

/-- An object body: a map in which every key has the last value read for it. -/
theorem C49_object {σ : Type} (rd : Reader σ) (s s' : σ) (es : List Entry) (x : RErr) (h : Drains rd s es x s') (n : Nat) (hn : es.length < n) :
    if x.text = b!"EOF" then
      ∃ m, readAll rd .object n s = some (.ok (.obj m), s') ∧ KeysSorted m ∧
        ∀ k, mapGet m k = ((es.filter fun e => e.key = k).getLast?).map (·.value)
    else readAll rd .object n s = some (.error (es.length + 1, x.text), s') := by
  obtain ⟨m, a, b⟩ := h
  obtain ⟨k, rfl⟩ : ∃ k, n = es.length + (k + 1) := ⟨n - es.length - 1, by omega⟩
  have e : readAll rd .object (es.length + (k + 1)) s =
      some (if x.text = b!"EOF" then .ok (.obj (es.foldl (fun m e => mapSet m e.key e.value) [])) else .error (es.length + 1, x.text), s') := by
    unfold readAll
    simp only
    rw [readAllObject_yields a, readAllObject, b]
    simp only [Nat.zero_add, Option.map_some]
    split <;> rfl
  split
  · rename_i hx
    rw [e, if_pos hx]
    refine ⟨_, rfl, ?_, ?_⟩
    · have : ∀ (es : List Entry) (m : List (Bytes × Val)), KeysSorted m → KeysSorted (es.foldl (fun m e => mapSet m e.key e.value) m) := by
        intro es
        induction es with
        | nil => intro m hm; exact hm
        | cons e es ih => intro m hm; exact ih _ (keysSorted_mapSet _ _ hm)
      exact this es [] (by simp [KeysSorted])
    · intro k
      have : ∀ (es : List Entry) (m : List (Bytes × Val)), mapGet (es.foldl (fun m e => mapSet m e.key e.value) m) k =
          (((es.filter fun e => e.key = k).getLast?).map (·.value)).or (mapGet m k) := by
        intro es
        induction es with
        | nil => intro m; simp
        | cons e es ih =>
          intro m
          rw [List.foldl_cons, ih]
          by_cases hk : e.key = k
          · subst hk
            rw [mapGet_mapSet_self, List.filter_cons_of_pos (by simp), List.getLast?_cons]
            cases (es.filter fun x => x.key = e.key).getLast? <;> rfl
          · rw [mapGet_mapSet_ne _ _ (fun h => hk h.symm), List.filter_cons_of_neg (by simpa using hk)]
      have := this es []
      simpa [mapGet] using this
  · rename_i hx
    rw [e, if_neg hx]

example : readAll (listReader .eof) .object 9 [{ key := b!"a", value := .null }, { key := b!"b", value := .null }, { key := b!"a", value := .bool true }] =
    some (.ok (.obj [(b!"a", .bool true), (b!"b", .null)]), []) := by decide +kernel
example : readAll (listReader (.other b!"x")) .array 9 [{ value := .null }] = some (.error (2, b!"x"), []) := by decide +kernel

/-! ## C27 – counting bytes -/

/-- a history of reads: the sizes asked for and what was handed over -/
inductive Reads {σ : Type} (rd : ByteReader σ) : σ → List (Bytes × Bool) → σ → Prop
  | nil (s : σ) : Reads rd s [] s
  | cons {s s₁ s' : σ} {r : Bytes × Bool} {rs : List (Bytes × Bool)} (size : Nat) : rd size s = (r, s₁) → Reads rd s₁ rs s' → Reads rd s (r :: rs) s'

/-- After any reads, the count is the number of bytes handed over (with or without errors), and the
wrapped reader was read in exactly the same way. -/
theorem C27_count {σ : Type} (rd : ByteReader σ) (s : σ) (t : Tracked σ) (rs : List (Bytes × Bool)) (h : Reads (tracked rd) { inner := s } rs t) :
    t.read = ((rs.map (·.1)).flatten).length ∧ Reads rd s rs t.inner := by
  have : ∀ (u : Tracked σ), Reads (tracked rd) u rs t → t.read = u.read + ((rs.map (·.1)).flatten).length ∧ Reads rd u.inner rs t.inner := by
    intro u hu
    clear h
    induction hu with
    | nil u => exact ⟨by simp, .nil _⟩
    | cons size h1 _ ih =>
      rename_i u u₁ _ r _ _
      simp only [tracked, Prod.mk.injEq] at h1
      obtain ⟨h2, h3⟩ := h1
      subst h3
      obtain ⟨a, b⟩ := ih
      refine ⟨?_, .cons size (Prod.ext h2 rfl) b⟩
      rw [a, h2]; simp; omega
  simpa using this _ h

/-- and wrapping does not change what the caller sees -/
theorem C27_transparent {σ : Type} (rd : ByteReader σ) (s s' : σ) (rs : List (Bytes × Bool)) (h : Reads rd s rs s') (c : Nat) :
    ∃ c', Reads (tracked rd) { read := c, inner := s } rs { read := c', inner := s' } := by
  induction h generalizing c with
  | nil s => exact ⟨c, .nil _⟩
  | cons size h1 _ ih =>
    rename_i s s₁ _ r _ _
    obtain ⟨c', hc⟩ := ih (c + r.1.length)
    refine ⟨c', .cons (s₁ := { read := c + r.1.length, inner := s₁ }) size ?_ hc⟩
    simp [tracked, h1]

example : Reads (tracked (fun n (s : Bytes) => ((s.take n, s.length ≤ n), s.drop n))) { inner := b!"hello" } [(b!"he", false), (b!"llo", true)] { read := 5, inner := [] } :=
  .cons 2 rfl (.cons 3 rfl (.nil _))

end Verif.Streams
