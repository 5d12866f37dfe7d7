import Verif.Lemmas.JsonBufRead
/- The buffered JSON reader reads what is there, whatever the alignment of text and buffer. -/
set_option autoImplicit false
namespace Verif.JsonBuf
open Json

theorem token_none {E : Env} {ch : UInt8} {st : St} {s : Bytes} (h : Inv st s) (ht : Json.token ch s = none) :
    ∃ st', token E ch st = (false, st') ∧ Inv st' (skipWS s) := by
  obtain ⟨ok, st', e, -, h1⟩ := token_spec E ch h
  rcases h1 with ⟨-, r, h2, -⟩ | ⟨rfl, -, h3⟩
  · rw [ht] at h2; simp at h2
  · exact ⟨st', e, h3⟩

theorem token_some {E : Env} {ch : UInt8} {st : St} {s r : Bytes} (h : Inv st s) (ht : Json.token ch s = some r) :
    ∃ st', token E ch st = (true, st') ∧ Inv st' r := by
  obtain ⟨ok, st', e, -, h1⟩ := token_spec E ch h
  rcases h1 with ⟨rfl, r', h2, h3⟩ | ⟨-, h2, -⟩
  · rw [ht] at h2; simp at h2; exact ⟨st', e, h2 ▸ h3⟩
  · rw [ht] at h2; simp at h2

theorem token_skip (ch : UInt8) (s : Bytes) : Json.token ch (skipWS s) = Json.token ch s := by
  unfold Json.token; rw [skipWS_idem]

theorem string_skip (s : Bytes) : JsonClean.string (skipWS s) = JsonClean.string s := by
  unfold JsonClean.string; rw [token_skip]

theorem value_skip (F : FloatCodec) (f : Nat) (s : Bytes) : JsonClean.value F f (skipWS s) = JsonClean.value F f s := by
  cases f with
  | zero => rfl
  | succ f => rw [JsonClean.value, skipWS_idem, JsonClean.value]

theorem pair_skip (F : FloatCodec) (f : Nat) (s : Bytes) : JsonClean.pair F f (skipWS s) = JsonClean.pair F f s := by
  cases f with
  | zero => rfl
  | succ f => rw [JsonClean.pair, string_skip, JsonClean.pair]

theorem token_head {c : UInt8} {s t : Bytes} (h : skipWS s = c :: t) : Json.token c (c :: t) = some t := by
  have : skipWS (c :: t) = c :: t := skipWS_cons_eq h
  simp [Json.token, this]

structure CleanAll (F : FloatCodec) (E : Env) (f : Nat) : Prop where
  value : ∀ {st : St} {s r : Bytes} {v : Val}, Inv st s → JsonClean.value F f s = some (v, r) →
    ∃ st', readValue F E f st = .ok v st' ∧ Inv st' r
  object : ∀ {st : St} {s r : Bytes} {v : Val}, Inv st s → JsonClean.object F f s = some (v, r) →
    ∃ st', readObject F E f st = .ok v st' ∧ Inv st' r
  members : ∀ {st : St} {s r : Bytes} {v : Val} {m : List (Bytes × Val)}, Inv st s → JsonClean.members F f m s = some (v, r) →
    ∃ st', readObjectRest F E f m st = .ok v st' ∧ Inv st' r
  array : ∀ {st : St} {s r : Bytes} {v : Val}, Inv st s → JsonClean.array F f s = some (v, r) →
    ∃ st', readArray F E f st = .ok v st' ∧ Inv st' r
  elements : ∀ {st : St} {s r : Bytes} {v : Val} {l : List Val}, Inv st s → JsonClean.elements F f l s = some (v, r) →
    ∃ st', readArrayRest F E f l st = .ok v st' ∧ Inv st' r
  pair : ∀ {st : St} {s r : Bytes} {kv : Bytes × Val}, Inv st s → JsonClean.pair F f s = some (kv, r) →
    ∃ st', readPair F E f st = .ok kv st' ∧ Inv st' r

theorem cleanAll (F : FloatCodec) (E : Env) : ∀ f : Nat, CleanAll F E f
  | 0 => by
    constructor <;> intros <;> rename_i h <;> simp [JsonClean.value, JsonClean.object, JsonClean.members, JsonClean.array, JsonClean.elements, JsonClean.pair] at h
  | f + 1 => by
    have ih := cleanAll F E f
    constructor
    · intro st s r v h hv
      obtain ⟨b, st1, e, h1, h2, h3, h4, h5⟩ := current_spec E h
      rw [JsonClean.value] at hv
      rw [readValue]
      simp only [e]
      rw [h1, head_buf h2 h4]
      cases hk : skipWS s with
      | nil =>
        rw [hk] at hv
        simp only [Option.some.injEq, Prod.mk.injEq] at hv
        simp only [List.head?_nil]
        exact ⟨st1, by rw [hv.1], by rw [← hv.2, ← hk]; exact h2⟩
      | cons c t =>
        rw [hk] at hv h2
        have hsk := skipWS_cons_eq hk
        simp only at hv
        simp only [List.head?_cons]
        by_cases c1 : c = 110
        · rw [if_pos c1] at hv ⊢
          exact readLit_clean E _ _ _ _ h2 hsk (by decide) hv
        rw [if_neg c1] at hv ⊢
        by_cases c2 : c = 116
        · rw [if_pos c2] at hv ⊢
          exact readLit_clean E _ _ _ _ h2 hsk (by decide) hv
        rw [if_neg c2] at hv ⊢
        by_cases c3 : c = 102
        · rw [if_pos c3] at hv ⊢
          exact readLit_clean E _ _ _ _ h2 hsk (by decide) hv
        rw [if_neg c3] at hv ⊢
        by_cases c4 : c = 34
        · rw [if_pos c4] at hv ⊢
          cases hq : JsonClean.stringBody t with
          | none => rw [hq] at hv; simp at hv
          | some q =>
            rw [hq] at hv
            simp only [Option.map_some, Option.some.injEq, Prod.mk.injEq] at hv
            have hstr : JsonClean.string (c :: t) = some (q.1, q.2) := by
              unfold JsonClean.string; rw [← c4, token_head hk, Option.bind_some, hq]
            obtain ⟨st2, g1, g2⟩ := readString_clean E h2 hstr
            rw [g1]
            exact ⟨st2, by rw [← hv.1], hv.2 ▸ g2⟩
        rw [if_neg c4] at hv ⊢
        by_cases c5 : c = 45 ∨ isDigit c = true
        · rw [if_pos c5] at hv ⊢
          obtain ⟨st2, g1, g2, -⟩ := readNumber_spec F E h2 hsk
          unfold JsonClean.number at hv
          cases hcv : convNumber F ((c :: t).takeWhile isNumCh) [] with
          | err e r => rw [hcv] at hv; simp at hv
          | ok w r' =>
            rw [hcv] at hv g1
            simp only [Option.some.injEq, Prod.mk.injEq] at hv
            exact ⟨st2, by rw [g1, ← hv.1], by rw [← hv.2]; exact g2⟩
        rw [if_neg c5] at hv ⊢
        by_cases c6 : c = 123
        · rw [if_pos c6] at hv ⊢
          subst c6
          obtain ⟨st2, g1, g2⟩ := token_some (E := E) h2 (token_head hk)
          rw [g1]
          exact ih.object g2 hv
        rw [if_neg c6] at hv ⊢
        by_cases c7 : c = 91
        · rw [if_pos c7] at hv ⊢
          subst c7
          obtain ⟨st2, g1, g2⟩ := token_some (E := E) h2 (token_head hk)
          rw [g1]
          exact ih.array g2 hv
        rw [if_neg c7] at hv ⊢
        simp only [Option.some.injEq, Prod.mk.injEq] at hv
        exact ⟨st1, by rw [hv.1], hv.2 ▸ h2⟩
    · intro st s r v h hv
      rw [JsonClean.object] at hv
      rw [readObject]
      cases ht : Json.token 125 s with
      | some r' =>
        rw [ht] at hv
        simp only [Option.some.injEq, Prod.mk.injEq] at hv
        obtain ⟨st1, g1, g2⟩ := token_some (E := E) h ht
        rw [g1]
        exact ⟨st1, by rw [← hv.1], hv.2 ▸ g2⟩
      | none =>
        rw [ht] at hv
        simp only at hv
        obtain ⟨st1, g1, g2⟩ := token_none (E := E) h ht
        rw [g1]
        simp only
        cases hp : JsonClean.pair F f s with
        | none => rw [hp] at hv; simp at hv
        | some p =>
          rw [hp, Option.bind_some] at hv
          obtain ⟨st2, g3, g4⟩ := ih.pair g2 (by rw [pair_skip]; exact hp)
          rw [g3]
          exact ih.members g4 hv
    · intro st s r v m h hv
      rw [JsonClean.members] at hv
      rw [readObjectRest]
      cases ht : Json.token 125 s with
      | some r' =>
        rw [ht] at hv
        simp only [Option.some.injEq, Prod.mk.injEq] at hv
        obtain ⟨st1, g1, g2⟩ := token_some (E := E) h ht
        rw [g1]
        exact ⟨st1, by rw [← hv.1], hv.2 ▸ g2⟩
      | none =>
        rw [ht] at hv
        simp only at hv
        obtain ⟨st1, g1, g2⟩ := token_none (E := E) h ht
        rw [g1]
        simp only
        cases hc : Json.token 44 s with
        | none => rw [hc] at hv; simp at hv
        | some s1 =>
          rw [hc, Option.bind_some] at hv
          obtain ⟨st2, g3, g4⟩ := token_some (E := E) g2 (by rw [token_skip]; exact hc)
          rw [g3]
          simp only
          cases hp : JsonClean.pair F f s1 with
          | none => rw [hp] at hv; simp at hv
          | some p =>
            rw [hp, Option.bind_some] at hv
            obtain ⟨st3, g5, g6⟩ := ih.pair g4 hp
            rw [g5]
            exact ih.members g6 hv
    · intro st s r v h hv
      rw [JsonClean.array] at hv
      rw [readArray]
      cases ht : Json.token 93 s with
      | some r' =>
        rw [ht] at hv
        simp only [Option.some.injEq, Prod.mk.injEq] at hv
        obtain ⟨st1, g1, g2⟩ := token_some (E := E) h ht
        rw [g1]
        exact ⟨st1, by rw [← hv.1], hv.2 ▸ g2⟩
      | none =>
        rw [ht] at hv
        simp only at hv
        obtain ⟨st1, g1, g2⟩ := token_none (E := E) h ht
        rw [g1]
        simp only
        cases hp : JsonClean.value F f s with
        | none => rw [hp] at hv; simp at hv
        | some p =>
          rw [hp, Option.bind_some] at hv
          obtain ⟨st2, g3, g4⟩ := ih.value g2 (by rw [value_skip]; exact hp)
          rw [g3]
          exact ih.elements g4 hv
    · intro st s r v l h hv
      rw [JsonClean.elements] at hv
      rw [readArrayRest]
      cases ht : Json.token 93 s with
      | some r' =>
        rw [ht] at hv
        simp only [Option.some.injEq, Prod.mk.injEq] at hv
        obtain ⟨st1, g1, g2⟩ := token_some (E := E) h ht
        rw [g1]
        exact ⟨st1, by rw [← hv.1], hv.2 ▸ g2⟩
      | none =>
        rw [ht] at hv
        simp only at hv
        obtain ⟨st1, g1, g2⟩ := token_none (E := E) h ht
        rw [g1]
        simp only
        cases hc : Json.token 44 s with
        | none => rw [hc] at hv; simp at hv
        | some s1 =>
          rw [hc, Option.bind_some] at hv
          obtain ⟨st2, g3, g4⟩ := token_some (E := E) g2 (by rw [token_skip]; exact hc)
          rw [g3]
          simp only
          cases hp : JsonClean.value F f s1 with
          | none => rw [hp] at hv; simp at hv
          | some p =>
            rw [hp, Option.bind_some] at hv
            obtain ⟨st3, g5, g6⟩ := ih.value g4 hp
            rw [g5]
            exact ih.elements g6 hv
    · intro st s r kv h hv
      rw [JsonClean.pair] at hv
      rw [readPair]
      cases hs : JsonClean.string s with
      | none => rw [hs] at hv; simp at hv
      | some k =>
        rw [hs, Option.bind_some] at hv
        obtain ⟨st1, g1, g2⟩ := readString_clean E h hs
        rw [g1]
        simp only
        cases hc : Json.token 58 k.2 with
        | none => rw [hc] at hv; simp at hv
        | some s1 =>
          rw [hc, Option.bind_some] at hv
          obtain ⟨st2, g3, g4⟩ := token_some (E := E) g2 hc
          rw [g3]
          simp only
          cases hp : JsonClean.value F f s1 with
          | none => rw [hp] at hv; simp at hv
          | some p =>
            rw [hp] at hv
            simp only [Option.map_some, Option.some.injEq, Prod.mk.injEq] at hv
            obtain ⟨st3, g5, g6⟩ := ih.value g4 hp
            rw [g5]
            exact ⟨st3, by rw [← hv.1], hv.2 ▸ g6⟩

/-! ### Everything in the buffer -/

/-- the unread text is `s` but for whitespace in front, and everything is in the buffer -/
def InvW (st : St) (s : Bytes) : Prop := ∃ s', Inv st s' ∧ skipWS s' = skipWS s ∧ Whole st

theorem Inv.w {st : St} {s : Bytes} (h : Inv st s) (hw : Whole st) : InvW st s := ⟨s, h, rfl, hw⟩

/-- the results agree, and so does the unread text but for whitespace -/
def SimW {α : Type} (x : Res α) (y : Json.Res α) : Prop :=
  match x, y with
  | .ok a st, .ok b r => a = b ∧ InvW st r
  | .err e st, .err e' r => e = e' ∧ InvW st r
  | _, _ => False

theorem Sim.w {α : Type} {x : Res α} {y : Json.Res α} (h : Sim x y) : SimW x y := by
  cases x <;> cases y <;> simp only [Sim] at h <;> simp only [SimW]
  · exact ⟨h.1, h.2.1.w h.2.2⟩
  · exact ⟨h.1, h.2.1.w h.2.2⟩

theorem token_eq {s s' : Bytes} (h : skipWS s' = skipWS s) (ch : UInt8) : Json.token ch s' = Json.token ch s := by
  unfold Json.token; rw [h]

theorem token_whole (E : Env) (ch : UInt8) {st : St} {s : Bytes} (h : InvW st s) :
    (∃ r st', Json.token ch s = some r ∧ token E ch st = (true, st') ∧ InvW st' r) ∨
      (∃ st', Json.token ch s = none ∧ token E ch st = (false, st') ∧ InvW st' s) := by
  obtain ⟨s', h, hs, hw⟩ := h
  obtain ⟨ok, st', e, h0, h1⟩ := token_spec E ch h
  rw [token_eq hs, hs] at h1
  rcases h1 with ⟨rfl, r, h2, h3⟩ | ⟨rfl, h2, h3⟩
  · exact Or.inl ⟨r, st', h2, e, h3.w (h0 hw)⟩
  · exact Or.inr ⟨st', h2, e, skipWS s, h3, skipWS_idem s, h0 hw⟩

theorem InvW.skip {st : St} {s : Bytes} (h : InvW st s) : InvW st (skipWS s) := by
  obtain ⟨s', h, hs, hw⟩ := h
  exact ⟨s', h, by rw [skipWS_idem, hs], hw⟩

theorem current_whole (E : Env) {st : St} {s : Bytes} (h : InvW st s) :
    ∃ b st', current E st = (b, st') ∧ b.data.head? = (skipWS s).head? ∧ Inv st' (skipWS s) ∧ Whole st' := by
  obtain ⟨s', h, hs, hw⟩ := h
  obtain ⟨b, st1, e, h1, h2, h3, h4, h5⟩ := current_spec E h
  rw [hs] at h2 h4
  exact ⟨b, st1, e, by rw [h1]; exact head_buf h2 h4, h2, (h5 hw).1⟩

theorem readString_w (E : Env) {st : St} {s : Bytes} (h : InvW st s) : SimW (readString E st) (Json.readString s) := by
  obtain ⟨s', h, hs, hw⟩ := h
  have := (readString_whole E h hw).w
  have e : Json.readString s' = Json.readString s := by unfold Json.readString; rw [hs]
  rw [e] at this; exact this

structure WholeAll (F : FloatCodec) (E : Env) (f : Nat) : Prop where
  value : ∀ {st : St} {s : Bytes}, InvW st s → SimW (readValue F E f st) (Json.readValue F f s)
  object : ∀ {st : St} {s : Bytes}, InvW st s → SimW (readObject F E f st) (Json.readObject F f s)
  members : ∀ {st : St} {s : Bytes} {m : List (Bytes × Val)}, InvW st s → SimW (readObjectRest F E f m st) (Json.readObjectRest F f m s)
  array : ∀ {st : St} {s : Bytes}, InvW st s → SimW (readArray F E f st) (Json.readArray F f s)
  elements : ∀ {st : St} {s : Bytes} {l : List Val}, InvW st s → SimW (readArrayRest F E f l st) (Json.readArrayRest F f l s)
  pair : ∀ {st : St} {s : Bytes}, InvW st s → SimW (readPair F E f st) (Json.readPair F f s)

/-- the results of a call, by cases -/
theorem SimW.cases {α : Type} {x : Res α} {y : Json.Res α} (h : SimW x y) :
    (∃ a st r, x = .ok a st ∧ y = .ok a r ∧ InvW st r) ∨ (∃ e st r, x = .err e st ∧ y = .err e r ∧ InvW st r) := by
  cases x <;> cases y <;> simp only [SimW] at h
  · exact Or.inl ⟨_, _, _, rfl, by rw [h.1], h.2⟩
  · exact Or.inr ⟨_, _, _, rfl, by rw [h.1], h.2⟩

theorem wholeAll (F : FloatCodec) (E : Env) : ∀ f : Nat, WholeAll F E f
  | 0 => by
    constructor <;> intros <;> rename_i h <;>
      simp only [readValue, readObject, readObjectRest, readArray, readArrayRest, readPair, Json.readValue, Json.readObject,
        Json.readObjectRest, Json.readArray, Json.readArrayRest, Json.readPair] <;> exact ⟨rfl, h⟩
  | f + 1 => by
    have ih := wholeAll F E f
    constructor
    · intro st s h
      obtain ⟨b, st1, e, h1, h2, hw⟩ := current_whole E h
      rw [Json.readValue, readValue]
      simp only [e, h1]
      cases hk : skipWS s with
      | nil =>
        rw [hk] at h2
        exact ⟨rfl, h2.w hw⟩
      | cons c t =>
        rw [hk] at h2
        have hsk := skipWS_cons_eq hk
        simp only [List.head?_cons]
        by_cases c1 : c = 110
        · rw [if_pos c1, if_pos c1]
          exact (readLit_whole E _ _ _ h2 hsk hw).w
        rw [if_neg c1, if_neg c1]
        by_cases c2 : c = 116
        · rw [if_pos c2, if_pos c2]
          exact (readLit_whole E _ _ _ h2 hsk hw).w
        rw [if_neg c2, if_neg c2]
        by_cases c3 : c = 102
        · rw [if_pos c3, if_pos c3]
          exact (readLit_whole E _ _ _ h2 hsk hw).w
        rw [if_neg c3, if_neg c3]
        by_cases c4 : c = 34
        · rw [if_pos c4, if_pos c4]
          have := readString_w E (h2.w hw)
          unfold Json.readString at this
          rw [hsk] at this
          simp only [if_pos c4] at this
          rcases this.cases with ⟨a, st2, r, e1, e2, e3⟩ | ⟨a, st2, r, e1, e2, e3⟩
          · rw [e1, e2]; exact ⟨rfl, e3⟩
          · rw [e1, e2]; exact ⟨rfl, e3⟩
        rw [if_neg c4, if_neg c4]
        by_cases c5 : c = 45 ∨ isDigit c = true
        · rw [if_pos c5, if_pos c5]
          obtain ⟨st2, g1, g2, g3⟩ := readNumber_spec F E h2 hsk
          rw [g1]
          unfold Json.readNumber convNumber
          by_cases hfl : (List.takeWhile isNumCh (c :: t)).any isFloatCh = true
          · rw [if_pos hfl, if_pos hfl]
            cases F.parse (List.takeWhile isNumCh (c :: t)) with
            | none => exact ⟨rfl, g2.w (g3 hw)⟩
            | some x => exact ⟨rfl, g2.w (g3 hw)⟩
          · rw [if_neg hfl, if_neg hfl]
            cases atoi (List.takeWhile isNumCh (c :: t)) with
            | none => exact ⟨rfl, g2.w (g3 hw)⟩
            | some x => exact ⟨rfl, g2.w (g3 hw)⟩
        rw [if_neg c5, if_neg c5]
        by_cases c6 : c = 123
        · rw [if_pos c6, if_pos c6]
          subst c6
          rcases token_whole E 123 (h2.w hw) with ⟨r, st2, g1, g2, g3⟩ | ⟨st2, g1, -, -⟩
          · rw [g2]
            rw [token_head hk] at g1
            simp only [Option.some.injEq] at g1
            subst g1
            exact ih.object g3
          · rw [token_head hk] at g1; simp at g1
        rw [if_neg c6, if_neg c6]
        by_cases c7 : c = 91
        · rw [if_pos c7, if_pos c7]
          subst c7
          rcases token_whole E 91 (h2.w hw) with ⟨r, st2, g1, g2, g3⟩ | ⟨st2, g1, -, -⟩
          · rw [g2]
            rw [token_head hk] at g1
            simp only [Option.some.injEq] at g1
            subst g1
            exact ih.array g3
          · rw [token_head hk] at g1; simp at g1
        rw [if_neg c7, if_neg c7]
        exact ⟨rfl, h2.w hw⟩
    · intro st s h
      rw [readObject, Json.readObject]
      rcases token_whole E 125 h with ⟨r, st1, g1, g2, g3⟩ | ⟨st1, g1, g2, g3⟩
      · rw [g1, g2]; exact ⟨rfl, g3⟩
      · rw [g1, g2]
        simp only
        rcases (ih.pair g3).cases with ⟨a, st2, r, e1, e2, e3⟩ | ⟨a, st2, r, e1, e2, e3⟩
        · rw [e1, e2]; exact ih.members e3
        · rw [e1, e2]; exact ⟨rfl, e3⟩
    · intro st s m h
      rw [readObjectRest, Json.readObjectRest]
      rcases token_whole E 125 h with ⟨r, st1, g1, g2, g3⟩ | ⟨st1, g1, g2, g3⟩
      · rw [g1, g2]; exact ⟨rfl, g3⟩
      · rw [g1, g2]
        simp only
        rcases token_whole E 44 g3 with ⟨r, st2, g4, g5, g6⟩ | ⟨st2, g4, g5, g6⟩
        · rw [g4, g5]
          simp only
          rcases (ih.pair g6).cases with ⟨a, st2, r, e1, e2, e3⟩ | ⟨a, st2, r, e1, e2, e3⟩
          · rw [e1, e2]; exact ih.members e3
          · rw [e1, e2]; exact ⟨rfl, e3⟩
        · rw [g4, g5]
          exact ⟨rfl, g6.skip⟩
    · intro st s h
      rw [readArray, Json.readArray]
      rcases token_whole E 93 h with ⟨r, st1, g1, g2, g3⟩ | ⟨st1, g1, g2, g3⟩
      · rw [g1, g2]; exact ⟨rfl, g3⟩
      · rw [g1, g2]
        simp only
        rcases (ih.value g3).cases with ⟨a, st2, r, e1, e2, e3⟩ | ⟨a, st2, r, e1, e2, e3⟩
        · rw [e1, e2]; exact ih.elements e3
        · rw [e1, e2]; exact ⟨rfl, e3⟩
    · intro st s l h
      rw [readArrayRest, Json.readArrayRest]
      rcases token_whole E 93 h with ⟨r, st1, g1, g2, g3⟩ | ⟨st1, g1, g2, g3⟩
      · rw [g1, g2]; exact ⟨rfl, g3⟩
      · rw [g1, g2]
        simp only
        rcases token_whole E 44 g3 with ⟨r, st2, g4, g5, g6⟩ | ⟨st2, g4, g5, g6⟩
        · rw [g4, g5]
          simp only
          rcases (ih.value g6).cases with ⟨a, st2, r, e1, e2, e3⟩ | ⟨a, st2, r, e1, e2, e3⟩
          · rw [e1, e2]; exact ih.elements e3
          · rw [e1, e2]; exact ⟨rfl, e3⟩
        · rw [g4, g5]
          obtain ⟨b, st3, e1, -, e3, e4⟩ := current_whole E g6
          refine ⟨rfl, ?_⟩
          rw [e1]; exact e3.w e4
    · intro st s h
      rw [readPair, Json.readPair]
      rcases (readString_w E h).cases with ⟨a, st2, r, e1, e2, e3⟩ | ⟨a, st2, r, e1, e2, e3⟩
      · rw [e1, e2]
        simp only
        rcases token_whole E 58 e3 with ⟨r, st1, g1, g2, g3⟩ | ⟨st1, g1, g2, g3⟩
        · rw [g1, g2]
          simp only
          rcases (ih.value g3).cases with ⟨a, st2, r, e1, e2, e3⟩ | ⟨a, st2, r, e1, e2, e3⟩
          · rw [e1, e2]; exact ⟨rfl, e3⟩
          · rw [e1, e2]; exact ⟨rfl, e3⟩
        · rw [g1, g2]
          exact ⟨rfl, g3.skip⟩
      · rw [e1, e2]; exact ⟨rfl, e3⟩

end Verif.JsonBuf
