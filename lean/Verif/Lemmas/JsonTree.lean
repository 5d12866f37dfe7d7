import Verif.Model.ValsJson
import Verif.Go.JsonTreeParse
import Verif.Lemmas.JsonParse
import Verif.Lemmas.Map
/-
The scanner of `encoding/json` accepts the texts of the JSON grammar and nothing else.
-/
set_option autoImplicit false
namespace Verif.JsonStd
open JsonG

/-! ### whitespace -/

theorem isWS_iff (c : UInt8) : isWS c = true ↔ (c = 32 ∨ c = 10 ∨ c = 13 ∨ c = 9) := by
  simp [isWS, or_assoc]

theorem mem_takeWhile {p : UInt8 → Bool} {s : Bytes} {c : UInt8} (h : c ∈ s.takeWhile p) : p c = true := by
  induction s with
  | nil => simp at h
  | cons x s ih =>
    rw [List.takeWhile_cons] at h
    split at h
    · rename_i hx
      rcases List.mem_cons.1 h with rfl | h
      · exact hx
      · exact ih h
    · cases h

theorem skipWS_split (s : Bytes) : ∃ w : Bytes, WS w ∧ s = w ++ skipWS s ∧ ∀ c ∈ (skipWS s).head?, isWS c = false := by
  refine ⟨s.takeWhile isWS, fun c hc => (isWS_iff c).1 (mem_takeWhile hc), (List.takeWhile_append_dropWhile).symm, ?_⟩
  intro c hc
  unfold skipWS at hc
  have := List.head?_dropWhile_not isWS s
  rw [Option.mem_def.1 hc] at this
  simpa using this

theorem skipWS_ws {w : Bytes} (hw : WS w) (r : Bytes) : skipWS (w ++ r) = skipWS r := by
  induction w with
  | nil => rfl
  | cons c w ih =>
    have : isWS c = true := (isWS_iff c).2 (hw c (by simp))
    simp only [skipWS, List.cons_append, List.dropWhile_cons, this, if_true]
    exact ih fun x hx => hw x (by simp [hx])

theorem skipWS_idem (s : Bytes) : skipWS (skipWS s) = skipWS s := by
  obtain ⟨w, hw, e, h⟩ := skipWS_split s
  cases hs : skipWS s with
  | nil => rfl
  | cons c t => rw [hs] at h; exact skipWS_cons (h c (by simp)) t

theorem skipWS_nil_iff (s : Bytes) : skipWS s = [] ↔ WS s := by
  constructor
  · intro h
    obtain ⟨w, hw, e, _⟩ := skipWS_split s
    rw [h, List.append_nil] at e
    exact e ▸ hw
  · intro h
    have := skipWS_ws h []
    rwa [List.append_nil] at this

theorem ws_append {a b : Bytes} (ha : WS a) (hb : WS b) : WS (a ++ b) := by
  intro c hc
  rcases List.mem_append.1 hc with h | h
  · exact ha c h
  · exact hb c h

theorem ws_nil : WS [] := by simp [WS]

/-! ### strings and numbers -/

theorem strRaw_text {t : Bytes} (h : StrText t) (r : Bytes) : strRaw (t ++ 34 :: r) = some (t, r) := by
  induction h with
  | nil => rw [List.nil_append, strRaw.eq_def]; simp
  | plain c h1 h2 h3 _ ih =>
    rw [List.cons_append, strRaw.eq_def]
    have : ¬ c < 0x20 := by
      rw [UInt8.lt_iff_toNat_lt]; rw [UInt8.le_iff_toNat_le] at h1; omega
    simp [h2, h3, this, ih]
  | esc e h _ ih =>
    rw [List.cons_append, List.cons_append, strRaw.eq_def]
    have he : e ≠ 117 := by rintro rfl; revert h; decide
    have : ¬ (92 : UInt8) < 0x20 := by decide
    simp only [this, if_false, if_true, if_neg he, if_pos h, ih]
    simp
  | uni a b c d h1 h2 h3 h4 _ ih =>
    rw [List.cons_append, List.cons_append, List.cons_append, List.cons_append, List.cons_append, List.cons_append, strRaw.eq_def]
    simp [h1, h2, h3, h4, ih]

theorem strRaw_sound : ∀ (n : Nat) (s t r : Bytes), s.length ≤ n → strRaw s = some (t, r) → StrText t ∧ s = t ++ 34 :: r
  | 0, s, t, r, hn, h => by
    obtain rfl : s = [] := by cases s with | nil => rfl | cons => simp at hn
    simp [strRaw] at h
  | n + 1, [], t, r, hn, h => by simp [strRaw] at h
  | n + 1, c :: s, t, r, hn, h => by
    rw [strRaw.eq_def] at h
    simp only [List.length_cons] at hn
    by_cases h1 : c = 34
    · simp only [if_pos h1, Option.some.injEq, Prod.mk.injEq] at h
      obtain ⟨rfl, rfl⟩ := h
      exact ⟨.nil, by simp [h1]⟩
    · simp only [if_neg h1] at h
      by_cases h2 : c < 0x20
      · simp [if_pos h2] at h
      · simp only [if_neg h2] at h
        by_cases h3 : c = 92
        · simp only [if_pos h3] at h
          subst h3
          cases s with
          | nil => simp at h
          | cons e s =>
            simp only at h
            by_cases h4 : e = 117
            · simp only [if_pos h4] at h
              subst h4
              match s, hn, h with
              | [], _, h => simp at h
              | [_], _, h => simp at h
              | [_, _], _, h => simp at h
              | [_, _, _], _, h => simp at h
              | a :: b :: c' :: d :: s, hn, h =>
                simp only at h
                split at h
                · rename_i hh
                  simp only [Bool.and_eq_true] at hh
                  simp only [Option.map_eq_some_iff] at h
                  obtain ⟨⟨t', r'⟩, hp, he⟩ := h
                  simp only [Prod.mk.injEq] at he
                  obtain ⟨rfl, rfl⟩ := he
                  simp only [List.length_cons] at hn
                  obtain ⟨h5, h6⟩ := strRaw_sound n s t' r' (by omega) hp
                  exact ⟨.uni a b c' d hh.1.1.1 hh.1.1.2 hh.1.2 hh.2 h5, by simp [h6]⟩
                · cases h
            · simp only [if_neg h4] at h
              split at h
              · rename_i hh
                simp only [Option.map_eq_some_iff] at h
                obtain ⟨⟨t', r'⟩, hp, he⟩ := h
                simp only [Prod.mk.injEq] at he
                obtain ⟨rfl, rfl⟩ := he
                simp only [List.length_cons] at hn
                obtain ⟨h5, h6⟩ := strRaw_sound n s t' r' (by omega) hp
                exact ⟨.esc e hh h5, by simp [h6]⟩
              · cases h
        · simp only [if_neg h3, Option.map_eq_some_iff] at h
          obtain ⟨⟨t', r'⟩, hp, he⟩ := h
          simp only [Prod.mk.injEq] at he
          obtain ⟨rfl, rfl⟩ := he
          obtain ⟨h5, h6⟩ := strRaw_sound n s t' r' (by omega) hp
          refine ⟨.plain c ?_ h1 h3 h5, by simp [h6]⟩
          rw [UInt8.lt_iff_toNat_lt] at h2; rw [UInt8.le_iff_toNat_le]; omega

theorem digits1_sound {s t r : Bytes} (h : digits1 s = some (t, r)) : t ≠ [] ∧ Digits t ∧ s = t ++ r ∧ ∀ c ∈ r.head?, isDigit c = false := by
  unfold digits1 at h
  split at h
  · cases h
  · rename_i h0
    simp only [Option.some.injEq, Prod.mk.injEq] at h
    obtain ⟨rfl, rfl⟩ := h
    refine ⟨h0, fun c hc => mem_takeWhile hc, (List.takeWhile_append_dropWhile).symm, ?_⟩
    intro c hc
    have := List.head?_dropWhile_not isDigit s
    rw [Option.mem_def.1 hc] at this
    simpa using this

theorem intLit_sound {s t r : Bytes} (h : intLit s = some (t, r)) : IntPart t ∧ s = t ++ r := by
  cases s with
  | nil => simp [intLit] at h
  | cons c s =>
    unfold intLit at h
    simp only at h
    split at h
    · rename_i hc
      simp only [Option.some.injEq, Prod.mk.injEq] at h
      obtain ⟨rfl, rfl⟩ := h
      exact ⟨.zero, by simp [hc]⟩
    · rename_i hc
      obtain ⟨h0, hd, e, _⟩ := digits1_sound h
      cases t with
      | nil => exact absurd rfl h0
      | cons x t =>
        simp only [List.cons_append, List.cons.injEq] at e
        obtain ⟨rfl, rfl⟩ := e
        exact ⟨.nonzero c t (hd c (by simp)) hc fun y hy => hd y (by simp [hy]), rfl⟩

theorem signLit_split (s : Bytes) : ((signLit s).1 = [] ∨ (signLit s).1 = [43] ∨ (signLit s).1 = [45]) ∧ s = (signLit s).1 ++ (signLit s).2 := by
  cases s with
  | nil => simp [signLit]
  | cons c s =>
    by_cases hc : c = 43 ∨ c = 45
    · rcases hc with rfl | rfl <;> simp [signLit]
    · simp [signLit, if_neg hc]

theorem expLit_sound {s u r : Bytes} (h : expLit s = some (u, r)) :
    s = u ++ r ∧ (u = [] ∨ ∃ (e : UInt8) (sign t : Bytes), (e = 101 ∨ e = 69) ∧ (sign = [] ∨ sign = [43] ∨ sign = [45]) ∧ t ≠ [] ∧ Digits t ∧
      u = e :: (sign ++ t)) := by
  cases s with
  | nil =>
    simp only [expLit, Option.some.injEq, Prod.mk.injEq] at h
    obtain ⟨rfl, rfl⟩ := h
    simp
  | cons c s =>
    unfold expLit at h
    simp only at h
    split at h
    · rename_i hc
      simp only [Option.map_eq_some_iff] at h
      obtain ⟨⟨t, r'⟩, hp, he⟩ := h
      simp only [Prod.mk.injEq] at he
      obtain ⟨rfl, rfl⟩ := he
      obtain ⟨h0, hd, e, _⟩ := digits1_sound hp
      obtain ⟨hs, es⟩ := signLit_split s
      refine ⟨?_, Or.inr ⟨c, _, t, hc, hs, h0, hd, rfl⟩⟩
      rw [List.cons_append, List.append_assoc, ← e, ← es]
    · simp only [Option.some.injEq, Prod.mk.injEq] at h
      obtain ⟨rfl, rfl⟩ := h
      simp

theorem fracLit_sound {s u r : Bytes} (h : fracLit s = some (u, r)) :
    s = u ++ r ∧ (u = [] ∨ ∃ t : Bytes, t ≠ [] ∧ Digits t ∧ u = 46 :: t) := by
  cases s with
  | nil =>
    simp only [fracLit, Option.some.injEq, Prod.mk.injEq] at h
    obtain ⟨rfl, rfl⟩ := h
    simp
  | cons c s =>
    unfold fracLit at h
    simp only at h
    split at h
    · rename_i hc
      simp only [Option.map_eq_some_iff] at h
      obtain ⟨⟨t, r'⟩, hp, he⟩ := h
      simp only [Prod.mk.injEq] at he
      obtain ⟨rfl, rfl⟩ := he
      obtain ⟨h0, hd, e, _⟩ := digits1_sound hp
      exact ⟨by simp [hc, e], Or.inr ⟨t, h0, hd, rfl⟩⟩
    · simp only [Option.some.injEq, Prod.mk.injEq] at h
      obtain ⟨rfl, rfl⟩ := h
      simp

theorem unsigned_sound {s n r : Bytes} (h : unsigned s = some (n, r)) :
    s = n ++ r ∧ ∃ t u : Bytes, IntPart t ∧ (u = [] ∨ FracExp u) ∧ n = t ++ u := by
  unfold unsigned at h
  simp only [Option.bind_eq_some_iff, Option.map_eq_some_iff] at h
  obtain ⟨⟨i, r1⟩, h1, ⟨g, r2⟩, h2, ⟨e, r3⟩, h3, he⟩ := h
  simp only [Prod.mk.injEq] at h2 h3 he
  obtain ⟨rfl, rfl⟩ := he
  obtain ⟨hi, e1⟩ := intLit_sound h1
  obtain ⟨e2, hg⟩ := fracLit_sound h2
  obtain ⟨e3, hx⟩ := expLit_sound h3
  refine ⟨by rw [e1, e2, e3]; simp, i, g ++ e, hi, ?_, rfl⟩
  rcases hg with rfl | ⟨t, h0, hd, rfl⟩
  · rcases hx with rfl | ⟨c, sign, t', hc, hs, h0', hd', rfl⟩
    · exact Or.inl rfl
    · exact Or.inr (.exp c sign t' hc hs h0' hd')
  · rcases hx with rfl | ⟨c, sign, t', hc, hs, h0', hd', rfl⟩
    · exact Or.inr (by rw [List.append_nil]; exact .frac t h0 hd)
    · exact Or.inr (.both t c sign t' h0 hd hc hs h0' hd')

theorem numLit_sound {s n r : Bytes} (h : numLit s = some (n, r)) : NumText n ∧ s = n ++ r := by
  cases s with
  | nil => simp [numLit] at h
  | cons c s =>
    unfold numLit at h
    simp only at h
    split at h
    · rename_i hc
      simp only [Option.map_eq_some_iff] at h
      obtain ⟨⟨n', r'⟩, hp, he⟩ := h
      simp only [Prod.mk.injEq] at he
      obtain ⟨rfl, rfl⟩ := he
      obtain ⟨e, t, u, ht, hu, rfl⟩ := unsigned_sound hp
      exact ⟨⟨[45], t, u, Or.inr rfl, ht, hu, rfl⟩, by simp [hc, e]⟩
    · obtain ⟨e, t, u, ht, hu, rfl⟩ := unsigned_sound h
      exact ⟨⟨[], t, u, Or.inl rfl, ht, hu, rfl⟩, e⟩

theorem lit_sound {tok : Bytes} {v x : Val} {s r : Bytes} (h : lit tok v s = some (x, r)) : s = tok ++ r ∧ x = v := by
  unfold lit at h
  split at h
  · rename_i hp
    simp only [Option.some.injEq, Prod.mk.injEq] at h
    obtain ⟨rfl, rfl⟩ := h
    rw [List.isPrefixOf_iff_prefix] at hp
    obtain ⟨r, rfl⟩ := hp
    simp
  · cases h

/-! ### the scanner is sound -/

theorem upTo_append (t r : Bytes) : upTo (t ++ r) r = t := by
  simp [upTo]

theorem spells_head {T : Tree} {t : Bytes} (h : Spells T t) : ∃ c r, t = c :: r ∧ isWS c = false ∧ c ≠ 93 ∧ c ≠ 125 ∧ c ≠ 44 ∧ c ≠ 58 := by
  cases h with
  | num t h =>
    obtain ⟨c, u, e, hc⟩ := numeral_head h
    refine ⟨c, u, e, ?_⟩
    rcases hc with rfl | hc
    · decide
    · have : 48 ≤ c ∧ c ≤ 57 := by simpa [isDigit] using hc
      simp only [UInt8.le_iff_toNat_le] at this
      have h1 : (48 : UInt8).toNat = 48 := rfl
      have h2 : (57 : UInt8).toNat = 57 := rfl
      have key : ∀ x : UInt8, (x.toNat < 48 ∨ 57 < x.toNat) → c ≠ x := by
        rintro x hx rfl; omega
      refine ⟨?_, key _ (by decide), key _ (by decide), key _ (by decide), key _ (by decide)⟩
      cases hw : isWS c with
      | false => rfl
      | true =>
        rcases (isWS_iff c).1 hw with h | h | h | h
        · exact absurd h (key _ (by decide))
        · exact absurd h (key _ (by decide))
        · exact absurd h (key _ (by decide))
        · exact absurd h (key _ (by decide))
  | null => exact ⟨_, _, rfl, by decide⟩
  | true => exact ⟨_, _, rfl, by decide⟩
  | false => exact ⟨_, _, rfl, by decide⟩
  | str t h => exact ⟨_, _, rfl, by decide⟩
  | arr0 w h => exact ⟨_, _, rfl, by decide⟩
  | arr l t h => exact ⟨_, _, rfl, by decide⟩
  | obj0 w h => exact ⟨_, _, rfl, by decide⟩
  | obj m t h => exact ⟨_, _, rfl, by decide⟩

theorem skipWS_spells {T : Tree} {t w : Bytes} (hw : WS w) (h : Spells T t) (r : Bytes) : skipWS (w ++ (t ++ r)) = t ++ r := by
  rw [skipWS_ws hw]
  obtain ⟨c, u, e, hc, _⟩ := spells_head h
  rw [e, List.cons_append, skipWS_cons hc]

/-- elements and their texts -/
inductive Pieces : List Tree → List Bytes → Prop
  | nil : Pieces [] []
  | cons (v : Tree) (t : Bytes) (l : List Tree) (ts : List Bytes) : Spells v t → Pieces l ts → Pieces (v :: l) (t :: ts)

inductive PiecesF : List (Bytes × Tree) → List (Bytes × Bytes) → Prop
  | nil : PiecesF [] []
  | cons (k : Bytes) (v : Tree) (t : Bytes) (l : List (Bytes × Tree)) (ts : List (Bytes × Bytes)) : Spells v t → PiecesF l ts →
      PiecesF ((k, v) :: l) ((unquote k, t) :: ts)

theorem strLit_sound {s k r : Bytes} (h : strLit s = some (k, r)) : ∃ t, StrText t ∧ s = t ++ 34 :: r ∧ k = unquote t := by
  simp only [strLit, Option.map_eq_some_iff] at h
  obtain ⟨⟨t, r'⟩, hp, he⟩ := h
  simp only [Prod.mk.injEq] at he
  obtain ⟨rfl, rfl⟩ := he
  obtain ⟨h1, h2⟩ := strRaw_sound _ s t r' (Nat.le_refl _) hp
  exact ⟨t, h1, h2, rfl⟩

theorem strLit_text {t : Bytes} (h : StrText t) (r : Bytes) : strLit (t ++ 34 :: r) = some (unquote t, r) := by
  simp [strLit, strRaw_text h, unquote]

mutual
theorem skipVal_sound : ∀ (f d : Nat) (s r : Bytes), skipVal f d s = some r →
    ∃ (w t : Bytes) (T : Tree), WS w ∧ Spells T t ∧ s = w ++ (t ++ r) ∧ (T.depth = 0 ∨ d + T.depth ≤ maxDepth)
  | 0, d, s, r, h => by simp [skipVal] at h
  | f + 1, d, s, r, h => by
    obtain ⟨w, hw, es, _⟩ := skipWS_split s
    rw [skipVal] at h
    cases hs : skipWS s with
    | nil => simp [hs] at h
    | cons c t =>
      simp only [hs] at h
      rw [hs] at es
      split at h
      · simp only [Option.map_eq_some_iff] at h
        obtain ⟨⟨x, r'⟩, h, rfl⟩ := h
        exact ⟨w, _, .null, hw, .null, by rw [es, (lit_sound h).1], Or.inl rfl⟩
      · split at h
        · simp only [Option.map_eq_some_iff] at h
          obtain ⟨⟨x, r'⟩, h, rfl⟩ := h
          exact ⟨w, _, .bool true, hw, .true, by rw [es, (lit_sound h).1], Or.inl rfl⟩
        · split at h
          · simp only [Option.map_eq_some_iff] at h
            obtain ⟨⟨x, r'⟩, h, rfl⟩ := h
            exact ⟨w, _, .bool false, hw, .false, by rw [es, (lit_sound h).1], Or.inl rfl⟩
          · split at h
            · rename_i hc
              simp only [Option.map_eq_some_iff] at h
              obtain ⟨⟨x, r'⟩, h, rfl⟩ := h
              obtain ⟨h1, h2⟩ := strRaw_sound _ t x r' (Nat.le_refl _) h
              exact ⟨w, _, .str x, hw, .str x h1, by rw [es, hc, h2]; simp, Or.inl rfl⟩
            · split at h
              · rename_i hc
                split at h
                · cases h
                · rename_i hd
                  obtain ⟨w1, hw1, es1, _⟩ := skipWS_split t
                  cases hs1 : skipWS t with
                  | nil => simp [hs1] at h
                  | cons e u =>
                    rw [hs1] at es1
                    simp only [hs1] at h
                    split at h
                    · rename_i he
                      simp only [Option.some.injEq] at h
                      subst h
                      exact ⟨w, _, .arr [], hw, .arr0 w1 hw1, by rw [es, hc, es1, he]; simp, Or.inr (by simp only [Tree.depth, treeDepthL]; omega)⟩
                    · simp only [Option.map_eq_some_iff] at h
                      obtain ⟨⟨ts, r'⟩, h, rfl⟩ := h
                      obtain ⟨l, t', hl, _, e1, hd1⟩ := rawElems_sound f (d + 1) (e :: u) ts r' w1 hw1 h
                      exact ⟨w, _, .arr l, hw, .arr l _ hl, by rw [es, hc, es1, e1]; simp, Or.inr (by simp only [Tree.depth]; omega)⟩
              · split at h
                · rename_i hc
                  split at h
                  · cases h
                  · rename_i hd
                    obtain ⟨w1, hw1, es1, _⟩ := skipWS_split t
                    cases hs1 : skipWS t with
                    | nil => simp [hs1] at h
                    | cons e u =>
                      rw [hs1] at es1
                      simp only [hs1] at h
                      split at h
                      · rename_i he
                        simp only [Option.some.injEq] at h
                        subst h
                        exact ⟨w, _, .obj [], hw, .obj0 w1 hw1, by rw [es, hc, es1, he]; simp, Or.inr (by simp only [Tree.depth, treeDepthF]; omega)⟩
                      · simp only [Option.map_eq_some_iff] at h
                        obtain ⟨⟨ts, r'⟩, h, rfl⟩ := h
                        obtain ⟨l, t', hl, _, e1, hd1⟩ := rawMembers_sound f (d + 1) (e :: u) ts r' w1 hw1 h
                        exact ⟨w, _, .obj l, hw, .obj l _ hl, by rw [es, hc, es1, e1]; simp, Or.inr (by simp only [Tree.depth]; omega)⟩
                · simp only [Option.map_eq_some_iff] at h
                  obtain ⟨⟨n, r'⟩, h, rfl⟩ := h
                  obtain ⟨h1, h2⟩ := numLit_sound h
                  exact ⟨w, _, .num n, hw, .num n h1, by rw [es, h2], Or.inl rfl⟩
theorem rawElems_sound : ∀ (f d : Nat) (s : Bytes) (ts : List Bytes) (r w0 : Bytes), WS w0 → rawElems f d s = some (ts, r) →
    ∃ (l : List Tree) (t : Bytes), SpellsL l (w0 ++ t) ∧ Pieces l ts ∧ s = t ++ 93 :: r ∧ (d ≤ maxDepth → d + treeDepthL l ≤ maxDepth)
  | 0, d, s, ts, r, w0, _, h => by simp [rawElems] at h
  | f + 1, d, s, ts, r, w0, hw0, h => by
    rw [rawElems] at h
    simp only [Option.bind_eq_some_iff] at h
    obtain ⟨r1, h1, h⟩ := h
    obtain ⟨w, t, T, hw, hT, e, hd⟩ := skipVal_sound f d s r1 h1
    obtain ⟨w1, hw1, e1, _⟩ := skipWS_split r1
    cases hs : skipWS r1 with
    | nil => simp [hs] at h
    | cons c u =>
      rw [hs] at e1
      simp only [hs] at h
      have hup : upTo (skipWS s) r1 = t := by rw [e, skipWS_spells hw hT, upTo_append]
      rw [hup] at h
      split at h
      · rename_i hc
        simp only [Option.map_eq_some_iff] at h
        obtain ⟨⟨ts', r'⟩, h, he⟩ := h
        simp only [Prod.mk.injEq] at he
        obtain ⟨rfl, rfl⟩ := he
        obtain ⟨l, t', hl, hp, e2, hd2⟩ := rawElems_sound f d u ts' r' [] ws_nil h
        refine ⟨T :: l, w ++ (t ++ (w1 ++ 44 :: t')), ?_, .cons _ _ _ _ hT hp, by rw [e, e1, hc, e2]; simp, fun hm => ?_⟩
        · have := SpellsL.cons T (w0 ++ w) t w1 l t' (ws_append hw0 hw) hT hw1 (by simpa using hl)
          simpa using this
        · simp only [treeDepthL]
          have := hd2 hm
          omega
      · split at h
        · rename_i hc
          simp only [Option.some.injEq, Prod.mk.injEq] at h
          obtain ⟨rfl, rfl⟩ := h
          refine ⟨[T], w ++ (t ++ w1), ?_, .cons _ _ _ _ hT .nil, by rw [e, e1, hc]; simp, fun hm => ?_⟩
          · have := SpellsL.one T (w0 ++ w) t w1 (ws_append hw0 hw) hT hw1
            simpa using this
          · simp only [treeDepthL]
            omega
        · cases h
theorem rawMembers_sound : ∀ (f d : Nat) (s : Bytes) (ts : List (Bytes × Bytes)) (r w0 : Bytes), WS w0 → rawMembers f d s = some (ts, r) →
    ∃ (l : List (Bytes × Tree)) (t : Bytes), SpellsF l (w0 ++ t) ∧ PiecesF l ts ∧ s = t ++ 125 :: r ∧ (d ≤ maxDepth → d + treeDepthF l ≤ maxDepth)
  | 0, d, s, ts, r, w0, _, h => by simp [rawMembers] at h
  | f + 1, d, s, ts, r, w0, hw0, h => by
    rw [rawMembers] at h
    obtain ⟨wk, hwk, ek, _⟩ := skipWS_split s
    cases hsk : skipWS s with
    | nil => simp [hsk] at h
    | cons q s1 =>
      rw [hsk] at ek
      simp only [hsk] at h
      split at h
      · rename_i hq
        simp only [Option.bind_eq_some_iff] at h
        obtain ⟨⟨k, s2⟩, hk, h⟩ := h
        obtain ⟨kt, hkt, ekt, rfl⟩ := strLit_sound hk
        simp only at h
        obtain ⟨wc, hwc, ec, _⟩ := skipWS_split s2
        cases hsc : skipWS s2 with
        | nil => simp [hsc] at h
        | cons col s3 =>
          rw [hsc] at ec
          simp only [hsc] at h
          split at h
          · rename_i hcol
            simp only [Option.bind_eq_some_iff] at h
            obtain ⟨r1, h1, h⟩ := h
            obtain ⟨w, t, T, hw, hT, e, hd⟩ := skipVal_sound f d s3 r1 h1
            obtain ⟨w1, hw1, e1, _⟩ := skipWS_split r1
            cases hs : skipWS r1 with
            | nil => simp [hs] at h
            | cons c u =>
              rw [hs] at e1
              simp only [hs] at h
              have hup : upTo (skipWS s3) r1 = t := by rw [e, skipWS_spells hw hT, upTo_append]
              rw [hup] at h
              split at h
              · rename_i hc
                simp only [Option.map_eq_some_iff] at h
                obtain ⟨⟨ts', r'⟩, h, he⟩ := h
                simp only [Prod.mk.injEq] at he
                obtain ⟨rfl, rfl⟩ := he
                obtain ⟨l, t', hl, hp, e2, hd2⟩ := rawMembers_sound f d u ts' r' [] ws_nil h
                refine ⟨(kt, T) :: l, wk ++ 34 :: (kt ++ 34 :: (wc ++ 58 :: (w ++ (t ++ (w1 ++ 44 :: t'))))), ?_, .cons _ _ _ _ _ hT hp,
                  by rw [ek, hq, ekt, ec, hcol, e, e1, hc, e2]; simp, fun hm => ?_⟩
                · have := SpellsF.cons kt T (w0 ++ wk) wc w t w1 l t' (ws_append hw0 hwk) hkt hwc hw hT hw1 (by simpa using hl)
                  simpa using this
                · simp only [treeDepthF]
                  have := hd2 hm
                  omega
              · split at h
                · rename_i hc
                  simp only [Option.some.injEq, Prod.mk.injEq] at h
                  obtain ⟨rfl, rfl⟩ := h
                  refine ⟨[(kt, T)], wk ++ 34 :: (kt ++ 34 :: (wc ++ 58 :: (w ++ (t ++ w1)))), ?_, .cons _ _ _ _ _ hT .nil,
                    by rw [ek, hq, ekt, ec, hcol, e, e1, hc]; simp, fun hm => ?_⟩
                  · have := SpellsF.one kt T (w0 ++ wk) wc w t w1 (ws_append hw0 hwk) hkt hwc hw hT hw1
                    simpa using this
                  · simp only [treeDepthF]
                    omega
                · cases h
          · cases h
      · cases h
end

/-! ### the scanner is complete -/

theorem numStop_ws {w : Bytes} (hw : WS w) {r : Bytes} (hr : NumStop r) : NumStop (w ++ r) := by
  cases w with
  | nil => exact hr
  | cons c w =>
    apply numStop_cons
    rcases hw c (by simp) with rfl | rfl | rfl | rfl <;> decide

theorem skipVal_ws {w : Bytes} (hw : WS w) (f d : Nat) (s : Bytes) : skipVal f d (w ++ s) = skipVal f d s := by
  cases f with
  | zero => simp [skipVal]
  | succ f => rw [skipVal, skipVal, skipWS_ws hw]

theorem skipVal_arr (f d : Nat) (s : Bytes) (hd : d < maxDepth) :
    skipVal (f + 1) d (91 :: s) = match skipWS s with
      | [] => none
      | e :: r => if e = 93 then some r else (rawElems f (d + 1) (e :: r)).map (·.2) := by
  rw [skipVal, skipWS_cons (by decide)]
  have : ¬ maxDepth ≤ d := by omega
  simp [this]
  cases skipWS s <;> rfl

theorem skipVal_obj (f d : Nat) (s : Bytes) (hd : d < maxDepth) :
    skipVal (f + 1) d (123 :: s) = match skipWS s with
      | [] => none
      | e :: r => if e = 125 then some r else (rawMembers f (d + 1) (e :: r)).map (·.2) := by
  rw [skipVal, skipWS_cons (by decide)]
  have : ¬ maxDepth ≤ d := by omega
  simp [this]
  cases skipWS s <;> rfl

theorem elems_head {l : List Tree} {u : Bytes} (h : SpellsL l u) (r : Bytes) : ∃ c x, skipWS (u ++ r) = c :: x ∧ c ≠ 93 := by
  cases h with
  | one v w0 t w' h1 h2 h3 =>
    obtain ⟨c, x, e, hc⟩ := spells_head h2
    refine ⟨c, x ++ (w' ++ r), ?_, hc.2.1⟩
    have := skipWS_spells h1 h2 (w' ++ r)
    rw [e] at this ⊢
    simpa using this
  | cons v w0 t w' l' t' h1 h2 h3 h4 =>
    obtain ⟨c, x, e, hc⟩ := spells_head h2
    refine ⟨c, x ++ (w' ++ 44 :: (t' ++ r)), ?_, hc.2.1⟩
    have := skipWS_spells h1 h2 (w' ++ 44 :: (t' ++ r))
    rw [e] at this ⊢
    simpa using this

theorem members_head {l : List (Bytes × Tree)} {u : Bytes} (h : SpellsF l u) (r : Bytes) : ∃ x, skipWS (u ++ r) = 34 :: x := by
  cases h with
  | one k v w0 w1 w2 t w' h0 =>
    rw [List.append_assoc, skipWS_ws h0, List.cons_append, skipWS_cons (by decide)]
    exact ⟨_, rfl⟩
  | cons k v w0 w1 w2 t w' l' t' h0 =>
    rw [List.append_assoc, skipWS_ws h0, List.cons_append, skipWS_cons (by decide)]
    exact ⟨_, rfl⟩

theorem rawElems_ws (f d : Nat) (s : Bytes) : rawElems f d s = rawElems f d (skipWS s) := by
  cases f with
  | zero => simp [rawElems]
  | succ f =>
    obtain ⟨w, hw, e, _⟩ := skipWS_split s
    rw [rawElems, rawElems, skipWS_idem]
    have : skipVal f d s = skipVal f d (skipWS s) := by
      conv => lhs; rw [e]
      exact skipVal_ws hw f d _
    rw [this]

theorem rawMembers_ws (f d : Nat) (s : Bytes) : rawMembers f d s = rawMembers f d (skipWS s) := by
  cases f with
  | zero => simp [rawMembers]
  | succ f => rw [rawMembers, rawMembers, skipWS_idem]

mutual
theorem skipVal_spells : ∀ {T : Tree} {t : Bytes}, Spells T t → ∀ (f d : Nat) (w r : Bytes), WS w → d + T.depth ≤ maxDepth → NumStop r →
    2 * t.length ≤ f → skipVal f d (w ++ (t ++ r)) = some r
  | T, t, h, 0, d, w, r, hw, hd, hr, hf => by
    obtain ⟨c, u, e, _⟩ := spells_head h
    simp [e] at hf
  | _, _, .null, f + 1, d, w, r, hw, hd, hr, hf => by rw [skipVal_ws hw]; simp [skipVal, skipWS, isWS, lit]
  | _, _, .true, f + 1, d, w, r, hw, hd, hr, hf => by rw [skipVal_ws hw]; simp [skipVal, skipWS, isWS, lit]
  | _, _, .false, f + 1, d, w, r, hw, hd, hr, hf => by rw [skipVal_ws hw]; simp [skipVal, skipWS, isWS, lit]
  | _, _, .num n hn, f + 1, d, w, r, hw, hd, hr, hf => by
    rw [skipVal_ws hw, skipVal]
    obtain ⟨c, u, e, hc⟩ := numeral_head hn
    obtain ⟨c', u', e', hc'⟩ := spells_head (.num n hn)
    have hl := numLit_stop hn hr
    rw [e] at e'
    simp only [List.cons.injEq] at e'
    obtain ⟨rfl, rfl⟩ := e'
    rw [e] at hl
    rw [e, List.cons_append, skipWS_cons hc'.1]
    rw [List.cons_append] at hl
    have key : ∀ x : UInt8, x ≠ 45 → isDigit x = false → c ≠ x := by
      rintro x h1 h2 rfl
      rcases hc with h | h
      · exact h1 h
      · rw [h2] at h; cases h
    simp [key 110 (by decide) (by decide), key 116 (by decide) (by decide), key 102 (by decide) (by decide), key 34 (by decide) (by decide),
      key 91 (by decide) (by decide), key 123 (by decide) (by decide), hl]
  | _, _, .str u hu, f + 1, d, w, r, hw, hd, hr, hf => by
    rw [skipVal_ws hw, skipVal, List.cons_append, skipWS_cons (by decide)]
    have := strRaw_text hu r
    simp [this]
  | _, _, .arr0 w1 hw1, f + 1, d, w, r, hw, hd, hr, hf => by
    simp only [Tree.depth] at hd
    rw [skipVal_ws hw, List.cons_append, skipVal_arr f d _ (by omega), List.append_assoc, skipWS_ws hw1, List.singleton_append,
      skipWS_cons (by decide)]
    simp
  | _, _, .arr l u hu, f + 1, d, w, r, hw, hd, hr, hf => by
    simp only [Tree.depth] at hd
    simp only [List.length_cons, List.length_append, List.length_nil] at hf
    obtain ⟨ts, hp, hlen, key⟩ := rawElems_spells hu
    have k := key f (d + 1) r (by omega) (by omega)
    rw [skipVal_ws hw, List.cons_append, skipVal_arr f d _ (by omega), List.append_assoc, List.singleton_append]
    rw [rawElems_ws] at k
    obtain ⟨c, x, e, hc⟩ := elems_head hu (93 :: r)
    rw [e] at k ⊢
    simp [hc, k]
  | _, _, .obj0 w1 hw1, f + 1, d, w, r, hw, hd, hr, hf => by
    simp only [Tree.depth] at hd
    rw [skipVal_ws hw, List.cons_append, skipVal_obj f d _ (by omega), List.append_assoc, skipWS_ws hw1, List.singleton_append,
      skipWS_cons (by decide)]
    simp
  | _, _, .obj l u hu, f + 1, d, w, r, hw, hd, hr, hf => by
    simp only [Tree.depth] at hd
    simp only [List.length_cons, List.length_append, List.length_nil] at hf
    obtain ⟨ts, hp, hlen, key⟩ := rawMembers_spells hu
    have k := key f (d + 1) r (by omega) (by omega)
    rw [skipVal_ws hw, List.cons_append, skipVal_obj f d _ (by omega), List.append_assoc, List.singleton_append]
    rw [rawMembers_ws] at k
    obtain ⟨x, e⟩ := members_head hu (125 :: r)
    rw [e] at k ⊢
    simp [k]
theorem rawElems_spells : ∀ {l : List Tree} {u : Bytes}, SpellsL l u → ∃ ts : List Bytes, Pieces l ts ∧ (∀ x ∈ ts, x.length ≤ u.length) ∧
    ∀ (f d : Nat) (r : Bytes), d + treeDepthL l ≤ maxDepth → 2 * u.length + 1 ≤ f → rawElems f d (u ++ 93 :: r) = some (ts, r)
  | _, _, .one v w t w' hw hv hw' => by
    refine ⟨[t], .cons _ _ _ _ hv .nil, by simp; omega, ?_⟩
    intro f d r hd hf
    obtain ⟨f, rfl⟩ : ∃ g, f = g + 1 := ⟨f - 1, by omega⟩
    simp only [treeDepthL] at hd
    simp only [List.length_append] at hf
    have e : w ++ (t ++ w') ++ 93 :: r = w ++ (t ++ (w' ++ 93 :: r)) := by simp
    rw [e, rawElems, skipVal_spells hv f d w (w' ++ 93 :: r) hw (by omega) (numStop_ws hw' (numStop_cons (by decide) r)) (by omega)]
    simp only [Option.bind_some, skipWS_ws hw', skipWS_spells hw hv, upTo_append]
    rw [skipWS_cons (by decide)]
    simp
  | _, _, .cons v w t w' l t' hw hv hw' hl => by
    obtain ⟨ts, hp, hlen, key⟩ := rawElems_spells hl
    refine ⟨t :: ts, .cons _ _ _ _ hv hp, fun x hx => ?_, ?_⟩
    · simp only [List.length_append, List.length_cons]
      rcases List.mem_cons.1 hx with rfl | hx
      · omega
      · have := hlen x hx; omega
    intro f d r hd hf
    obtain ⟨f, rfl⟩ : ∃ g, f = g + 1 := ⟨f - 1, by omega⟩
    simp only [treeDepthL] at hd
    simp only [List.length_append, List.length_cons] at hf
    have e : w ++ (t ++ (w' ++ 44 :: t')) ++ 93 :: r = w ++ (t ++ (w' ++ 44 :: (t' ++ 93 :: r))) := by simp
    rw [e, rawElems, skipVal_spells hv f d w (w' ++ 44 :: (t' ++ 93 :: r)) hw (by omega) (numStop_ws hw' (numStop_cons (by decide) _)) (by omega)]
    simp only [Option.bind_some, skipWS_ws hw', skipWS_spells hw hv, upTo_append]
    rw [skipWS_cons (by decide)]
    simp [key f d r (by omega) (by omega)]
theorem rawMembers_spells : ∀ {l : List (Bytes × Tree)} {u : Bytes}, SpellsF l u → ∃ ts : List (Bytes × Bytes), PiecesF l ts ∧ (∀ x ∈ ts, x.2.length ≤ u.length) ∧
    ∀ (f d : Nat) (r : Bytes), d + treeDepthF l ≤ maxDepth → 2 * u.length + 1 ≤ f → rawMembers f d (u ++ 125 :: r) = some (ts, r)
  | _, _, .one k v w w1 w2 t w' hw hk hw1 hw2 hv hw' => by
    refine ⟨[(unquote k, t)], .cons _ _ _ _ _ hv .nil, by simp; omega, ?_⟩
    intro f d r hd hf
    obtain ⟨f, rfl⟩ : ∃ g, f = g + 1 := ⟨f - 1, by omega⟩
    simp only [treeDepthF] at hd
    simp only [List.length_append, List.length_cons] at hf
    have e : w ++ 34 :: (k ++ 34 :: (w1 ++ 58 :: (w2 ++ (t ++ w')))) ++ 125 :: r = w ++ 34 :: (k ++ 34 :: (w1 ++ 58 :: (w2 ++ (t ++ (w' ++ 125 :: r))))) := by
      simp
    rw [e, rawMembers, skipWS_ws hw, skipWS_cons (by decide)]
    simp only [if_true, strLit_text hk, Option.bind_some, skipWS_ws hw1]
    rw [skipWS_cons (by decide)]
    simp only [if_true]
    rw [skipVal_spells hv f d w2 (w' ++ 125 :: r) hw2 (by omega) (numStop_ws hw' (numStop_cons (by decide) r)) (by omega)]
    simp only [Option.bind_some, skipWS_ws hw', skipWS_spells hw2 hv, upTo_append]
    rw [skipWS_cons (by decide)]
    simp
  | _, _, .cons k v w w1 w2 t w' l t' hw hk hw1 hw2 hv hw' hl => by
    obtain ⟨ts, hp, hlen, key⟩ := rawMembers_spells hl
    refine ⟨(unquote k, t) :: ts, .cons _ _ _ _ _ hv hp, fun x hx => ?_, ?_⟩
    · simp only [List.length_append, List.length_cons]
      rcases List.mem_cons.1 hx with rfl | hx
      · simp only; omega
      · have := hlen x hx; omega
    intro f d r hd hf
    obtain ⟨f, rfl⟩ : ∃ g, f = g + 1 := ⟨f - 1, by omega⟩
    simp only [treeDepthF] at hd
    simp only [List.length_append, List.length_cons] at hf
    have e : w ++ 34 :: (k ++ 34 :: (w1 ++ 58 :: (w2 ++ (t ++ (w' ++ 44 :: t'))))) ++ 125 :: r =
        w ++ 34 :: (k ++ 34 :: (w1 ++ 58 :: (w2 ++ (t ++ (w' ++ 44 :: (t' ++ 125 :: r)))))) := by simp
    rw [e, rawMembers, skipWS_ws hw, skipWS_cons (by decide)]
    simp only [if_true, strLit_text hk, Option.bind_some, skipWS_ws hw1]
    rw [skipWS_cons (by decide)]
    simp only [if_true]
    rw [skipVal_spells hv f d w2 (w' ++ 44 :: (t' ++ 125 :: r)) hw2 (by omega) (numStop_ws hw' (numStop_cons (by decide) _)) (by omega)]
    simp only [Option.bind_some, skipWS_ws hw', skipWS_spells hw2 hv, upTo_append]
    rw [skipWS_cons (by decide)]
    simp [key f d r (by omega) (by omega)]
end

theorem numStop_of_ws {w : Bytes} (hw : WS w) : NumStop w := by
  have := numStop_ws hw (r := []) (by simp [NumStop])
  rwa [List.append_nil] at this

/-- `checkValid` accepts exactly the texts of the grammar, nested at most 10000 deep -/
theorem checkValid_iff (s : Bytes) : checkValid s = true ↔
    ∃ (w t w' : Bytes) (T : Tree), s = w ++ (t ++ w') ∧ WS w ∧ WS w' ∧ Spells T t ∧ T.depth ≤ maxDepth := by
  unfold checkValid
  constructor
  · intro h
    cases hs : skipVal (fuel s) 0 s with
    | none => simp [hs] at h
    | some r =>
      simp only [hs, decide_eq_true_eq] at h
      obtain ⟨w, t, T, hw, hT, e, hd⟩ := skipVal_sound _ _ _ _ hs
      exact ⟨w, t, r, T, e, hw, (skipWS_nil_iff r).1 h, hT, by omega⟩
  · rintro ⟨w, t, w', T, rfl, hw, hw', hT, hd⟩
    rw [skipVal_spells hT _ 0 w w' hw (by omega) (numStop_of_ws hw') (by simp [fuel]; omega)]
    simp [(skipWS_nil_iff w').2 hw']

/-- the text of an array, taken apart -/
theorem rawSlice_spells {l : List Tree} {t w w' : Bytes} (h : Spells (.arr l) t) (hd : (Tree.arr l).depth ≤ maxDepth) (hw : WS w) (hw' : WS w') :
    ∃ ts : List Bytes, Pieces l ts ∧ (∀ x ∈ ts, x.length < t.length) ∧ rawSlice (w ++ (t ++ w')) = some ts := by
  have hv : checkValid (w ++ (t ++ w')) = true := (checkValid_iff _).2 ⟨w, t, w', _, rfl, hw, hw', h, hd⟩
  unfold rawSlice
  rw [hv, skipWS_spells hw h]
  cases h with
  | arr0 w1 hw1 =>
    refine ⟨[], .nil, by simp, ?_⟩
    simp only [List.cons_append, List.append_assoc, List.nil_append]
    rw [skipWS_ws hw1, skipWS_cons (by decide)]
    simp
  | arr l u hu =>
    obtain ⟨ts, hp, hlen, key⟩ := rawElems_spells hu
    refine ⟨ts, hp, fun x hx => by simp; have := hlen x hx; omega, ?_⟩
    simp only [Tree.depth] at hd
    simp only [List.cons_append, List.append_assoc, List.nil_append]
    have k := key (fuel (w ++ 91 :: (u ++ 93 :: w'))) 1 w' (by omega) (by simp [fuel]; omega)
    rw [rawElems_ws] at k
    obtain ⟨c, x, e, hc⟩ := elems_head hu (93 :: w')
    rw [e] at k ⊢
    simp [hc, k]

/-- the text of an object, taken apart -/
theorem rawMap_spells {m : List (Bytes × Tree)} {t w w' : Bytes} (h : Spells (.obj m) t) (hd : (Tree.obj m).depth ≤ maxDepth) (hw : WS w) (hw' : WS w') :
    ∃ ts : List (Bytes × Bytes), PiecesF m ts ∧ (∀ x ∈ ts, x.2.length < t.length) ∧ rawMap (w ++ (t ++ w')) = some (mapOf ts) := by
  have hv : checkValid (w ++ (t ++ w')) = true := (checkValid_iff _).2 ⟨w, t, w', _, rfl, hw, hw', h, hd⟩
  unfold rawMap
  rw [hv, skipWS_spells hw h]
  cases h with
  | obj0 w1 hw1 =>
    refine ⟨[], .nil, by simp, ?_⟩
    simp only [List.cons_append, List.append_assoc, List.nil_append]
    rw [skipWS_ws hw1, skipWS_cons (by decide)]
    simp [mapOf]
  | obj l u hu =>
    obtain ⟨ts, hp, hlen, key⟩ := rawMembers_spells hu
    refine ⟨ts, hp, fun x hx => by simp; have := hlen x hx; omega, ?_⟩
    simp only [Tree.depth] at hd
    simp only [List.cons_append, List.append_assoc, List.nil_append]
    have k := key (fuel (w ++ 123 :: (u ++ 125 :: w'))) 1 w' (by omega) (by simp [fuel]; omega)
    rw [rawMembers_ws] at k
    obtain ⟨x, e⟩ := members_head hu (125 :: w')
    rw [e] at k ⊢
    simp [k]

end Verif.JsonStd
