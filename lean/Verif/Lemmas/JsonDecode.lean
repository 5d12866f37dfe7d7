import Verif.Lemmas.JsonTree
/-
`json.Unmarshal` into an `interface{}` accepts the texts of the JSON grammar whose numbers are in range, and nothing else.
-/
set_option autoImplicit false
namespace Verif.JsonStd
open JsonG

theorem value_ws (F : FloatCodec) {w : Bytes} (hw : WS w) (f d : Nat) (s : Bytes) : value F f d (w ++ s) = value F f d s := by
  cases f with
  | zero => simp [value]
  | succ f => rw [value, value, skipWS_ws hw]

theorem elems_ws (F : FloatCodec) (f d : Nat) (acc : List Val) (s : Bytes) : elems F f d acc s = elems F f d acc (skipWS s) := by
  cases f with
  | zero => simp [elems]
  | succ f =>
    obtain ⟨w, hw, e, _⟩ := skipWS_split s
    rw [elems, elems]
    have : value F f d s = value F f d (skipWS s) := by
      conv => lhs; rw [e]
      exact value_ws F hw f d _
    rw [this]

theorem members_ws (F : FloatCodec) (f d : Nat) (acc : List (Bytes × Val)) (s : Bytes) : members F f d acc s = members F f d acc (skipWS s) := by
  cases f with
  | zero => simp [members]
  | succ f => rw [members, members, skipWS_idem]

/-! ### what is decoded is also scanned -/

mutual
theorem value_skip (F : FloatCodec) : ∀ (f d : Nat) (s : Bytes) (v : Val) (r : Bytes), value F f d s = some (v, r) → skipVal f d s = some r
  | 0, d, s, v, r, h => by simp [value] at h
  | f + 1, d, s, v, r, h => by
    rw [value] at h
    rw [skipVal]
    cases hs : skipWS s with
    | nil => simp [hs] at h
    | cons c t =>
      simp only [hs] at h ⊢
      split at h
      · rename_i hc
        rw [if_pos hc]
        obtain ⟨e, _⟩ := lit_sound h
        rw [e]; simp [lit]
      · rename_i hc
        rw [if_neg hc]
        split at h
        · rename_i hc
          rw [if_pos hc]
          obtain ⟨e, _⟩ := lit_sound h
          rw [e]; simp [lit]
        · rename_i hc
          rw [if_neg hc]
          split at h
          · rename_i hc
            rw [if_pos hc]
            obtain ⟨e, _⟩ := lit_sound h
            rw [e]; simp [lit]
          · rename_i hc
            rw [if_neg hc]
            split at h
            · rename_i hc
              rw [if_pos hc]
              simp only [strLit, Option.map_eq_some_iff, Prod.mk.injEq] at h
              obtain ⟨p, ⟨q, hq, rfl⟩, _, rfl⟩ := h
              simp [hq]
            · rename_i hc
              rw [if_neg hc]
              split at h
              · rename_i hc
                rw [if_pos hc]
                split at h
                · cases h
                · rename_i hd
                  rw [if_neg hd]
                  cases hs1 : skipWS t with
                  | nil => simp [hs1] at h
                  | cons e u =>
                    simp only [hs1] at h ⊢
                    split at h
                    · rename_i he
                      rw [if_pos he]
                      simp only [Option.some.injEq, Prod.mk.injEq] at h
                      rw [h.2]
                    · rename_i he
                      rw [if_neg he]
                      obtain ⟨ts, hts⟩ := elems_skip F f (d + 1) [] (e :: u) v r h
                      simp [hts]
              · rename_i hc
                rw [if_neg hc]
                split at h
                · rename_i hc
                  rw [if_pos hc]
                  split at h
                  · cases h
                  · rename_i hd
                    rw [if_neg hd]
                    cases hs1 : skipWS t with
                    | nil => simp [hs1] at h
                    | cons e u =>
                      simp only [hs1] at h ⊢
                      split at h
                      · rename_i he
                        rw [if_pos he]
                        simp only [Option.some.injEq, Prod.mk.injEq] at h
                        rw [h.2]
                      · rename_i he
                        rw [if_neg he]
                        obtain ⟨ts, hts⟩ := members_skip F f (d + 1) [] (e :: u) v r h
                        simp [hts]
                · rename_i hc
                  rw [if_neg hc]
                  simp only [Option.bind_eq_some_iff, Option.map_eq_some_iff, Prod.mk.injEq] at h
                  obtain ⟨p, hp, x, _, _, rfl⟩ := h
                  simp [hp]
theorem elems_skip (F : FloatCodec) : ∀ (f d : Nat) (acc : List Val) (s : Bytes) (v : Val) (r : Bytes), elems F f d acc s = some (v, r) →
    ∃ ts, rawElems f d s = some (ts, r)
  | 0, d, acc, s, v, r, h => by simp [elems] at h
  | f + 1, d, acc, s, v, r, h => by
    rw [elems] at h
    rw [rawElems]
    simp only [Option.bind_eq_some_iff] at h
    obtain ⟨⟨x, r1⟩, h1, h⟩ := h
    rw [value_skip F f d s x r1 h1]
    simp only [Option.bind_some] at h ⊢
    cases hs : skipWS r1 with
    | nil => simp [hs] at h
    | cons c t =>
      simp only [hs] at h ⊢
      split at h
      · rename_i hc
        rw [if_pos hc]
        obtain ⟨ts, hts⟩ := elems_skip F f d _ t v r h
        exact ⟨_, by rw [hts]; rfl⟩
      · rename_i hc
        rw [if_neg hc]
        split at h
        · rename_i hc
          rw [if_pos hc]
          simp only [Option.some.injEq, Prod.mk.injEq] at h
          exact ⟨_, by rw [h.2]⟩
        · cases h
theorem members_skip (F : FloatCodec) : ∀ (f d : Nat) (acc : List (Bytes × Val)) (s : Bytes) (v : Val) (r : Bytes), members F f d acc s = some (v, r) →
    ∃ ts, rawMembers f d s = some (ts, r)
  | 0, d, acc, s, v, r, h => by simp [members] at h
  | f + 1, d, acc, s, v, r, h => by
    rw [members] at h
    rw [rawMembers]
    cases hs0 : skipWS s with
    | nil => simp [hs0] at h
    | cons q s1 =>
      simp only [hs0] at h ⊢
      split at h
      · rename_i hq
        rw [if_pos hq]
        simp only [Option.bind_eq_some_iff] at h
        obtain ⟨k, hk, h⟩ := h
        rw [hk]
        simp only [Option.bind_some]
        cases hs2 : skipWS k.2 with
        | nil => simp [hs2] at h
        | cons col s2 =>
          simp only [hs2] at h ⊢
          split at h
          · rename_i hcol
            rw [if_pos hcol]
            simp only [Option.bind_eq_some_iff] at h
            obtain ⟨⟨x, r1⟩, h1, h⟩ := h
            rw [value_skip F f d s2 x r1 h1]
            simp only [Option.bind_some] at h ⊢
            cases hs : skipWS r1 with
            | nil => simp [hs] at h
            | cons c t =>
              simp only [hs] at h ⊢
              split at h
              · rename_i hc
                rw [if_pos hc]
                obtain ⟨ts, hts⟩ := members_skip F f d _ t v r h
                exact ⟨_, by rw [hts]; rfl⟩
              · rename_i hc
                rw [if_neg hc]
                split at h
                · rename_i hc
                  rw [if_pos hc]
                  simp only [Option.some.injEq, Prod.mk.injEq] at h
                  exact ⟨_, by rw [h.2]⟩
                · cases h
          · cases h
      · cases h
end

/-! ### a text of the grammar is decoded to its value -/

theorem value_arr' (F : FloatCodec) (f d : Nat) (s : Bytes) (hd : d < maxDepth) :
    value F (f + 1) d (91 :: s) = match skipWS s with
      | [] => none
      | e :: r => if e = 93 then some (.arr [], r) else elems F f (d + 1) [] (e :: r) := by
  rw [value, skipWS_cons (by decide)]
  have : ¬ maxDepth ≤ d := by omega
  simp [this]
  cases skipWS s <;> rfl

theorem value_obj' (F : FloatCodec) (f d : Nat) (s : Bytes) (hd : d < maxDepth) :
    value F (f + 1) d (123 :: s) = match skipWS s with
      | [] => none
      | e :: r => if e = 125 then some (.obj [], r) else members F f (d + 1) [] (e :: r) := by
  rw [value, skipWS_cons (by decide)]
  have : ¬ maxDepth ≤ d := by omega
  simp [this]
  cases skipWS s <;> rfl

mutual
theorem value_spells (F : FloatCodec) : ∀ {T : Tree} {t : Bytes}, Spells T t → ∀ (f d : Nat) (w r : Bytes), WS w → d + T.depth ≤ maxDepth → NumStop r →
    2 * t.length ≤ f → value F f d (w ++ (t ++ r)) = (plain F T).map fun v => (v, r)
  | T, t, h, 0, d, w, r, hw, hd, hr, hf => by
    obtain ⟨c, u, e, _⟩ := spells_head h
    simp [e] at hf
  | _, _, .null, f + 1, d, w, r, hw, hd, hr, hf => by rw [value_ws F hw]; simp [value, skipWS, isWS, lit, plain]
  | _, _, .true, f + 1, d, w, r, hw, hd, hr, hf => by rw [value_ws F hw]; simp [value, skipWS, isWS, lit, plain]
  | _, _, .false, f + 1, d, w, r, hw, hd, hr, hf => by rw [value_ws F hw]; simp [value, skipWS, isWS, lit, plain]
  | _, _, .num n hn, f + 1, d, w, r, hw, hd, hr, hf => by
    rw [value_ws F hw, value_num F hn hr]; simp [plain, Function.comp_def]
  | _, _, .str u hu, f + 1, d, w, r, hw, hd, hr, hf => by
    rw [value_ws F hw, List.cons_append, value_str, List.append_assoc]
    have := strLit_text hu r
    simp [this, plain]
  | _, _, .arr0 w1 hw1, f + 1, d, w, r, hw, hd, hr, hf => by
    simp only [Tree.depth] at hd
    rw [value_ws F hw, List.cons_append, value_arr' F f d _ (by omega), List.append_assoc, skipWS_ws hw1, List.singleton_append,
      skipWS_cons (by decide)]
    simp [plain, plainL]
  | _, _, .arr l u hu, f + 1, d, w, r, hw, hd, hr, hf => by
    simp only [Tree.depth] at hd
    simp only [List.length_cons, List.length_append, List.length_nil] at hf
    have k := elems_spells F hu f (d + 1) [] r (by omega) (by omega)
    rw [value_ws F hw, List.cons_append, value_arr' F f d _ (by omega), List.append_assoc, List.singleton_append]
    rw [elems_ws] at k
    obtain ⟨c, x, e, hc⟩ := elems_head hu (93 :: r)
    rw [e] at k ⊢
    simp [hc, k, plain, Function.comp_def]
  | _, _, .obj0 w1 hw1, f + 1, d, w, r, hw, hd, hr, hf => by
    simp only [Tree.depth] at hd
    rw [value_ws F hw, List.cons_append, value_obj' F f d _ (by omega), List.append_assoc, skipWS_ws hw1, List.singleton_append,
      skipWS_cons (by decide)]
    simp [plain, plainF, mapOf]
  | _, _, .obj l u hu, f + 1, d, w, r, hw, hd, hr, hf => by
    simp only [Tree.depth] at hd
    simp only [List.length_cons, List.length_append, List.length_nil] at hf
    have k := members_spells F hu f (d + 1) [] r (by omega) (by omega)
    rw [value_ws F hw, List.cons_append, value_obj' F f d _ (by omega), List.append_assoc, List.singleton_append]
    rw [members_ws] at k
    obtain ⟨x, e⟩ := members_head hu (125 :: r)
    rw [e] at k ⊢
    simp [k, plain, mapOf, Function.comp_def]
theorem elems_spells (F : FloatCodec) : ∀ {l : List Tree} {u : Bytes}, SpellsL l u → ∀ (f d : Nat) (acc : List Val) (r : Bytes),
    d + treeDepthL l ≤ maxDepth → 2 * u.length + 1 ≤ f →
    elems F f d acc (u ++ 93 :: r) = (plainL F l).map fun vs => (.arr (acc ++ vs), r)
  | _, _, .one v w t w' hw hv hw', f, d, acc, r, hd, hf => by
    obtain ⟨f, rfl⟩ : ∃ g, f = g + 1 := ⟨f - 1, by omega⟩
    simp only [treeDepthL] at hd
    simp only [List.length_append] at hf
    have e : w ++ (t ++ w') ++ 93 :: r = w ++ (t ++ (w' ++ 93 :: r)) := by simp
    rw [e, elems, value_spells F hv f d w (w' ++ 93 :: r) hw (by omega) (numStop_ws hw' (numStop_cons (by decide) r)) (by omega)]
    cases hp : plain F v with
    | none => simp [plainL, hp]
    | some x =>
      simp only [Option.map_some, Option.bind_some, skipWS_ws hw']
      rw [skipWS_cons (by decide)]
      simp [plainL, hp]
  | _, _, .cons v w t w' l t' hw hv hw' hl, f, d, acc, r, hd, hf => by
    obtain ⟨f, rfl⟩ : ∃ g, f = g + 1 := ⟨f - 1, by omega⟩
    simp only [treeDepthL] at hd
    simp only [List.length_append, List.length_cons] at hf
    have e : w ++ (t ++ (w' ++ 44 :: t')) ++ 93 :: r = w ++ (t ++ (w' ++ 44 :: (t' ++ 93 :: r))) := by simp
    rw [e, elems, value_spells F hv f d w (w' ++ 44 :: (t' ++ 93 :: r)) hw (by omega) (numStop_ws hw' (numStop_cons (by decide) _)) (by omega)]
    cases hp : plain F v with
    | none => simp [plainL, hp]
    | some x =>
      simp only [Option.map_some, Option.bind_some, skipWS_ws hw']
      rw [skipWS_cons (by decide)]
      simp only [if_true]
      rw [elems_spells F hl f d (acc ++ [x]) r (by omega) (by omega)]
      simp [plainL, hp, Function.comp_def]
theorem members_spells (F : FloatCodec) : ∀ {l : List (Bytes × Tree)} {u : Bytes}, SpellsF l u → ∀ (f d : Nat) (acc : List (Bytes × Val)) (r : Bytes),
    d + treeDepthF l ≤ maxDepth → 2 * u.length + 1 ≤ f →
    members F f d acc (u ++ 125 :: r) = (plainF F l).map fun m => (.obj (m.foldl (fun a p => mapSet a p.1 p.2) acc), r)
  | _, _, .one k v w w1 w2 t w' hw hk hw1 hw2 hv hw', f, d, acc, r, hd, hf => by
    obtain ⟨f, rfl⟩ : ∃ g, f = g + 1 := ⟨f - 1, by omega⟩
    simp only [treeDepthF] at hd
    simp only [List.length_append, List.length_cons] at hf
    have e : w ++ 34 :: (k ++ 34 :: (w1 ++ 58 :: (w2 ++ (t ++ w')))) ++ 125 :: r = w ++ 34 :: (k ++ 34 :: (w1 ++ 58 :: (w2 ++ (t ++ (w' ++ 125 :: r))))) := by
      simp
    rw [e, members, skipWS_ws hw, skipWS_cons (by decide)]
    simp only [if_true, strLit_text hk, Option.bind_some, skipWS_ws hw1]
    rw [skipWS_cons (by decide)]
    simp only [if_true]
    rw [value_spells F hv f d w2 (w' ++ 125 :: r) hw2 (by omega) (numStop_ws hw' (numStop_cons (by decide) r)) (by omega)]
    cases hp : plain F v with
    | none => simp [plainF, hp]
    | some x =>
      simp only [Option.map_some, Option.bind_some, skipWS_ws hw']
      rw [skipWS_cons (by decide)]
      simp [plainF, hp]
  | _, _, .cons k v w w1 w2 t w' l t' hw hk hw1 hw2 hv hw' hl, f, d, acc, r, hd, hf => by
    obtain ⟨f, rfl⟩ : ∃ g, f = g + 1 := ⟨f - 1, by omega⟩
    simp only [treeDepthF] at hd
    simp only [List.length_append, List.length_cons] at hf
    have e : w ++ 34 :: (k ++ 34 :: (w1 ++ 58 :: (w2 ++ (t ++ (w' ++ 44 :: t'))))) ++ 125 :: r =
        w ++ 34 :: (k ++ 34 :: (w1 ++ 58 :: (w2 ++ (t ++ (w' ++ 44 :: (t' ++ 125 :: r)))))) := by simp
    rw [e, members, skipWS_ws hw, skipWS_cons (by decide)]
    simp only [if_true, strLit_text hk, Option.bind_some, skipWS_ws hw1]
    rw [skipWS_cons (by decide)]
    simp only [if_true]
    rw [value_spells F hv f d w2 (w' ++ 44 :: (t' ++ 125 :: r)) hw2 (by omega) (numStop_ws hw' (numStop_cons (by decide) _)) (by omega)]
    cases hp : plain F v with
    | none => simp [plainF, hp]
    | some x =>
      simp only [Option.map_some, Option.bind_some, skipWS_ws hw']
      rw [skipWS_cons (by decide)]
      simp only [if_true]
      rw [members_spells F hl f d (mapSet acc (unquote k) x) r (by omega) (by omega)]
      simp [plainF, hp, Function.comp_def]
end

/-- `json.Unmarshal` reads exactly the texts of the grammar nested at most 10000 deep whose numbers are in range -/
theorem unmarshal_iff (F : FloatCodec) (s : Bytes) (v : Val) : unmarshal F s = some v ↔
    ∃ (w t w' : Bytes) (T : Tree), s = w ++ (t ++ w') ∧ WS w ∧ WS w' ∧ Spells T t ∧ T.depth ≤ maxDepth ∧ plain F T = some v := by
  unfold unmarshal
  constructor
  · intro h
    simp only [Option.bind_eq_some_iff] at h
    obtain ⟨⟨x, r⟩, hv, h⟩ := h
    simp only at h
    split at h
    · rename_i hr
      simp only [Option.some.injEq] at h
      subst h
      have hws := (skipWS_nil_iff r).1 hr
      obtain ⟨w, t, T, hw, hT, e, hd⟩ := skipVal_sound _ _ _ _ (value_skip F _ _ _ _ _ hv)
      have hd' : T.depth ≤ maxDepth := by omega
      refine ⟨w, t, r, T, e, hw, hws, hT, hd', ?_⟩
      rw [e, value_spells F hT _ 0 w r hw (by omega) (numStop_of_ws hws) (by simp; omega)] at hv
      simp only [Option.map_eq_some_iff, Prod.mk.injEq, and_true] at hv
      obtain ⟨y, hy, rfl⟩ := hv
      exact hy
    · cases h
  · rintro ⟨w, t, w', T, rfl, hw, hw', hT, hd, hp⟩
    rw [value_spells F hT _ 0 w w' hw (by omega) (numStop_of_ws hw') (by simp; omega), hp]
    simp [(skipWS_nil_iff w').2 hw']

end Verif.JsonStd
