import Verif.Lemmas.JsonDecode
/-
The tree parser reads the texts of the JSON grammar and nothing else, and what `json.Marshal` writes is such a text.
-/
set_option autoImplicit false
namespace Verif.JsonStd
open JsonG

theorem litTree_lit {tok : Bytes} {T v : Tree} {s r : Bytes} (w : Val) (h : litTree tok T s = some (v, r)) : (lit tok w s).map (·.2) = some r := by
  unfold litTree at h
  unfold lit
  split at h
  · rename_i hp
    rw [if_pos hp]
    simp only [Option.some.injEq, Prod.mk.injEq] at h
    simp [h.2]
  · cases h

theorem treeVal_ws {w : Bytes} (hw : WS w) (f d : Nat) (s : Bytes) : treeVal f d (w ++ s) = treeVal f d s := by
  cases f with
  | zero => simp [treeVal]
  | succ f => rw [treeVal, treeVal, skipWS_ws hw]

theorem treeElems_ws (f d : Nat) (s : Bytes) : treeElems f d s = treeElems f d (skipWS s) := by
  cases f with
  | zero => simp [treeElems]
  | succ f =>
    obtain ⟨w, hw, e, _⟩ := skipWS_split s
    rw [treeElems, treeElems]
    have : treeVal f d s = treeVal f d (skipWS s) := by
      conv => lhs; rw [e]
      exact treeVal_ws hw f d _
    rw [this]

theorem treeMembers_ws (f d : Nat) (s : Bytes) : treeMembers f d s = treeMembers f d (skipWS s) := by
  cases f with
  | zero => simp [treeMembers]
  | succ f => rw [treeMembers, treeMembers, skipWS_idem]

mutual
theorem treeVal_skip : ∀ (f d : Nat) (s : Bytes) (v : Tree) (r : Bytes), treeVal f d s = some (v, r) → skipVal f d s = some r
  | 0, d, s, v, r, h => by simp [treeVal] at h
  | f + 1, d, s, v, r, h => by
    rw [treeVal] at h
    rw [skipVal]
    cases hs : skipWS s with
    | nil => simp [hs] at h
    | cons c t =>
      simp only [hs] at h ⊢
      split at h
      · rename_i hc
        rw [if_pos hc]
        exact litTree_lit _ h
      · rename_i hc
        rw [if_neg hc]
        split at h
        · rename_i hc
          rw [if_pos hc]
          exact litTree_lit _ h
        · rename_i hc
          rw [if_neg hc]
          split at h
          · rename_i hc
            rw [if_pos hc]
            exact litTree_lit _ h
          · rename_i hc
            rw [if_neg hc]
            split at h
            · rename_i hc
              rw [if_pos hc]
              simp only [Option.map_eq_some_iff, Prod.mk.injEq] at h
              obtain ⟨q, hq, _, rfl⟩ := h
              simp [hq]
            · rename_i hc
              rw [if_neg hc]
              split at h
              · rename_i hc
                rw [if_pos hc]
                split at h
                · cases h
                · rename_i hd
                  rw [if_neg hd]
                  cases hs1 : skipWS t with
                  | nil => simp [hs1] at h
                  | cons e u =>
                    simp only [hs1] at h ⊢
                    split at h
                    · rename_i he
                      rw [if_pos he]
                      simp only [Option.some.injEq, Prod.mk.injEq] at h
                      rw [h.2]
                    · rename_i he
                      rw [if_neg he]
                      simp only [Option.map_eq_some_iff, Prod.mk.injEq] at h
                      obtain ⟨⟨l, r'⟩, hl, _, rfl⟩ := h
                      obtain ⟨ts, hts⟩ := treeElems_skip f (d + 1) (e :: u) l r' hl
                      simp [hts]
              · rename_i hc
                rw [if_neg hc]
                split at h
                · rename_i hc
                  rw [if_pos hc]
                  split at h
                  · cases h
                  · rename_i hd
                    rw [if_neg hd]
                    cases hs1 : skipWS t with
                    | nil => simp [hs1] at h
                    | cons e u =>
                      simp only [hs1] at h ⊢
                      split at h
                      · rename_i he
                        rw [if_pos he]
                        simp only [Option.some.injEq, Prod.mk.injEq] at h
                        rw [h.2]
                      · rename_i he
                        rw [if_neg he]
                        simp only [Option.map_eq_some_iff, Prod.mk.injEq] at h
                        obtain ⟨⟨l, r'⟩, hl, _, rfl⟩ := h
                        obtain ⟨ts, hts⟩ := treeMembers_skip f (d + 1) (e :: u) l r' hl
                        simp [hts]
                · rename_i hc
                  rw [if_neg hc]
                  simp only [Option.map_eq_some_iff, Prod.mk.injEq] at h
                  obtain ⟨p, hp, _, rfl⟩ := h
                  simp [hp]
theorem treeElems_skip : ∀ (f d : Nat) (s : Bytes) (l : List Tree) (r : Bytes), treeElems f d s = some (l, r) →
    ∃ ts, rawElems f d s = some (ts, r)
  | 0, d, s, l, r, h => by simp [treeElems] at h
  | f + 1, d, s, l, r, h => by
    rw [treeElems] at h
    rw [rawElems]
    simp only [Option.bind_eq_some_iff] at h
    obtain ⟨⟨x, r1⟩, h1, h⟩ := h
    rw [treeVal_skip f d s x r1 h1]
    simp only [Option.bind_some] at h ⊢
    cases hs : skipWS r1 with
    | nil => simp [hs] at h
    | cons c t =>
      simp only [hs] at h ⊢
      split at h
      · rename_i hc
        rw [if_pos hc]
        simp only [Option.map_eq_some_iff, Prod.mk.injEq] at h
        obtain ⟨⟨l, r'⟩, hl, _, rfl⟩ := h
        obtain ⟨ts, hts⟩ := treeElems_skip f d t l r' hl
        exact ⟨_, by rw [hts]; rfl⟩
      · rename_i hc
        rw [if_neg hc]
        split at h
        · rename_i hc
          rw [if_pos hc]
          simp only [Option.some.injEq, Prod.mk.injEq] at h
          exact ⟨_, by rw [h.2]⟩
        · cases h
theorem treeMembers_skip : ∀ (f d : Nat) (s : Bytes) (l : List (Bytes × Tree)) (r : Bytes), treeMembers f d s = some (l, r) →
    ∃ ts, rawMembers f d s = some (ts, r)
  | 0, d, s, l, r, h => by simp [treeMembers] at h
  | f + 1, d, s, l, r, h => by
    rw [treeMembers] at h
    rw [rawMembers]
    cases hs0 : skipWS s with
    | nil => simp [hs0] at h
    | cons q s1 =>
      simp only [hs0] at h ⊢
      split at h
      · rename_i hq
        rw [if_pos hq]
        simp only [Option.bind_eq_some_iff] at h
        obtain ⟨⟨k, s1'⟩, hk, h⟩ := h
        simp only at h
        rw [strLit, hk]
        simp only [Option.map_some, Option.bind_some]
        cases hs2 : skipWS s1' with
        | nil => simp [hs2] at h
        | cons col s2 =>
          simp only [hs2] at h ⊢
          split at h
          · rename_i hcol
            rw [if_pos hcol]
            simp only [Option.bind_eq_some_iff] at h
            obtain ⟨⟨x, r1⟩, h1, h⟩ := h
            rw [treeVal_skip f d s2 x r1 h1]
            simp only [Option.bind_some] at h ⊢
            cases hs : skipWS r1 with
            | nil => simp [hs] at h
            | cons c t =>
              simp only [hs] at h ⊢
              split at h
              · rename_i hc
                rw [if_pos hc]
                simp only [Option.map_eq_some_iff, Prod.mk.injEq] at h
                obtain ⟨⟨l, r'⟩, hl, _, rfl⟩ := h
                obtain ⟨ts, hts⟩ := treeMembers_skip f d t l r' hl
                exact ⟨_, by rw [hts]; rfl⟩
              · rename_i hc
                rw [if_neg hc]
                split at h
                · rename_i hc
                  rw [if_pos hc]
                  simp only [Option.some.injEq, Prod.mk.injEq] at h
                  exact ⟨_, by rw [h.2]⟩
                · cases h
          · cases h
      · cases h
end

theorem treeVal_num {n r : Bytes} (h : Numeral n) (hr : NumStop r) (f d : Nat) : treeVal (f + 1) d (n ++ r) = some (.num n, r) := by
  have key := numLit_stop h hr
  obtain ⟨c, t, rfl, hc⟩ := numeral_head h
  have hne : ∀ x ∈ [(32 : UInt8), 10, 13, 9, 110, 116, 102, 34, 91, 123], c ≠ x := by
    rintro x hx rfl
    rcases hc with rfl | hc
    · revert hx; decide
    · clear key h; revert hx hc; revert c; decide
  simp only [List.mem_cons, List.not_mem_nil, or_false, forall_eq_or_imp, forall_eq] at hne
  simp only [List.cons_append] at key ⊢
  rw [treeVal]
  simp [skipWS, isWS, hne, key]

theorem treeVal_str (f d : Nat) (t : Bytes) : treeVal (f + 1) d (34 :: t) = (strRaw t).map fun p => (.str p.1, p.2) := by
  rw [treeVal, skipWS_cons (by decide)]; simp

theorem treeVal_arr (f d : Nat) (s : Bytes) (hd : d < maxDepth) :
    treeVal (f + 1) d (91 :: s) = match skipWS s with
      | [] => none
      | e :: r => if e = 93 then some (.arr [], r) else (treeElems f (d + 1) (e :: r)).map fun p => (.arr p.1, p.2) := by
  rw [treeVal, skipWS_cons (by decide)]
  have : ¬ maxDepth ≤ d := by omega
  simp [this]
  cases skipWS s <;> rfl

theorem treeVal_obj (f d : Nat) (s : Bytes) (hd : d < maxDepth) :
    treeVal (f + 1) d (123 :: s) = match skipWS s with
      | [] => none
      | e :: r => if e = 125 then some (.obj [], r) else (treeMembers f (d + 1) (e :: r)).map fun p => (.obj p.1, p.2) := by
  rw [treeVal, skipWS_cons (by decide)]
  have : ¬ maxDepth ≤ d := by omega
  simp [this]
  cases skipWS s <;> rfl

mutual
theorem treeVal_spells : ∀ {T : Tree} {t : Bytes}, Spells T t → ∀ (f d : Nat) (w r : Bytes), WS w → d + T.depth ≤ maxDepth → NumStop r →
    2 * t.length ≤ f → treeVal f d (w ++ (t ++ r)) = some (T, r)
  | T, t, h, 0, d, w, r, hw, hd, hr, hf => by
    obtain ⟨c, u, e, _⟩ := spells_head h
    simp [e] at hf
  | _, _, .null, f + 1, d, w, r, hw, hd, hr, hf => by rw [treeVal_ws hw]; simp [treeVal, skipWS, isWS, litTree]
  | _, _, .true, f + 1, d, w, r, hw, hd, hr, hf => by rw [treeVal_ws hw]; simp [treeVal, skipWS, isWS, litTree]
  | _, _, .false, f + 1, d, w, r, hw, hd, hr, hf => by rw [treeVal_ws hw]; simp [treeVal, skipWS, isWS, litTree]
  | _, _, .num n hn, f + 1, d, w, r, hw, hd, hr, hf => by
    rw [treeVal_ws hw, treeVal_num hn hr]
  | _, _, .str u hu, f + 1, d, w, r, hw, hd, hr, hf => by
    rw [treeVal_ws hw, List.cons_append, treeVal_str, List.append_assoc]
    have := strRaw_text hu r
    simp [this]
  | _, _, .arr0 w1 hw1, f + 1, d, w, r, hw, hd, hr, hf => by
    simp only [Tree.depth] at hd
    rw [treeVal_ws hw, List.cons_append, treeVal_arr f d _ (by omega), List.append_assoc, skipWS_ws hw1, List.singleton_append,
      skipWS_cons (by decide)]
    simp
  | _, _, .arr l u hu, f + 1, d, w, r, hw, hd, hr, hf => by
    simp only [Tree.depth] at hd
    simp only [List.length_cons, List.length_append, List.length_nil] at hf
    have k := treeElems_spells hu f (d + 1) r (by omega) (by omega)
    rw [treeVal_ws hw, List.cons_append, treeVal_arr f d _ (by omega), List.append_assoc, List.singleton_append]
    rw [treeElems_ws] at k
    obtain ⟨c, x, e, hc⟩ := elems_head hu (93 :: r)
    rw [e] at k ⊢
    simp [hc, k]
  | _, _, .obj0 w1 hw1, f + 1, d, w, r, hw, hd, hr, hf => by
    simp only [Tree.depth] at hd
    rw [treeVal_ws hw, List.cons_append, treeVal_obj f d _ (by omega), List.append_assoc, skipWS_ws hw1, List.singleton_append,
      skipWS_cons (by decide)]
    simp
  | _, _, .obj l u hu, f + 1, d, w, r, hw, hd, hr, hf => by
    simp only [Tree.depth] at hd
    simp only [List.length_cons, List.length_append, List.length_nil] at hf
    have k := treeMembers_spells hu f (d + 1) r (by omega) (by omega)
    rw [treeVal_ws hw, List.cons_append, treeVal_obj f d _ (by omega), List.append_assoc, List.singleton_append]
    rw [treeMembers_ws] at k
    obtain ⟨x, e⟩ := members_head hu (125 :: r)
    rw [e] at k ⊢
    simp [k]
theorem treeElems_spells : ∀ {l : List Tree} {u : Bytes}, SpellsL l u → ∀ (f d : Nat) (r : Bytes),
    d + treeDepthL l ≤ maxDepth → 2 * u.length + 1 ≤ f → treeElems f d (u ++ 93 :: r) = some (l, r)
  | _, _, .one v w t w' hw hv hw', f, d, r, hd, hf => by
    obtain ⟨f, rfl⟩ : ∃ g, f = g + 1 := ⟨f - 1, by omega⟩
    simp only [treeDepthL] at hd
    simp only [List.length_append] at hf
    have e : w ++ (t ++ w') ++ 93 :: r = w ++ (t ++ (w' ++ 93 :: r)) := by simp
    rw [e, treeElems, treeVal_spells hv f d w (w' ++ 93 :: r) hw (by omega) (numStop_ws hw' (numStop_cons (by decide) r)) (by omega)]
    simp only [Option.bind_some, skipWS_ws hw']
    rw [skipWS_cons (by decide)]
    simp
  | _, _, .cons v w t w' l t' hw hv hw' hl, f, d, r, hd, hf => by
    obtain ⟨f, rfl⟩ : ∃ g, f = g + 1 := ⟨f - 1, by omega⟩
    simp only [treeDepthL] at hd
    simp only [List.length_append, List.length_cons] at hf
    have e : w ++ (t ++ (w' ++ 44 :: t')) ++ 93 :: r = w ++ (t ++ (w' ++ 44 :: (t' ++ 93 :: r))) := by simp
    rw [e, treeElems, treeVal_spells hv f d w (w' ++ 44 :: (t' ++ 93 :: r)) hw (by omega) (numStop_ws hw' (numStop_cons (by decide) _)) (by omega)]
    simp only [Option.bind_some, skipWS_ws hw']
    rw [skipWS_cons (by decide)]
    simp only [if_true]
    rw [treeElems_spells hl f d r (by omega) (by omega)]
    simp
theorem treeMembers_spells : ∀ {l : List (Bytes × Tree)} {u : Bytes}, SpellsF l u → ∀ (f d : Nat) (r : Bytes),
    d + treeDepthF l ≤ maxDepth → 2 * u.length + 1 ≤ f → treeMembers f d (u ++ 125 :: r) = some (l, r)
  | _, _, .one k v w w1 w2 t w' hw hk hw1 hw2 hv hw', f, d, r, hd, hf => by
    obtain ⟨f, rfl⟩ : ∃ g, f = g + 1 := ⟨f - 1, by omega⟩
    simp only [treeDepthF] at hd
    simp only [List.length_append, List.length_cons] at hf
    have e : w ++ 34 :: (k ++ 34 :: (w1 ++ 58 :: (w2 ++ (t ++ w')))) ++ 125 :: r = w ++ 34 :: (k ++ 34 :: (w1 ++ 58 :: (w2 ++ (t ++ (w' ++ 125 :: r))))) := by
      simp
    rw [e, treeMembers, skipWS_ws hw, skipWS_cons (by decide)]
    simp only [if_true, strRaw_text hk, Option.bind_some, skipWS_ws hw1]
    rw [skipWS_cons (by decide)]
    simp only [if_true]
    rw [treeVal_spells hv f d w2 (w' ++ 125 :: r) hw2 (by omega) (numStop_ws hw' (numStop_cons (by decide) r)) (by omega)]
    simp only [Option.bind_some, skipWS_ws hw']
    rw [skipWS_cons (by decide)]
    simp
  | _, _, .cons k v w w1 w2 t w' l t' hw hk hw1 hw2 hv hw' hl, f, d, r, hd, hf => by
    obtain ⟨f, rfl⟩ : ∃ g, f = g + 1 := ⟨f - 1, by omega⟩
    simp only [treeDepthF] at hd
    simp only [List.length_append, List.length_cons] at hf
    have e : w ++ 34 :: (k ++ 34 :: (w1 ++ 58 :: (w2 ++ (t ++ (w' ++ 44 :: t'))))) ++ 125 :: r =
        w ++ 34 :: (k ++ 34 :: (w1 ++ 58 :: (w2 ++ (t ++ (w' ++ 44 :: (t' ++ 125 :: r)))))) := by simp
    rw [e, treeMembers, skipWS_ws hw, skipWS_cons (by decide)]
    simp only [if_true, strRaw_text hk, Option.bind_some, skipWS_ws hw1]
    rw [skipWS_cons (by decide)]
    simp only [if_true]
    rw [treeVal_spells hv f d w2 (w' ++ 44 :: (t' ++ 125 :: r)) hw2 (by omega) (numStop_ws hw' (numStop_cons (by decide) _)) (by omega)]
    simp only [Option.bind_some, skipWS_ws hw']
    rw [skipWS_cons (by decide)]
    simp only [if_true]
    rw [treeMembers_spells hl f d r (by omega) (by omega)]
    simp
end

/-- a text has a tree exactly when it is JSON nested at most 10000 deep, and the tree is the one it spells -/
theorem tree_iff (s : Bytes) (T : Tree) : tree s = some T ↔
    ∃ (w t w' : Bytes), s = w ++ (t ++ w') ∧ WS w ∧ WS w' ∧ Spells T t ∧ T.depth ≤ maxDepth := by
  unfold tree
  constructor
  · intro h
    simp only [Option.bind_eq_some_iff] at h
    obtain ⟨⟨x, r⟩, hv, h⟩ := h
    simp only at h
    split at h
    · rename_i hr
      simp only [Option.some.injEq] at h
      subst h
      have hws := (skipWS_nil_iff r).1 hr
      obtain ⟨w, t, T, hw, hT, e, hd⟩ := skipVal_sound _ _ _ _ (treeVal_skip _ _ _ _ _ hv)
      have hd' : T.depth ≤ maxDepth := by omega
      rw [e, treeVal_spells hT _ 0 w r hw (by omega) (numStop_of_ws hws) (by simp; omega)] at hv
      simp only [Option.some.injEq, Prod.mk.injEq, and_true] at hv
      subst hv
      exact ⟨w, t, r, e, hw, hws, hT, hd'⟩
    · cases h
  · rintro ⟨w, t, w', rfl, hw, hw', hT, hd⟩
    rw [treeVal_spells hT _ 0 w w' hw (by omega) (numStop_of_ws hw') (by simp; omega)]
    simp [(skipWS_nil_iff w').2 hw']

/-- decoding into an `interface{}` goes through the tree -/
theorem unmarshal_tree (F : FloatCodec) (s : Bytes) : unmarshal F s = (tree s).bind (plain F) := by
  ext v
  rw [unmarshal_iff]
  constructor
  · rintro ⟨w, t, w', T, e, hw, hw', hT, hd, hp⟩
    rw [(tree_iff s T).2 ⟨w, t, w', e, hw, hw', hT, hd⟩]
    exact hp
  · intro h
    simp only [Option.bind_eq_some_iff] at h
    obtain ⟨T, hT, hp⟩ := h
    obtain ⟨w, t, w', e, hw, hw', hT, hd⟩ := (tree_iff s T).1 hT
    exact ⟨w, t, w', T, e, hw, hw', hT, hd, hp⟩

/-! ### what `json.Marshal` writes -/

mutual
/-- the tree of the text written for a value -/
def treeOf (F : FloatCodec) : Val → Tree
  | .null => .null
  | .bool b => .bool b
  | .int i => .num (fmtInt i)
  | .gint i => .num (fmtInt i)
  | .f64 x => .num (F.fmt x)
  | .str s => .str (escBody 0 s)
  | .bytes s => .str (base64 s)
  | .arr l => .arr (treeOfL F l)
  | .obj m => .obj (treeOfF F m)
def treeOfL (F : FloatCodec) : List Val → List Tree
  | [] => []
  | v :: l => treeOf F v :: treeOfL F l
def treeOfF (F : FloatCodec) : List (Bytes × Val) → List (Bytes × Tree)
  | [] => []
  | (k, v) :: m => (escBody 0 k, treeOf F v) :: treeOfF F m
end

theorem strText_esc (s : Bytes) : StrText (escBody 0 s) := by
  have := strLit_esc s []
  obtain ⟨t, ht, e, _⟩ := strLit_sound this
  have h2 : escBody 0 s = t := by
    have := congrArg List.dropLast e
    simpa using this
  rw [h2]; exact ht

theorem unquote_esc (s : Bytes) : unquote (escBody 0 s) = toValidUtf8 0 s := by
  have h := strLit_esc s []
  rw [strLit_text (strText_esc s)] at h
  simp only [Option.some.injEq, Prod.mk.injEq, and_true] at h
  exact h

theorem strText_base64 (s : Bytes) : StrText (base64 s) := by
  have := strLit_base64 s []
  obtain ⟨t, ht, e, _⟩ := strLit_sound this
  have h2 : base64 s = t := by
    have := congrArg List.dropLast e
    simpa using this
  rw [h2]; exact ht

theorem unquote_base64 (s : Bytes) : unquote (base64 s) = base64 s := by
  have h := strLit_base64 s []
  rw [strLit_text (strText_base64 s)] at h
  simp only [Option.some.injEq, Prod.mk.injEq, and_true] at h
  exact h

mutual
theorem spells_enc (F : FloatCodec) : ∀ v : Val, NumsOK F v → Spells (treeOf F v) (enc F v)
  | .null, _ => .null
  | .bool true, _ => .true
  | .bool false, _ => .false
  | .int i, _ => .num _ (fmtInt_numeral i)
  | .gint i, _ => .num _ (fmtInt_numeral i)
  | .f64 x, h => .num _ h
  | .str s, _ => .str _ (strText_esc s)
  | .bytes s, _ => .str _ (strText_base64 s)
  | .arr l, h => by
    cases l with
    | nil => exact .arr0 [] ws_nil
    | cons v l => exact .arr _ _ (spellsL_enc F (v :: l) h (by simp))
  | .obj m, h => by
    cases m with
    | nil => exact .obj0 [] ws_nil
    | cons x m => exact .obj _ _ (spellsF_enc F (x :: m) h (by simp))
theorem spellsL_enc (F : FloatCodec) : ∀ (l : List Val), NumsOKL F l → l ≠ [] → SpellsL (treeOfL F l) (encL F l)
  | [], _, h0 => absurd rfl h0
  | v :: l, h, _ => by
    cases l with
    | nil =>
      have := SpellsL.one (treeOf F v) [] (enc F v) [] ws_nil (spells_enc F v h.1) ws_nil
      simpa [treeOfL, encL] using this
    | cons w l =>
      have := SpellsL.cons (treeOf F v) [] (enc F v) [] _ _ ws_nil (spells_enc F v h.1) ws_nil (spellsL_enc F (w :: l) h.2 (by simp))
      simpa [treeOfL, encL] using this
theorem spellsF_enc (F : FloatCodec) : ∀ (m : List (Bytes × Val)), NumsOKF F m → m ≠ [] → SpellsF (treeOfF F m) (encF F m)
  | [], _, h0 => absurd rfl h0
  | (k, v) :: m, h, _ => by
    cases m with
    | nil =>
      have := SpellsF.one (escBody 0 k) (treeOf F v) [] [] [] (enc F v) [] ws_nil (strText_esc k) ws_nil ws_nil (spells_enc F v h.1) ws_nil
      simpa [treeOfF, encF, jsonStr] using this
    | cons x m =>
      have := SpellsF.cons (escBody 0 k) (treeOf F v) [] [] [] (enc F v) [] _ _ ws_nil (strText_esc k) ws_nil ws_nil (spells_enc F v h.1) ws_nil
        (spellsF_enc F (x :: m) h.2 (by simp))
      simpa [treeOfF, encF, jsonStr] using this
end

mutual
theorem depth_treeOf (F : FloatCodec) : ∀ v : Val, (treeOf F v).depth = depth v
  | .null => rfl
  | .bool _ => rfl
  | .int _ => rfl
  | .gint _ => rfl
  | .f64 _ => rfl
  | .str _ => rfl
  | .bytes _ => rfl
  | .arr l => by simp [treeOf, Tree.depth, depth, depthL_treeOf F l]
  | .obj m => by simp [treeOf, Tree.depth, depth, depthF_treeOf F m]
theorem depthL_treeOf (F : FloatCodec) : ∀ l : List Val, treeDepthL (treeOfL F l) = depthL l
  | [] => rfl
  | v :: l => by simp [treeOfL, treeDepthL, depthL, depth_treeOf F v, depthL_treeOf F l]
theorem depthF_treeOf (F : FloatCodec) : ∀ m : List (Bytes × Val), treeDepthF (treeOfF F m) = depthF m
  | [] => rfl
  | (k, v) :: m => by simp [treeOfF, treeDepthF, depthF, depth_treeOf F v, depthF_treeOf F m]
end

mutual
theorem plain_treeOf (F : FloatCodec) : ∀ v : Val, plain F (treeOf F v) = jnorm F v
  | .null => rfl
  | .bool _ => rfl
  | .int _ => rfl
  | .gint _ => rfl
  | .f64 _ => rfl
  | .str s => by simp [treeOf, plain, jnorm, unquote_esc]
  | .bytes s => by simp [treeOf, plain, jnorm, unquote_base64]
  | .arr l => by simp [treeOf, plain, jnorm, plainL_treeOf F l]
  | .obj m => by simp [treeOf, plain, jnorm, plainF_treeOf F m]
theorem plainL_treeOf (F : FloatCodec) : ∀ l : List Val, plainL F (treeOfL F l) = jnormL F l
  | [] => rfl
  | v :: l => by simp [treeOfL, plainL, jnormL, plain_treeOf F v, plainL_treeOf F l]
theorem plainF_treeOf (F : FloatCodec) : ∀ m : List (Bytes × Val), plainF F (treeOfF F m) = jnormF F m
  | [] => rfl
  | (k, v) :: m => by simp [treeOfF, plainF, jnormF, plain_treeOf F v, plainF_treeOf F m, unquote_esc]
end

/-- the text written for a value has the tree of the value, whatever whitespace surrounds it -/
theorem tree_enc (F : FloatCodec) (v : Val) (w w' : Bytes) (h : NumsOK F v) (hd : depth v ≤ maxDepth) (hw : WS w) (hw' : WS w') :
    tree (w ++ (enc F v ++ w')) = some (treeOf F v) :=
  (tree_iff _ _).2 ⟨w, enc F v, w', rfl, hw, hw', spells_enc F v h, by rw [depth_treeOf]; exact hd⟩

end Verif.JsonStd
