import Verif.Model.ValsJson
import Verif.Lemmas.JsonTree
import Verif.Props.Vals
/-
C70: JSON text as typed values (`vals.UnmarshalJSON`).
-/
set_option autoImplicit false
namespace Verif.Vals
open JsonStd JsonG

/-! ### What a text means -/

/-- the whole part of a number -/
def wholePart (t : Bytes) : Nat := (parseNat ((t.dropWhile (· = 45)).takeWhile isDigit)).getD 0

/-- a number has to be in the range of float32.  Without fraction and exponent it is an integer and has to be an int64, with one
it is a float64, and its whole part has to be below 2^64. -/
def typedNum (L : Lib) (t : Bytes) : Option Value :=
  if L.parse32 t = false then none
  else if (∀ c ∈ t, isDigit c = true ∨ c = 45) then (atoi t).map .integer
  else if 2 ^ 64 ≤ wholePart t then none
  else (L.parse64 t).map .number

/-- all bindings, if there are no errors -/
def allOf : List (Bytes × Option Value) → Option (List (Bytes × Value))
  | [] => some []
  | (k, v) :: m => v.bind fun v => (allOf m).map ((k, v) :: ·)

mutual
/-- the value of a tree; of members with the same key only the last one counts -/
def typed (L : Lib) : Tree → Option Value
  | .null => some (.null true)
  | .bool b => some (.boolean b)
  | .num t => typedNum L t
  | .str t => some (.string (unquote t))
  | .arr l => (typedL L l).map (.array false)
  | .obj m => (allOf (mapOf (typedF L m))).map (.object false)
def typedL (L : Lib) : List Tree → Option (List Value)
  | [] => some []
  | T :: l => (typed L T).bind fun v => (typedL L l).map (v :: ·)
def typedF (L : Lib) : List (Bytes × Tree) → List (Bytes × Option Value)
  | [] => []
  | (k, T) :: m => (unquote k, typed L T) :: typedF L m
end

/-- spaces and line feeds -/
def Blank (w : Bytes) : Prop := ∀ c ∈ w, c = 32 ∨ c = 10

instance (w : Bytes) : Decidable (Blank w) := inferInstanceAs (Decidable (∀ c ∈ w, _))

/-- what a whole text means, with whitespace `w` before and `w'` behind it.  Before an array or an object there may be spaces and
line feeds only.  Numbers and booleans must stand alone.  A null that does not stand alone is the empty string. -/
def typedTop (L : Lib) (w : Bytes) (T : Tree) (w' : Bytes) : Option Value :=
  match T with
  | .str t => typed L (.str t)
  | .arr l => if Blank w then typed L (.arr l) else none
  | .obj m => if Blank w then typed L (.obj m) else none
  | .null => if w = [] ∧ w' = [] then some (.null true) else some (.string [])
  | .bool b => if w = [] ∧ w' = [] then typed L (.bool b) else none
  | .num t => if w = [] ∧ w' = [] then typed L (.num t) else none

/-- `strconv.ParseFloat` accepts no whitespace -/
def NoSpaces (L : Lib) : Prop := ∀ s, L.parse32 s = true → ∀ c ∈ s, ¬ (c = 32 ∨ c = 10 ∨ c = 13 ∨ c = 9)

/-! ### Integers in front of something -/

theorem loop_prefix : ∀ (ip : Bytes) (n : Nat), Digits ip → ∃ m, parseNatAux n ip = some m ∧ n ≤ m ∧
    (m < 2 ^ 64 → ∀ u, parseUintLoop n (ip ++ u) = parseUintLoop m u) ∧
    (2 ^ 64 ≤ m → n < 2 ^ 64 → ∀ u, parseUintLoop n (ip ++ u) = .inr ())
  | [], n, _ => ⟨n, by simp [parseNatAux], by omega, fun _ u => rfl, fun h1 h2 => by omega⟩
  | c :: ip, n, h => by
    have hc : isDigit c = true := h c (by simp)
    obtain ⟨m, h1, h0, h2, h3⟩ := loop_prefix ip (n * 10 + (c.toNat - 48)) fun x hx => h x (by simp [hx])
    refine ⟨m, by simp [parseNatAux, hc, h1], by omega, fun hm u => ?_, fun hm hn u => ?_⟩
    · rw [List.cons_append, parseUintLoop, if_neg (by simp [hc]), if_neg (by omega), if_neg (by omega)]
      exact h2 hm u
    · rw [List.cons_append, parseUintLoop, if_neg (by simp [hc])]
      split
      · rfl
      · split
        · rfl
        · exact h3 hm (by omega) u

theorem intPart_digits {t : Bytes} (h : IntPart t) : Digits t := by
  cases h with
  | zero => intro c hc; simp at hc; subst hc; decide
  | nonzero c t hc _ ht =>
    intro x hx
    rcases List.mem_cons.1 hx with rfl | hx
    · exact hc
    · exact ht x hx

theorem fracExp_head {u : Bytes} (h : FracExp u) : ∃ c r, u = c :: r ∧ isDigit c = false ∧ c ≠ 45 := by
  cases h with
  | frac t _ _ => exact ⟨46, t, rfl, by decide⟩
  | exp e sign t he _ _ _ =>
    refine ⟨e, _, rfl, ?_⟩
    rcases he with rfl | rfl <;> decide
  | both u e sign t _ _ _ _ _ _ => exact ⟨46, _, rfl, by decide⟩

/-- how `strconv.ParseInt` takes the number -/
theorem parseIntE_num {sign t u : Bytes} (hs : sign = [] ∨ sign = [45]) (ht : IntPart t) :
    ∃ m, parseNatAux 0 t = some m ∧
      (u = [] → parseIntE (sign ++ (t ++ u)) ≠ .syntaxErr) ∧
      (FracExp u → 2 ^ 64 ≤ m → parseIntE (sign ++ (t ++ u)) = .rangeErr) ∧
      (FracExp u → m < 2 ^ 64 → parseIntE (sign ++ (t ++ u)) = .syntaxErr) := by
  obtain ⟨m, h1, _, h2, h3⟩ := loop_prefix t 0 (intPart_digits ht)
  obtain ⟨c, t', e, hc⟩ := intPart_head ht
  refine ⟨m, h1, ?_, ?_, ?_⟩
  · rintro rfl
    have hl : ∀ s, parseUintLoop 0 (t ++ []) ≠ .inl s ∨ s ≠ none := by
      intro s
      by_cases hm : m < 2 ^ 64
      · rw [h2 hm]
        simp only [parseUintLoop]
        cases s with
        | none => simp
        | some x => simp
      · rw [h3 (by omega) (by omega)]; simp
    rcases hs with rfl | rfl
    · have hc' : ¬ (c = 45 ∨ c = 43) := by
        rintro (rfl | rfl) <;> revert hc <;> decide
      rw [List.nil_append] at *
      rw [e, List.cons_append] at hl ⊢
      simp only [parseIntE, if_neg hc']
      rw [if_neg (by simp)]
      cases hp : parseUintLoop 0 (c :: (t' ++ [])) with
      | inr _ => simp
      | inl o =>
        cases o with
        | none => rcases hl none with h | h
                  · exact absurd hp h
                  · exact absurd rfl h
        | some n => simp only; split <;> split <;> simp
    · simp only [List.cons_append, List.nil_append, parseIntE, true_or, if_true]
      rw [if_neg (by simp [e])]
      cases hp : parseUintLoop 0 (t ++ []) with
      | inr _ => simp
      | inl o =>
        cases o with
        | none => rcases hl none with h | h
                  · exact absurd hp h
                  · exact absurd rfl h
        | some n => simp only; split <;> simp
  · intro hu hm
    rcases hs with rfl | rfl
    · have hc' : ¬ (c = 45 ∨ c = 43) := by
        rintro (rfl | rfl) <;> revert hc <;> decide
      have := h3 hm (by omega) u
      rw [List.nil_append]
      rw [e, List.cons_append] at this ⊢
      simp only [parseIntE, if_neg hc']
      rw [if_neg (by simp), this]
    · simp only [List.cons_append, List.nil_append, parseIntE, true_or, if_true]
      rw [if_neg (by simp [e]), h3 hm (by omega) u]
  · intro hu hm
    obtain ⟨d, r, eu, hd, _⟩ := fracExp_head hu
    have hl : parseUintLoop 0 (t ++ u) = .inl none := by
      rw [h2 hm, eu]; simp [parseUintLoop, hd]
    rcases hs with rfl | rfl
    · have hc' : ¬ (c = 45 ∨ c = 43) := by
        rintro (rfl | rfl) <;> revert hc <;> decide
      rw [List.nil_append]
      rw [e, List.cons_append] at hl ⊢
      simp only [parseIntE, if_neg hc']
      rw [if_neg (by simp), hl]
    · simp only [List.cons_append, List.nil_append, parseIntE, true_or, if_true]
      rw [if_neg (by simp [e]), hl]

/-! ### The type of a text -/

theorem isBoolean_mem {s : Bytes} (h : isBoolean s = true) : ∀ c ∈ s, ¬ (c = 32 ∨ c = 10 ∨ c = 13 ∨ c = 9) := by
  have key : ∀ s ∈ [b!"t", b!"f", b!"T", b!"F", b!"true", b!"false", b!"TRUE", b!"FALSE", b!"True", b!"False"],
      ∀ c ∈ s, ¬ (c = 32 ∨ c = 10 ∨ c = 13 ∨ c = 9) := by decide +kernel
  exact key s (by simpa [isBoolean] using h)

theorem isBoolean_first {c : UInt8} {s : Bytes} (h : isBoolean (c :: s) = true) : c = 116 ∨ c = 102 ∨ c = 84 ∨ c = 70 := by
  have key : ∀ s ∈ [b!"t", b!"f", b!"T", b!"F", b!"true", b!"false", b!"TRUE", b!"FALSE", b!"True", b!"False"],
      ∀ c ∈ s.head?, c = 116 ∨ c = 102 ∨ c = 84 ∨ c = 70 := by decide +kernel
  exact key (c :: s) (by simpa [isBoolean] using h) c (by simp)

theorem loop_ws (L : Lib) (v : Bytes) {w : Bytes} (hw : WS w) (r : Bytes) :
    parseTypeLoop L v (w ++ r) = if Blank w then parseTypeLoop L v r else .string := by
  induction w with
  | nil => simp [Blank]
  | cons c w ih =>
    have ih := ih fun x hx => hw x (by simp [hx])
    rcases hw c (by simp) with rfl | rfl | rfl | rfl
    · have e : Blank (32 :: w) ↔ Blank w := by simp [Blank]
      simp only [List.cons_append, parseTypeLoop, e]
      exact ih
    · have e : Blank (10 :: w) ↔ Blank w := by simp [Blank]
      simp only [List.cons_append, parseTypeLoop, e]
      exact ih
    · rw [if_neg (by simp [Blank])]; rfl
    · rw [if_neg (by simp [Blank])]; rfl

theorem padded {w t w' : Bytes} (hw : WS w) (hw' : WS w') (h : ¬ (w = [] ∧ w' = [])) :
    ∃ c ∈ w ++ (t ++ w'), c = 32 ∨ c = 10 ∨ c = 13 ∨ c = 9 := by
  cases w with
  | cons c w => exact ⟨c, by simp, hw c (by simp)⟩
  | nil =>
    cases w' with
    | nil => simp at h
    | cons c w' => exact ⟨c, by simp, hw' c (by simp)⟩

theorem parseType_padded (L : Lib) {w t w' : Bytes} (hw : WS w) (hw' : WS w') (h : ¬ (w = [] ∧ w' = [])) :
    parseType L (w ++ (t ++ w')) = if Blank w then parseTypeLoop L (w ++ (t ++ w')) (t ++ w') else .string := by
  obtain ⟨c, hc, hcw⟩ := padded (t := t) hw hw' h
  have h1 : isBoolean (w ++ (t ++ w')) = false := by
    cases hb : isBoolean (w ++ (t ++ w')) with
    | false => rfl
    | true => exact absurd hcw (isBoolean_mem hb c hc)
  have h2 : w ++ (t ++ w') ≠ b!"null" := by
    intro e
    rw [e] at hc
    have : ∀ c ∈ b!"null", ¬ (c = 32 ∨ c = 10 ∨ c = 13 ∨ c = 9) := by decide +kernel
    exact this c hc hcw
  rw [parseType, h1, if_neg (by simp), if_neg h2, loop_ws L _ hw]

theorem parseType_plain (L : Lib) {c : UInt8} {t : Bytes} (h : c ≠ 116 ∧ c ≠ 102 ∧ c ≠ 84 ∧ c ≠ 70 ∧ c ≠ 110) :
    parseType L (c :: t) = parseTypeLoop L (c :: t) (c :: t) := by
  have h1 : isBoolean (c :: t) = false := by
    cases hb : isBoolean (c :: t) with
    | false => rfl
    | true => rcases isBoolean_first hb with e | e | e | e <;> simp [e] at h
  have h2 : c :: t ≠ b!"null" := by
    intro e
    have : c = 110 := by have := congrArg List.head? e; simpa using this
    exact h.2.2.2.2 this
  rw [parseType, h1, if_neg (by simp), if_neg h2]

/-- the type of a text that starts with `c` behind blanks -/
theorem parseType_pad (L : Lib) {w w' : Bytes} {c : UInt8} {t : Bytes} (hw : WS w) (hw' : WS w')
    (h : c ≠ 116 ∧ c ≠ 102 ∧ c ≠ 84 ∧ c ≠ 70 ∧ c ≠ 110) :
    parseType L (w ++ (c :: t ++ w')) = if Blank w then parseTypeLoop L (w ++ (c :: t ++ w')) (c :: (t ++ w')) else .string := by
  by_cases hp : w = [] ∧ w' = []
  · obtain ⟨rfl, rfl⟩ := hp
    simp only [List.nil_append, List.append_nil]
    rw [parseType_plain L h]
    simp [Blank]
  · exact parseType_padded L hw hw' hp

/-! ### Basic values -/

theorem valid_spells {T : Tree} {t w w' : Bytes} (h : Spells T t) (hd : T.depth ≤ maxDepth) (hw : WS w) (hw' : WS w') {c : UInt8} {u : Bytes}
    (e : t = c :: u) : valid (w ++ (t ++ w')) = some (c, u ++ w') := by
  have hv : checkValid (w ++ (t ++ w')) = true := (checkValid_iff _).2 ⟨w, t, w', _, rfl, hw, hw', h, hd⟩
  rw [valid, hv, if_pos rfl, skipWS_spells hw h, e]
  rfl

theorem num_head {n : Bytes} (h : NumText n) : ∃ c u, n = c :: u ∧ (c = 45 ∨ isDigit c = true) ∧
    c ≠ 116 ∧ c ≠ 102 ∧ c ≠ 84 ∧ c ≠ 70 ∧ c ≠ 110 ∧ c ≠ 34 ∧ c ≠ 123 ∧ c ≠ 91 := by
  obtain ⟨c, u, e, hc⟩ := numeral_head h
  refine ⟨c, u, e, hc, ?_⟩
  have key : ∀ x : UInt8, x ≠ 45 → isDigit x = false → c ≠ x := by
    rintro x h1 h2 rfl
    rcases hc with h | h
    · exact h1 h
    · rw [h2] at h; cases h
  exact ⟨key _ (by decide) (by decide), key _ (by decide) (by decide), key _ (by decide) (by decide), key _ (by decide) (by decide),
    key _ (by decide) (by decide), key _ (by decide) (by decide), key _ (by decide) (by decide), key _ (by decide) (by decide)⟩

/-- into a string: strings, and null, which leaves it empty -/
theorem intoString_spells {T : Tree} {t w w' : Bytes} (h : Spells T t) (hd : T.depth ≤ maxDepth) (hw : WS w) (hw' : WS w') :
    intoString [] (w ++ (t ++ w')) = match T with
      | .str u => some (unquote u)
      | .null => some []
      | _ => none := by
  unfold intoString
  cases h with
  | null => rw [valid_spells .null hd hw hw' rfl]; rfl
  | true => rw [valid_spells .true hd hw hw' rfl]; rfl
  | false => rw [valid_spells .false hd hw hw' rfl]; rfl
  | num n hn =>
    obtain ⟨c, u, e, hc, h⟩ := num_head hn
    rw [valid_spells (.num t hn) hd hw hw' e]
    simp [h]
  | str u hu =>
    rw [valid_spells (.str u hu) hd hw hw' rfl]
    have := strLit_text hu w'
    simp [this]
  | arr0 w1 h1 => rw [valid_spells (.arr0 w1 h1) hd hw hw' rfl]; rfl
  | arr l u h1 => rw [valid_spells (.arr l u h1) hd hw hw' rfl]; rfl
  | obj0 w1 h1 => rw [valid_spells (.obj0 w1 h1) hd hw hw' rfl]; rfl
  | obj l u h1 => rw [valid_spells (.obj l u h1) hd hw hw' rfl]; rfl

theorem intoNum_num {α : Type} (conv : Bytes → Option α) (old : α) {n : Bytes} (h : NumText n) : intoNum conv old n = conv n := by
  obtain ⟨c, u, e, hc, h1⟩ := num_head h
  have hv := valid_spells (.num n h) (by simp [Tree.depth]) ws_nil ws_nil e
  have hl := numLit_stop h (r := []) (by simp [NumStop])
  simp only [List.nil_append, List.append_nil] at hv hl
  have : c = 45 ∨ isDigit c = true := hc
  subst e
  simp [intoNum, hv, h1, this, hl]

theorem isInteger_num {n : Bytes} (h : NumText n) : isInteger n = decide (parseIntE n ≠ .syntaxErr) := by
  obtain ⟨c, u, rfl, hc, h1⟩ := num_head h
  simp only [isInteger]
  rw [if_neg (by rcases hc with rfl | hc <;> simp_all)]
  cases parseIntE (c :: u) <;> simp

theorem typedNum_eq (L : Lib) {n : Bytes} (h : NumText n) (h32 : L.parse32 n = true) :
    typedNum L n = if isInteger n then (parseInteger n).map .integer else (L.parse64 n).map .number := by
  rw [isInteger_num h, parseInteger_eq, typedNum, if_neg (by simp [h32])]
  obtain ⟨sign, t, u, hs, ht, hu, rfl⟩ := h
  obtain ⟨m, hm, h1, h2, h3⟩ := parseIntE_num (u := u) hs ht
  have hdig := intPart_digits ht
  rcases hu with rfl | hu
  · rw [if_pos, if_pos]
    · simpa using h1 rfl
    · intro c hc
      rcases List.mem_append.1 hc with hc | hc
      · rcases hs with rfl | rfl <;> simp at hc
        exact Or.inr hc
      · rw [List.append_nil] at hc; exact Or.inl (hdig c hc)
  · obtain ⟨d, r, eu, hd, hd'⟩ := fracExp_head hu
    have hne : ¬ ∀ c ∈ sign ++ (t ++ u), isDigit c = true ∨ c = 45 := by
      intro hall
      rcases hall d (by simp [eu]) with h | h
      · rw [hd] at h; cases h
      · exact hd' h
    have hwp : wholePart (sign ++ (t ++ u)) = m := by
      obtain ⟨c, t', e, hc⟩ := intPart_head ht
      have hc45 : c ≠ 45 := by rintro rfl; revert hc; decide
      have hdrop : (sign ++ (t ++ u)).dropWhile (· = 45) = t ++ u := by
        rcases hs with rfl | rfl
        · simp [e, hc45]
        · simp [e, hc45]
      have htk : (t ++ u).takeWhile isDigit = t := by
        have := (takeWhile_stop (p := isDigit) (t := t) (r := u) hdig (by simp [eu, hd])).1
        exact this
      rw [wholePart, hdrop, htk, parseNat_eq (by simp [e]), hm]; rfl
    rw [if_neg hne, hwp]
    by_cases hb : 2 ^ 64 ≤ m
    · rw [if_pos hb, h2 hu hb]
      have ha : atoi (sign ++ (t ++ u)) = none := by
        rw [← parseInteger_eq, parseInteger, h2 hu hb]
      simp [ha]
    · rw [if_neg hb, h3 hu (by omega)]
      simp

/-! ### Arrays and objects -/

theorem mapM_pieces (L : Lib) (g : Bytes → Option Value) {l : List Tree} {ts : List Bytes} (h : Pieces l ts)
    (hg : ∀ T t, Spells T t → T.depth ≤ treeDepthL l → t ∈ ts → g t = typed L T) : ts.mapM g = typedL L l := by
  induction h with
  | nil => rfl
  | cons v t l ts hv _ ih =>
    have h1 := hg v t hv (by simp only [treeDepthL]; omega) (by simp)
    have h2 := ih fun T t hT hd ht => hg T t hT (by simp only [treeDepthL]; omega) (by simp [ht])
    rw [List.mapM_cons, h1, h2, typedL]
    cases typed L v <;> cases typedL L l <;> rfl

theorem mapSet_map {α β : Type} (g : α → β) (m : List (Bytes × α)) (k : Bytes) (v : α) :
    mapSet (m.map fun kv => (kv.1, g kv.2)) k (g v) = (mapSet m k v).map fun kv => (kv.1, g kv.2) := by
  induction m with
  | nil => rfl
  | cons x m ih =>
    simp only [List.map_cons, mapSet]
    split
    · rfl
    · split
      · rfl
      · simp [ih]

theorem mapOf_map {α β : Type} (g : α → β) (m : List (Bytes × α)) :
    mapOf (m.map fun kv => (kv.1, g kv.2)) = (mapOf m).map fun kv => (kv.1, g kv.2) := by
  suffices H : ∀ (m acc : List (Bytes × α)), (m.map fun kv => (kv.1, g kv.2)).foldl (fun m kv => mapSet m kv.1 kv.2) (acc.map fun kv => (kv.1, g kv.2)) =
      (m.foldl (fun m kv => mapSet m kv.1 kv.2) acc).map fun kv => (kv.1, g kv.2) from H m []
  intro m
  induction m with
  | nil => intro acc; rfl
  | cons x m ih =>
    intro acc
    simp only [List.map_cons, List.foldl_cons]
    rw [mapSet_map, ih]

theorem allOf_mapM (g : Bytes → Option Value) (m : List (Bytes × Bytes)) :
    m.mapM (fun kv => (g kv.2).map fun v => (kv.1, v)) = allOf (m.map fun kv => (kv.1, g kv.2)) := by
  induction m with
  | nil => rfl
  | cons x m ih =>
    rw [List.mapM_cons, ih, List.map_cons, allOf]
    cases g x.2 <;> cases allOf (m.map fun kv => (kv.1, g kv.2)) <;> rfl

theorem map_piecesF (L : Lib) (g : Bytes → Option Value) {m : List (Bytes × Tree)} {ts : List (Bytes × Bytes)} (h : PiecesF m ts)
    (hg : ∀ T t, Spells T t → T.depth ≤ treeDepthF m → t ∈ ts.map (·.2) → g t = typed L T) : ts.map (fun kv => (kv.1, g kv.2)) = typedF L m := by
  induction h with
  | nil => rfl
  | cons k v t l ts hv _ ih =>
    have h1 := hg v t hv (by simp only [treeDepthF]; omega) (by simp)
    have h2 := ih fun T t hT hd ht => hg T t hT (by simp only [treeDepthF]; omega) (by simp only [List.map_cons, List.mem_cons]; exact Or.inr ht)
    simp [typedF, h1, h2]

/-! ### The whole text -/

/-- one step at the top, given the steps below -/
theorem unmarshalJSONn_step (L : Lib) (hL : NoSpaces L) (f : Nat) {T : Tree} {t w w' : Bytes} (h : Spells T t) (hd : T.depth ≤ maxDepth) (hw : WS w)
    (hw' : WS w') (ih : ∀ T' t', Spells T' t' → T'.depth ≤ maxDepth → t'.length < t.length → unmarshalJSONn L f t' = typed L T') :
    unmarshalJSONn L (f + 1) (w ++ (t ++ w')) = typedTop L w T w' := by
  have hstr := intoString_spells h hd hw hw'
  cases h with
  | null =>
    by_cases hp : w = [] ∧ w' = []
    · obtain ⟨rfl, rfl⟩ := hp
      rfl
    · have : parseType L (w ++ (b!"null" ++ w')) = .string := by
        rw [parseType_padded L hw hw' hp]
        split <;> rfl
      rw [unmarshalJSONn, this, typedTop, if_neg hp]
      simp only [hstr]; rfl
  | true =>
    by_cases hp : w = [] ∧ w' = []
    · obtain ⟨rfl, rfl⟩ := hp
      rfl
    · have : parseType L (w ++ (b!"true" ++ w')) = .string := by
        rw [parseType_padded L hw hw' hp]
        split <;> rfl
      rw [unmarshalJSONn, this, typedTop, if_neg hp]
      simp only [hstr]; rfl
  | false =>
    by_cases hp : w = [] ∧ w' = []
    · obtain ⟨rfl, rfl⟩ := hp
      rfl
    · have : parseType L (w ++ (b!"false" ++ w')) = .string := by
        rw [parseType_padded L hw hw' hp]
        split <;> rfl
      rw [unmarshalJSONn, this, typedTop, if_neg hp]
      simp only [hstr]; rfl
  | num n hn =>
    obtain ⟨c, u, e, hc, h1, h2, h3, h4, h5, h6, h7, h8⟩ := num_head hn
    have hty : parseType L (w ++ (t ++ w')) = if Blank w then
        (if L.parse32 (w ++ (t ++ w')) = false then .string else if isInteger (w ++ (t ++ w')) then .integer else .number) else .string := by
      subst e
      rw [parseType_pad L hw hw' ⟨h1, h2, h3, h4, h5⟩]
      by_cases hb : Blank w
      · rw [if_pos hb, if_pos hb, parseTypeLoop, if_neg h6, if_pos (by rcases hc with h | h <;> simp [h])]
      · rw [if_neg hb, if_neg hb]
    by_cases hp : w = [] ∧ w' = []
    · obtain ⟨rfl, rfl⟩ := hp
      simp only [List.nil_append, List.append_nil] at *
      rw [unmarshalJSONn, hty]
      have hb : Blank [] := by simp [Blank]
      simp only [typedTop, and_self, if_true, typed, if_pos hb]
      by_cases h32 : L.parse32 t = false
      · rw [if_pos h32, typedNum, if_pos h32]
        simp only [hstr]; rfl
      · rw [if_neg h32, typedNum_eq L hn (by simpa using h32)]
        cases hi : isInteger t
        · simp [intoNum_num _ _ hn]
        · simp [intoNum_num _ _ hn]
    · have h32 : L.parse32 (w ++ (t ++ w')) = false := by
        cases h32 : L.parse32 (w ++ (t ++ w')) with
        | false => rfl
        | true =>
          obtain ⟨c, hc, hcw⟩ := padded (t := t) hw hw' hp
          exact absurd hcw (hL _ h32 c hc)
      have hty' : parseType L (w ++ (t ++ w')) = .string := by
        rw [hty]; simp [h32]
      rw [unmarshalJSONn, hty', typedTop, if_neg hp]
      simp only [hstr]; rfl
  | str u hu =>
    have hty : parseType L (w ++ (34 :: (u ++ [34]) ++ w')) = .string := by
      rw [parseType_pad L hw hw' (by decide)]
      split <;> rfl
    rw [unmarshalJSONn, hty]
    simp only [hstr]; rfl
  | arr0 w1 h1 =>
    have hty : parseType L (w ++ (91 :: (w1 ++ [93]) ++ w')) = if Blank w then .array else .string := by
      rw [parseType_pad L hw hw' (by decide)]; rfl
    rw [unmarshalJSONn, hty, typedTop]
    by_cases hb : Blank w
    · obtain ⟨ts, hp, hlen, hr⟩ := rawSlice_spells (.arr0 w1 h1) hd hw hw'
      cases hp
      rw [if_pos hb, if_pos hb]
      simp only [hr]; rfl
    · rw [if_neg hb, if_neg hb]
      simp only [hstr]; rfl
  | arr l u h1 =>
    have hty : parseType L (w ++ (91 :: (u ++ [93]) ++ w')) = if Blank w then .array else .string := by
      rw [parseType_pad L hw hw' (by decide)]; rfl
    rw [unmarshalJSONn, hty, typedTop]
    by_cases hb : Blank w
    · obtain ⟨ts, hp, hlen, hr⟩ := rawSlice_spells (.arr l u h1) hd hw hw'
      rw [if_pos hb, if_pos hb]
      simp only [hr, Option.bind_some, typed]
      simp only [Tree.depth] at hd
      rw [mapM_pieces L _ hp fun T' t' hT hd' ht => ih T' t' hT (by omega) (hlen t' ht)]
    · rw [if_neg hb, if_neg hb]
      simp only [hstr]; rfl
  | obj0 w1 h1 =>
    have hty : parseType L (w ++ (123 :: (w1 ++ [125]) ++ w')) = if Blank w then .object else .string := by
      rw [parseType_pad L hw hw' (by decide)]; rfl
    rw [unmarshalJSONn, hty, typedTop]
    by_cases hb : Blank w
    · obtain ⟨ts, hp, hlen, hr⟩ := rawMap_spells (.obj0 w1 h1) hd hw hw'
      cases hp
      rw [if_pos hb, if_pos hb]
      simp only [hr]; rfl
    · rw [if_neg hb, if_neg hb]
      simp only [hstr]; rfl
  | obj l u h1 =>
    have hty : parseType L (w ++ (123 :: (u ++ [125]) ++ w')) = if Blank w then .object else .string := by
      rw [parseType_pad L hw hw' (by decide)]; rfl
    rw [unmarshalJSONn, hty, typedTop]
    by_cases hb : Blank w
    · obtain ⟨ts, hp, hlen, hr⟩ := rawMap_spells (.obj l u h1) hd hw hw'
      rw [if_pos hb, if_pos hb]
      simp only [hr, Option.bind_some, typed]
      simp only [Tree.depth] at hd
      rw [allOf_mapM, ← mapOf_map, map_piecesF L _ hp fun T' t' hT hd' ht => ?_]
      obtain ⟨kv, hkv, rfl⟩ := List.mem_map.1 ht
      exact ih T' kv.2 hT (by omega) (hlen kv hkv)
    · rw [if_neg hb, if_neg hb]
      simp only [hstr]; rfl

theorem typedTop_alone (L : Lib) (T : Tree) : typedTop L [] T [] = typed L T := by
  cases T <;> simp [typedTop, typed, Blank]

theorem unmarshalJSONn_spells (L : Lib) (hL : NoSpaces L) : ∀ (f : Nat) (T : Tree) (t : Bytes), Spells T t → T.depth ≤ maxDepth → t.length < f →
    unmarshalJSONn L f t = typed L T
  | 0, T, t, h, hd, hf => by omega
  | f + 1, T, t, h, hd, hf => by
    have := unmarshalJSONn_step L hL f h hd ws_nil ws_nil fun T' t' hT hd' ht => unmarshalJSONn_spells L hL f T' t' hT hd' (by omega)
    simp only [List.nil_append, List.append_nil] at this
    rw [this, typedTop_alone]

/-- **C70**, of a text of the grammar: what it means -/
theorem C70_text (L : Lib) (hL : NoSpaces L) (w t w' : Bytes) (T : Tree) (hw : WS w) (h : Spells T t) (hw' : WS w') (hd : T.depth ≤ 10000) :
    unmarshalJSON L (w ++ (t ++ w')) = typedTop L w T w' := by
  unfold unmarshalJSON
  refine unmarshalJSONn_step L hL _ h hd hw hw' fun T' t' hT hd' ht => unmarshalJSONn_spells L hL _ T' t' hT hd' ?_
  simp; omega

theorem valid_none {s : Bytes} (h : checkValid s = false) : valid s = none := by simp [valid, h]

/-- **C70**: nothing else is read -/
theorem C70_invalid (L : Lib) (s : Bytes) (v : Value) (h : unmarshalJSON L s = some v) :
    ∃ (w t w' : Bytes) (T : Tree), s = w ++ (t ++ w') ∧ WS w ∧ WS w' ∧ Spells T t ∧ T.depth ≤ 10000 := by
  refine (checkValid_iff s).1 ?_
  cases hv : checkValid s with
  | true => rfl
  | false =>
    unfold unmarshalJSON at h
    rw [unmarshalJSONn] at h
    split at h <;> simp [rawMap, rawSlice, intoString, intoNum, intoBool, valid_none hv, hv] at h

/-- **C70**: `UnmarshalJSON` reads a text exactly if it is JSON, and then gives its value. -/
theorem C70_values (L : Lib) (hL : NoSpaces L) (s : Bytes) (v : Value) : unmarshalJSON L s = some v ↔
    ∃ (w t w' : Bytes) (T : Tree), s = w ++ (t ++ w') ∧ WS w ∧ WS w' ∧ Spells T t ∧ T.depth ≤ 10000 ∧ typedTop L w T w' = some v := by
  constructor
  · intro h
    obtain ⟨w, t, w', T, rfl, hw, hw', hT, hd⟩ := C70_invalid L s v h
    exact ⟨w, t, w', T, rfl, hw, hw', hT, hd, by rw [← C70_text L hL w t w' T hw hT hw' hd]; exact h⟩
  · rintro ⟨w, t, w', T, rfl, hw, hw', hT, hd, h⟩
    rw [C70_text L hL w t w' T hw hT hw' hd]; exact h

/-! ### Consequences -/

/-- **C70**, strings: text in valid UTF-8 without halves of surrogate pairs is the string the grammar says it is -/
theorem C70_strings (L : Lib) (hL : NoSpaces L) (s t w w' : Bytes) (hw : WS w) (hw' : WS w') (h : StrBody s t) (ht : toValidUtf8 0 t = t) :
    unmarshalJSON L (w ++ (34 :: (t ++ [34]) ++ w')) = some (.string s) := by
  have hx : StrText t := by
    clear ht
    induction h with
    | nil => exact .nil
    | plain c h1 h2 h3 _ ih => exact .plain c h1 h2 h3 ih
    | esc e c h _ ih =>
      refine .esc e ?_ ih
      simp only [escapes, List.mem_cons, Prod.mk.injEq, List.not_mem_nil, or_false] at h
      rcases h with h | h | h | h | h | h | h | h <;> simp [h.1]
    | uni a b c d n1 n2 n3 n4 h1 h2 h3 h4 _ _ ih => exact .uni a b c d (by simp [h1]) (by simp [h2]) (by simp [h3]) (by simp [h4]) ih
  rw [C70_text L hL w _ w' _ hw (.str t hx) hw' (by simp [Tree.depth])]
  simp [typedTop, typed, unquote, ht, unescape_body h]

/-- **C70**, integers: an int64 in decimal is that integer -/
theorem C70_integers (L : Lib) (hL : NoSpaces L) (i : Int) (hi : IsInt64 i) (h32 : L.parse32 (fmtInt i) = true) :
    unmarshalJSON L (fmtInt i) = some (.integer i) := by
  have hn : NumText (fmtInt i) := fmtInt_numeral i
  have := C70_text L hL [] (fmtInt i) [] (.num (fmtInt i)) ws_nil (.num _ hn) ws_nil (by simp [Tree.depth])
  simp only [List.nil_append, List.append_nil] at this
  have hp : parseIntE (fmtInt i) = .ok i := (parseIntE_ok _ i).2 (atoi_fmtInt i hi)
  rw [this, typedTop_alone, typed, typedNum_eq L hn h32, isInteger_num hn, hp, parseInteger, hp]
  simp

/-- the violations: valid JSON numbers that are not read.  Numbers without fraction and exponent outside int64; numbers with
a fraction or exponent whose whole part has reached 2^64; numbers outside the range of float32. -/
theorem C70_unread_numbers (L : Lib) (hL : NoSpaces L) (n : Bytes) (hn : NumText n) :
    unmarshalJSON L n = none ↔
      (L.parse32 n = false ∨
       ((∀ c ∈ n, isDigit c = true ∨ c = 45) ∧ atoi n = none) ∨
       (¬ (∀ c ∈ n, isDigit c = true ∨ c = 45) ∧ (2 ^ 64 ≤ wholePart n ∨ L.parse64 n = none))) := by
  have := C70_text L hL [] n [] (.num n) ws_nil (.num _ hn) ws_nil (by simp [Tree.depth])
  simp only [List.nil_append, List.append_nil] at this
  rw [this, typedTop_alone, typed, typedNum]
  by_cases h1 : L.parse32 n = false
  · simp [h1]
  · rw [if_neg h1]
    by_cases h2 : ∀ c ∈ n, isDigit c = true ∨ c = 45
    · rw [if_pos h2]
      simp only [Option.map_eq_none_iff]
      constructor
      · intro h; exact Or.inr (Or.inl ⟨h2, h⟩)
      · rintro (h | h | h)
        · exact absurd h h1
        · exact h.2
        · exact absurd h2 h.1
    · rw [if_neg h2]
      by_cases h3 : 2 ^ 64 ≤ wholePart n
      · rw [if_pos h3]
        exact ⟨fun _ => Or.inr (Or.inr ⟨h2, Or.inl h3⟩), fun _ => rfl⟩
      · rw [if_neg h3]
        simp only [Option.map_eq_none_iff]
        constructor
        · intro h; exact Or.inr (Or.inr ⟨h2, Or.inr h⟩)
        · rintro (h | h | h)
          · exact absurd h h1
          · exact absurd h.1 h2
          · rcases h.2 with h | h
            · exact absurd h h3
            · exact h

/-- the violation at the top: null with whitespace around it is read as the empty string, everything else that is not a
string, an array or an object is refused with whitespace around it -/
theorem C70_whitespace (L : Lib) (hL : NoSpaces L) (w t w' : Bytes) (T : Tree) (hw : WS w) (h : Spells T t) (hw' : WS w') (hp : w ++ w' ≠ []) :
    (T = .null → unmarshalJSON L (w ++ (t ++ w')) = some (.string [])) ∧
    ((∃ b, T = .bool b) ∨ (∃ n, T = .num n) → unmarshalJSON L (w ++ (t ++ w')) = none) := by
  have hp' : ¬ (w = [] ∧ w' = []) := by
    rintro ⟨rfl, rfl⟩; exact hp rfl
  constructor
  · rintro rfl
    rw [C70_text L hL w t w' _ hw h hw' (by simp [Tree.depth]), typedTop, if_neg hp']
  · rintro (⟨b, rfl⟩ | ⟨n, rfl⟩)
    · rw [C70_text L hL w t w' _ hw h hw' (by simp [Tree.depth]), typedTop, if_neg hp']
    · rw [C70_text L hL w t w' _ hw h hw' (by simp [Tree.depth]), typedTop, if_neg hp']

/-- the violation in comparing: an array or object read by `UnmarshalJSON` never equals one converted from decoded data, because the
latter is behind a pointer -/
theorem C70_never_equal (L : Lib) (s : Bytes) (a b : Value) (d : Val) (h : unmarshalJSON L s = some a) (hd : convertDecoded d = some b)
    (hb : b.type = .array ∨ b.type = .object) : equal a b = false ∧ equal b a = false := by
  have ha : ∀ p l, (a = .array p l → p = false) := by
    intro p l e; subst e
    unfold unmarshalJSON at h
    rw [unmarshalJSONn] at h
    split at h <;> simp [Option.bind_eq_some_iff] at h
    obtain ⟨_, _, _, h⟩ := h
    exact h
  have ho : ∀ p m, (a = .object p m → p = false) := by
    intro p l e; subst e
    unfold unmarshalJSON at h
    rw [unmarshalJSONn] at h
    split at h <;> simp [Option.bind_eq_some_iff] at h
    obtain ⟨_, _, _, h⟩ := h
    exact h
  have hb' : (∃ l, b = .array true l) ∨ (∃ m, b = .object true m) := by
    cases d <;> simp only [convertDecoded, Option.some.injEq, Option.map_eq_some_iff, reduceCtorEq] at hd
    all_goals try (subst hd; simp [Value.type] at hb; done)
    · obtain ⟨l, _, rfl⟩ := hd; exact Or.inl ⟨l, rfl⟩
    · obtain ⟨l, _, rfl⟩ := hd; exact Or.inr ⟨l, rfl⟩
  rcases hb' with ⟨l, rfl⟩ | ⟨m, rfl⟩
  · cases a with
    | array p k => have := ha p k rfl; subst this; simp [equal, Value.type, deepEqual]
    | _ => simp [equal, Value.type]
  · cases a with
    | object p k => have := ho p k rfl; subst this; simp [equal, Value.type, deepEqual]
    | _ => simp [equal, Value.type]

/-! ### Examples -/

/-- a library for the examples: floats are read as their length -/
def exLib : Lib where
  parse64 s := some (UInt64.ofNat s.length)
  parse32 s := s.all fun c => isDigit c || c == 46 || c == 45
  fmtG _ := []
  unmarshalMap _ := none
  unmarshalSlice _ := none
  marshal _ := none

theorem exLib_noSpaces : NoSpaces exLib := by
  intro s h c hc hw
  have := List.all_eq_true.1 h c hc
  rcases hw with rfl | rfl | rfl | rfl <;> revert this <;> decide

example : unmarshalJSON exLib b!" {\"a\": [1, -2.5, \"x\\n\", null , true],\"b\":7 , \"b\":{} }\t" =
    some (.object false [(b!"a", .array false [.integer 1, .number 4, .string b!"x\n", .null true, .boolean true]), (b!"b", .object false [])]) := by
  rfl
example : unmarshalJSON exLib b!" null" = some (.string []) ∧ unmarshalJSON exLib b!"null" = some (.null true) ∧
    unmarshalJSON exLib b!" 1" = none ∧ unmarshalJSON exLib b!"1" = some (.integer 1) ∧ unmarshalJSON exLib b!"\t[]" = none ∧
    unmarshalJSON exLib b!"\n[]" = some (.array false []) := ⟨rfl, rfl, rfl, rfl, rfl, rfl⟩
/-- valid numbers that are refused: outside int64, and a whole part of 2^64 or more before a fraction -/
example : unmarshalJSON exLib b!"9223372036854775808" = none ∧ unmarshalJSON exLib b!"18446744073709551616.5" = none ∧
    unmarshalJSON exLib b!"18446744073709551615.5" = some (.number 22) := ⟨rfl, rfl, rfl⟩
example : NumText b!"9223372036854775808" :=
  ⟨[], b!"9223372036854775808", [], Or.inl rfl, .nonzero 57 b!"223372036854775808" (by decide) (by decide) (by unfold Digits; decide +kernel), Or.inl rfl, rfl⟩
/-- a text of the grammar and its tree -/
example : Spells (.arr [.num b!"1", .str b!"a", .obj [(b!"k", .null)]]) b!"[1, \"a\",{\"k\":null}]" := by
  have hd : Digits [] := by simp [Digits]
  have h1 : Spells (.num b!"1") b!"1" := .num _ ⟨[], b!"1", [], Or.inl rfl, .nonzero 49 [] (by decide) (by decide) hd, Or.inl rfl, rfl⟩
  have h2 : Spells (.str b!"a") b!"\"a\"" := .str b!"a" (.plain 97 (by decide) (by decide) (by decide) .nil)
  have h3 : Spells (.obj [(b!"k", .null)]) b!"{\"k\":null}" :=
    .obj _ b!"\"k\":null" (.one b!"k" .null [] [] [] b!"null" [] ws_nil (.plain 107 (by decide) (by decide) (by decide) .nil) ws_nil ws_nil .null ws_nil)
  have hs : WS [32] := by simp [WS]
  exact .arr _ b!"1, \"a\",{\"k\":null}" (.cons _ [] b!"1" [] _ _ ws_nil h1 ws_nil
    (.cons _ [32] b!"\"a\"" [] _ _ hs h2 ws_nil (.one _ [] b!"{\"k\":null}" [] ws_nil h3 ws_nil)))
example : unmarshalJSON exLib b!"[1]" = some (.array false [.integer 1]) ∧ convertDecoded (.arr [.int 1]) = some (.array true [.integer 1]) ∧
    equal (.array false [.integer 1]) (.array true [.integer 1]) = false := ⟨rfl, rfl, rfl⟩

end Verif.Vals
