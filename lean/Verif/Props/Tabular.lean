import Verif.Model.Tabular
import Verif.Lemmas.MapPerm
/-
C32: the columns of a schema do not depend on the order in which maps are gone through, and what they are.
C33: the check of column titles.
C56: column types as JSON.
-/
set_option autoImplicit false
namespace Verif.Tabular

/-! ## C32 -/

/-- the keys that have a meaning of their own -/
def own (k : Bytes) : Bool := k = b!"title" || k = b!"type" || k = b!"description"

/-- what the column should be, read off the schema by key -/
def columnOf (i : Nat) (m : List (Bytes × Val)) : Column :=
  { title := match mapGet m b!"title" with
      | some (.str t) => t
      | _ => b!"col_" ++ fmtNat i
    type := match mapGet m b!"type" with
      | some (.str x) => [x]
      | some (.arr l) => strings l
      | _ => [b!"string"]
    description := match mapGet m b!"description" with
      | some (.str d) => d
      | _ => []
    validation := match m.filter (fun kv => !own kv.1) with
      | [] => none
      | r => some r }

def hasTitle (m : List (Bytes × Val)) : Bool :=
  match mapGet m b!"title" with
  | some (.str _) => true
  | _ => false

/-- a fold of members over an order without repeated keys -/
theorem fold_member (l : List (Bytes × Val)) (hn : KeysNodup l) (b : Build) :
    l.foldl member b =
      { col := { title := match mapGet l b!"title" with
                   | some (.str t) => t
                   | _ => b.col.title
                 type := match mapGet l b!"type" with
                   | some (.str x) => [x]
                   | some (.arr l) => strings l
                   | _ => b.col.type
                 description := match mapGet l b!"description" with
                   | some (.str d) => d
                   | _ => b.col.description
                 validation := match l.filter (fun kv => !own kv.1) with
                   | [] => b.col.validation
                   | r => some (r.foldl (fun acc kv => mapSet acc kv.1 kv.2) (b.col.validation.getD [])) }
        setTitle := b.setTitle || hasTitle l
        setType := b.setType || (mapGet l b!"type").isSome } := by
  induction l generalizing b with
  | nil => simp [mapGet, hasTitle]
  | cons x t ih =>
    obtain ⟨k, v⟩ := x
    rw [KeysNodup, List.map_cons, List.nodup_cons] at hn
    have hnone : mapGet t k = none := by
      rw [map_get_none]
      intro x hx e
      exact hn.1 (e ▸ List.mem_map_of_mem (f := (·.1)) hx)
    rw [List.foldl_cons, ih hn.2]
    by_cases h1 : k = b!"title"
    · subst h1
      cases v <;> simp [member, mapGet, hasTitle, hnone, own]
    · by_cases h2 : k = b!"type"
      · subst h2
        cases v <;> simp [member, mapGet, hasTitle, hnone, own]
      · by_cases h3 : k = b!"description"
        · subst h3
          cases v <;> simp [member, mapGet, hasTitle, hnone, own]
        · have hf : ((k, v) :: t).filter (fun kv => !own kv.1) = (k, v) :: t.filter (fun kv => !own kv.1) := by
            apply List.filter_cons_of_pos
            simp [own, h1, h2, h3]
          rw [hf]
          simp only [member, h1, h2, h3, if_false, mapGet, hasTitle, Ne.symm h1, Ne.symm h2, Ne.symm h3]
          congr 2
          cases t.filter (fun kv => !own kv.1) <;> simp

/-- an order of going through maps: some permutation of the members -/
def Order (o : Nat → List (Bytes × Val) → List (Bytes × Val)) : Prop := ∀ i m, (o i m).Perm m

/-- A column is what its schema says by key, whatever the order of iteration. -/
theorem C32_column {o : Nat → List (Bytes × Val) → List (Bytes × Val)} (ho : Order o) (i : Nat) (m : List (Bytes × Val)) (hm : KeysSorted m) :
    column o i (.obj m) = (columnOf i m,
      (if hasTitle m then [] else [.noTitle i]) ++ (if (mapGet m b!"type").isSome then [] else [.noType i])) := by
  have hp := ho i m
  have hn := keysNodup_sorted hm
  have hg := fun k => mapGet_perm hp hn k
  have hv : (o i m).filter (fun kv => !own kv.1) |>.Perm (m.filter (fun kv => !own kv.1)) := hp.filter _
  have hs := foldSet_perm hv (keysSorted_filter _ hm)
  have ht : hasTitle (o i m) = hasTitle m := by simp only [hasTitle, hg]
  have hval : (match (o i m).filter (fun kv => !own kv.1) with
      | [] => none
      | r => some (r.foldl (fun acc kv => mapSet acc kv.1 kv.2) [])) =
      (match m.filter (fun kv => !own kv.1) with
      | [] => none
      | r => some r) := by
    cases he : m.filter (fun kv => !own kv.1) with
    | nil =>
      rw [he] at hv
      rw [hv.eq_nil]
    | cons x t =>
      rw [he] at hv hs
      cases hf : (o i m).filter (fun kv => !own kv.1) with
      | nil => rw [hf] at hv; exact absurd hv.symm.eq_nil (by simp)
      | cons y u => rw [hf] at hs; exact congrArg some hs
  simp only [column, fold_member _ ((keysNodup_perm hp).mpr hn), blank, hg, ht, columnOf, Bool.false_or, Option.getD_none]
  congr 2

/-- the columns listed in a schema -/
def Listed (sch : List (Bytes × Val)) (l : List Val) : Prop :=
  mapGet sch b!"type" = some (.str b!"array") ∧
  ∃ m, mapGet sch b!"items" = some (.obj m) ∧ mapGet m b!"items" = some (.arr l)

/-- Exactly schemas of arrays of rows with a list of columns give columns. -/
theorem C32_accepts (o : Nat → List (Bytes × Val) → List (Bytes × Val)) (sch : List (Bytes × Val)) :
    (∃ r, fromSchema o sch = .ok r) ↔ ∃ l, Listed sch l := by
  constructor
  · rintro ⟨r, h⟩
    unfold fromSchema at h
    split at h
    · rename_i t ht
      split at h
      · rename_i e
        subst e
        unfold arrayWrapperColumns at h
        split at h
        · rename_i m hm
          split at h
          · rename_i l hl
            exact ⟨l, ht, m, hm, hl⟩
          · exact absurd h (by simp)
        · exact absurd h (by simp)
      · split at h <;> exact absurd h (by simp)
    · exact absurd h (by simp)
  · rintro ⟨l, ht, m, hm, hl⟩
    exact ⟨_, by simp [fromSchema, ht, arrayWrapperColumns, hm, hl]; rfl⟩

theorem fromSchema_listed {o : Nat → List (Bytes × Val) → List (Bytes × Val)} {sch : List (Bytes × Val)} {l : List Val} (h : Listed sch l) :
    fromSchema o sch = .ok (columns o 0 l) := by
  obtain ⟨ht, m, hm, hl⟩ := h
  simp [fromSchema, ht, arrayWrapperColumns, hm, hl]

theorem columns_length (o : Nat → List (Bytes × Val) → List (Bytes × Val)) (i : Nat) (l : List Val) : (columns o i l).1.length = l.length := by
  induction l generalizing i with
  | nil => rfl
  | cons f l ih => simp [columns, ih]

theorem columns_get (o : Nat → List (Bytes × Val) → List (Bytes × Val)) (i : Nat) (l : List Val) (j : Nat) :
    (columns o i l).1[j]? = (l[j]?).map fun f => (column o (i + j) f).1 := by
  induction l generalizing i j with
  | nil => simp [columns]
  | cons f l ih =>
    cases j with
    | zero => simp [columns]
    | succ j => simp [columns, ih, Nat.add_assoc, Nat.add_comm 1]

theorem columns_problems (o : Nat → List (Bytes × Val) → List (Bytes × Val)) (i : Nat) (l : List Val) (p : Problem) :
    p ∈ (columns o i l).2 ↔ ∃ j f, l[j]? = some f ∧ p ∈ (column o (i + j) f).2 := by
  induction l generalizing i with
  | nil => simp [columns]
  | cons f l ih =>
    simp only [columns, List.mem_append, ih]
    constructor
    · rintro (h | ⟨j, g, hg, h⟩)
      · exact ⟨0, f, by simp, h⟩
      · exact ⟨j + 1, g, by simpa using hg, by rwa [Nat.add_assoc, Nat.add_comm 1] at h⟩
    · rintro ⟨j, g, hg, h⟩
      cases j with
      | zero => simp only [List.getElem?_cons_zero, Option.some.injEq] at hg; subst hg; exact .inl h
      | succ j => exact .inr ⟨j, g, by simpa using hg, by rwa [Nat.add_assoc, Nat.add_comm 1]⟩

/-- maps have sorted keys in the model: the columns listed in the schema are such maps -/
def ColumnMaps (l : List Val) : Prop := ∀ m, Val.obj m ∈ l → KeysSorted m

/-- One column for each item of the schema, in order: the schema's column if the item is an object, and an
untitled string column otherwise. -/
theorem C32_columns {o : Nat → List (Bytes × Val) → List (Bytes × Val)} (ho : Order o) {sch : List (Bytes × Val)} {l : List Val} (h : Listed sch l) (hl : ColumnMaps l) :
    ∃ cols ps, fromSchema o sch = .ok (cols, ps) ∧ cols.length = l.length ∧
      ∀ (j : Nat) (f : Val), l[j]? = some f → cols[j]? = some (match f with
        | .obj m => columnOf j m
        | _ => { title := b!"col_" ++ fmtNat j, type := [b!"string"] }) := by
  refine ⟨_, _, fromSchema_listed h, columns_length .., fun j f hf => ?_⟩
  rw [columns_get, hf, Option.map_some, Nat.zero_add]
  cases f with
  | obj m => rw [C32_column ho j m (hl m (List.mem_of_getElem? hf))]
  | _ => rfl

/-- The order in which Go goes through maps has no influence on columns, problems or errors. -/
theorem C32_order_independent {o o' : Nat → List (Bytes × Val) → List (Bytes × Val)} (ho : Order o) (ho' : Order o') (sch : List (Bytes × Val))
    (hs : ∀ l, Listed sch l → ColumnMaps l) : fromSchema o sch = fromSchema o' sch := by
  have hc : ∀ (l : List Val) (i : Nat), ColumnMaps l → columns o i l = columns o' i l := by
    intro l
    induction l with
    | nil => intros; rfl
    | cons f l ih =>
      intro i hm
      have e : column o i f = column o' i f := by
        cases f with
        | obj m => rw [C32_column ho i m (hm m (by simp)), C32_column ho' i m (hm m (by simp))]
        | _ => rfl
      simp only [columns, e, ih (i + 1) (fun m h => hm m (by simp [h]))]
  by_cases h : ∃ l, Listed sch l
  · obtain ⟨l, h⟩ := h
    rw [fromSchema_listed h, fromSchema_listed h, hc l 0 (hs l h)]
  · have h1 := mt (C32_accepts o sch).mp h
    have h2 := mt (C32_accepts o' sch).mp h
    unfold fromSchema arrayWrapperColumns at *
    split
    · rename_i t ht
      simp only [ht] at h1 h2
      split
      · rename_i e
        simp only [e, if_true] at h1 h2
        split
        · rename_i m hm
          simp only [hm] at h1 h2
          split
          · rename_i l hl; simp [hl] at h1
          · rfl
        · rfl
      · rfl
    · rfl

/-- The problems reported: exactly the items that are no objects, have no text as title, or have no type. -/
theorem C32_problems {o : Nat → List (Bytes × Val) → List (Bytes × Val)} (ho : Order o) {sch : List (Bytes × Val)} {l : List Val} (h : Listed sch l) (hl : ColumnMaps l)
    {cols : List Column} {ps : List Problem} (hr : fromSchema o sch = .ok (cols, ps)) (i : Nat) :
    (.notObject i ∈ ps ↔ ∃ f, l[i]? = some f ∧ ∀ m, f ≠ .obj m) ∧
    (.noTitle i ∈ ps ↔ ∃ m, l[i]? = some (.obj m) ∧ ∀ t, mapGet m b!"title" ≠ some (.str t)) ∧
    (.noType i ∈ ps ↔ ∃ m, l[i]? = some (.obj m) ∧ mapGet m b!"type" = none) := by
  rw [fromSchema_listed h] at hr
  simp only [Except.ok.injEq, Prod.ext_iff] at hr
  rw [← hr.2]
  simp only [columns_problems, Nat.zero_add]
  have key : ∀ j f, l[j]? = some f → ∀ p, p ∈ (column o j f).2 ↔
      (p = .notObject j ∧ ∀ m, f ≠ .obj m) ∨ ∃ m, f = .obj m ∧
        ((p = .noTitle j ∧ ∀ t, mapGet m b!"title" ≠ some (.str t)) ∨ (p = .noType j ∧ mapGet m b!"type" = none)) := by
    intro j f hf p
    cases f with
    | obj m =>
      rw [C32_column ho j m (hl m (List.mem_of_getElem? hf))]
      have h1 : hasTitle m = false ↔ ∀ t, mapGet m b!"title" ≠ some (.str t) := by
        unfold hasTitle
        split
        · rename_i t ht; simp [ht]
        · rename_i hne; simp only [true_iff]; exact fun t ht => hne t ht
      have h2 : (∃ m', Val.obj m = .obj m' ∧ ((p = .noTitle j ∧ ∀ t, mapGet m' b!"title" ≠ some (.str t)) ∨ (p = .noType j ∧ mapGet m' b!"type" = none))) ↔
          ((p = .noTitle j ∧ hasTitle m = false) ∨ (p = .noType j ∧ mapGet m b!"type" = none)) := by
        rw [h1]
        constructor
        · rintro ⟨m', e, h⟩; cases e; exact h
        · intro h; exact ⟨m, rfl, h⟩
      rw [h2]
      cases hasTitle m <;> cases hq : mapGet m b!"type" <;> simp
    | _ => simp [column]
  refine ⟨⟨?_, ?_⟩, ⟨?_, ?_⟩, ?_, ?_⟩
  · rintro ⟨j, f, hf, h⟩
    rw [key j f hf] at h
    rcases h with ⟨e, h⟩ | ⟨m, _, ⟨e, _⟩ | ⟨e, _⟩⟩ <;> cases e
    exact ⟨f, hf, h⟩
  · rintro ⟨f, hf, h⟩
    exact ⟨i, f, hf, (key i f hf _).mpr (.inl ⟨rfl, h⟩)⟩
  · rintro ⟨j, f, hf, h⟩
    rw [key j f hf] at h
    rcases h with ⟨e, h⟩ | ⟨m, rfl, ⟨e, h⟩ | ⟨e, h⟩⟩ <;> cases e
    exact ⟨m, hf, h⟩
  · rintro ⟨m, hf, h⟩
    exact ⟨i, _, hf, (key i _ hf _).mpr (.inr ⟨m, rfl, .inl ⟨rfl, h⟩⟩)⟩
  · rintro ⟨j, f, hf, h⟩
    rw [key j f hf] at h
    rcases h with ⟨e, h⟩ | ⟨m, rfl, ⟨e, h⟩ | ⟨e, h⟩⟩ <;> cases e
    exact ⟨m, hf, h⟩
  · rintro ⟨m, hf, h⟩
    exact ⟨i, _, hf, (key i _ hf _).mpr (.inr ⟨m, rfl, .inr ⟨rfl, h⟩⟩)⟩

/-! ## C33 -/

/-- an identifier: a letter, underscore or dollar sign, then those or digits -/
def Ident (t : Bytes) : Prop := ∃ c r, t = c :: r ∧ isIdentStart c = true ∧ ∀ b ∈ r, isIdentStart b = true ∨ isDigit b = true

theorem match_ident (t : Bytes) : validMachineTitle.full t = true ↔ Ident t := by
  rw [validMachineTitle, full_head_star]
  simp [Ident]

theorem titleProblems_mem (i : Nat) (seen : List Bytes) (cols : List Column) (p : TitleProblem) :
    p ∈ titleProblems i seen cols ↔
      (∃ j c, cols[j]? = some c ∧ p = .invalid (i + j) ∧ ¬ Ident c.title) ∨
      ∃ j c, cols[j]? = some c ∧ p = .dup (i + j) ∧ (c.title ∈ seen ∨ ∃ j' c', j' < j ∧ cols[j']? = some c' ∧ c'.title = c.title) := by
  induction cols generalizing i seen with
  | nil => simp [titleProblems]
  | cons c l ih =>
    rw [titleProblems, List.mem_append, List.mem_append, ih]
    constructor
    · rintro (h | h | ⟨j, d, hd, e, h⟩ | ⟨j, d, hd, e, h⟩)
      · split at h
        · simp at h
        · rename_i hi
          rw [match_ident] at hi
          exact .inl ⟨0, c, rfl, by simpa using h, hi⟩
      · split at h
        · rename_i hi
          exact .inr ⟨0, c, rfl, by simpa using h, .inl hi⟩
        · simp at h
      · exact .inl ⟨j + 1, d, by simpa using hd, by rw [e, Nat.add_assoc, Nat.add_comm 1], h⟩
      · refine .inr ⟨j + 1, d, by simpa using hd, by rw [e, Nat.add_assoc, Nat.add_comm 1], ?_⟩
        rcases h with h | ⟨j', c', hj, hc, ht⟩
        · rcases List.mem_cons.mp h with h | h
          · exact .inr ⟨0, c, by omega, rfl, h.symm⟩
          · exact .inl h
        · exact .inr ⟨j' + 1, c', by omega, by simpa using hc, ht⟩
    · rintro (⟨j, d, hd, e, h⟩ | ⟨j, d, hd, e, h⟩)
      · cases j with
        | zero =>
          simp only [List.getElem?_cons_zero, Option.some.injEq] at hd
          subst hd
          rw [← match_ident] at h
          exact .inl (by simp [h, e])
        | succ j => exact .inr (.inr (.inl ⟨j, d, by simpa using hd, by rw [e, Nat.add_assoc, Nat.add_comm 1], h⟩))
      · cases j with
        | zero =>
          simp only [List.getElem?_cons_zero, Option.some.injEq] at hd
          subst hd
          rcases h with h | ⟨j', _, hj, _⟩
          · exact .inr (.inl (by simp [h, e]))
          · omega
        | succ j =>
          refine .inr (.inr (.inr ⟨j, d, by simpa using hd, by rw [e, Nat.add_assoc, Nat.add_comm 1], ?_⟩))
          rcases h with h | ⟨j', c', hj, hc, ht⟩
          · exact .inl (by simp [h])
          · cases j' with
            | zero =>
              simp only [List.getElem?_cons_zero, Option.some.injEq] at hc
              subst hc
              exact .inl (by simp [ht])
            | succ j' => exact .inr ⟨j', c', by omega, by simpa using hc, ht⟩

/-- Which problems are reported: column `i` is not an identifier; column `i` has the title of an earlier one. -/
theorem C33_problems (cols : List Column) (i : Nat) :
    (.invalid i ∈ titleProblems 0 [] cols ↔ ∃ c, cols[i]? = some c ∧ ¬ Ident c.title) ∧
    (.dup i ∈ titleProblems 0 [] cols ↔ ∃ c, cols[i]? = some c ∧ ∃ j c', j < i ∧ cols[j]? = some c' ∧ c'.title = c.title) := by
  simp only [titleProblems_mem, Nat.zero_add]
  constructor
  · constructor
    · rintro (⟨j, c, hc, e, h⟩ | ⟨j, c, hc, e, h⟩) <;> cases e
      exact ⟨c, hc, h⟩
    · rintro ⟨c, hc, h⟩; exact .inl ⟨i, c, hc, rfl, h⟩
  · constructor
    · rintro (⟨j, c, hc, e, h⟩ | ⟨j, c, hc, e, h⟩) <;> cases e
      exact ⟨c, hc, by simpa using h⟩
    · rintro ⟨c, hc, h⟩; exact .inr ⟨i, c, hc, rfl, .inr h⟩

/-- The check succeeds exactly when every title is an identifier and no two are the same. -/
theorem C33_valid_iff (cols : List Column) :
    validMachineTitles cols = true ↔ (∀ c ∈ cols, Ident c.title) ∧ (titles cols).Nodup := by
  rw [validMachineTitles, decide_eq_true_eq]
  constructor
  · intro h
    constructor
    · intro c hc
      obtain ⟨j, hj⟩ := List.getElem?_of_mem hc
      apply Classical.byContradiction
      intro hn
      have : TitleProblem.invalid j ∈ titleProblems 0 [] cols := (C33_problems cols j).1.mpr ⟨c, hj, hn⟩
      rw [h] at this
      simp at this
    · rw [titles, List.Nodup, List.pairwise_map, List.pairwise_iff_getElem]
      intro j i hj hi hlt e
      have : TitleProblem.dup i ∈ titleProblems 0 [] cols :=
        (C33_problems cols i).2.mpr ⟨cols[i], by simp, j, cols[j], hlt, by simp, e⟩
      rw [h] at this
      simp at this
  · rintro ⟨h1, h2⟩
    rw [List.eq_nil_iff_forall_not_mem]
    intro p hp
    rw [titleProblems_mem] at hp
    rcases hp with ⟨j, c, hc, _, h⟩ | ⟨j, c, hc, _, h⟩
    · exact h (h1 c (List.mem_of_getElem? hc))
    · rcases h with h | ⟨j', c', hj, hc', e⟩
      · simp at h
      · rw [titles, List.Nodup, List.pairwise_map, List.pairwise_iff_getElem] at h2
        obtain ⟨l1, e1⟩ := List.getElem?_eq_some_iff.mp hc
        obtain ⟨l2, e2⟩ := List.getElem?_eq_some_iff.mp hc'
        exact h2 j' j l2 l1 hj (by rw [e1, e2, e])

theorem fmtNat_inj {a b : Nat} (h : fmtNat a = fmtNat b) : a = b := by
  have := congrArg parseNat h
  simpa [parseNat_fmtNat] using this

/-- Generated titles pass the check: a schema none of whose columns has a title gives machine titles. -/
theorem C33_generated_titles_valid {o : Nat → List (Bytes × Val) → List (Bytes × Val)} (ho : Order o) {sch : List (Bytes × Val)} {l : List Val} (h : Listed sch l)
    (hl : ColumnMaps l) (hu : ∀ m, Val.obj m ∈ l → ∀ t, mapGet m b!"title" ≠ some (.str t)) {cols : List Column} {ps : List Problem}
    (hr : fromSchema o sch = .ok (cols, ps)) : validMachineTitles cols = true := by
  obtain ⟨cols', ps', e, hlen, hget⟩ := C32_columns ho h hl
  rw [e] at hr
  cases hr
  have ht : ∀ j c, cols[j]? = some c → c.title = b!"col_" ++ fmtNat j := by
    intro j c hc
    obtain ⟨lt, _⟩ := List.getElem?_eq_some_iff.mp hc
    have hf : l[j]? = some l[j] := List.getElem?_eq_getElem (by omega)
    have := hget j _ hf
    rw [hc] at this
    have := Option.some.inj this
    rw [this]
    split
    · rename_i m hm
      have hmem : Val.obj m ∈ l := by rw [← hm]; exact List.getElem_mem _
      simp only [columnOf]
      split
      · rename_i t ht; exact absurd ht (hu m hmem t)
      · rfl
    · rfl
  rw [C33_valid_iff]
  constructor
  · intro c hc
    obtain ⟨j, hj⟩ := List.getElem?_of_mem hc
    rw [ht j c hj]
    refine ⟨99, [111, 108, 95] ++ fmtNat j, rfl, by decide, fun b hb => ?_⟩
    rcases List.mem_append.mp hb with hb | hb
    · left
      have hall : ∀ b ∈ ([111, 108, 95] : List UInt8), isIdentStart b = true := by decide
      exact hall b hb
    · exact .inr (fmtNatF_digits _ _ b hb)
  · rw [titles, List.Nodup, List.pairwise_map, List.pairwise_iff_getElem]
    intro j i hj hi hlt e
    rw [ht j cols[j] (by simp), ht i cols[i] (by simp)] at e
    have := fmtNat_inj (List.append_cancel_left e)
    omega

/-- A generated title can be the title another column was given. -/
theorem C33_generated_title_can_clash : ∃ sch cols ps, fromSchema (fun _ m => m) sch = .ok (cols, ps) ∧ validMachineTitles cols = false ∧
    titles cols = [b!"col_1", b!"col_1"] :=
  ⟨[(b!"items", .obj [(b!"items", .arr [.obj [(b!"title", .str b!"col_1")], .obj []])]), (b!"type", .str b!"array")],
    _, _, rfl, by decide +kernel, by decide +kernel⟩

/-! ## C56 -/

theorem unmarshalStrings_map (l : List Bytes) : unmarshalStrings (l.map .str) = some l := by
  induction l with
  | nil => rfl
  | cons x l ih => simp [unmarshalStrings, ih]

/-- Column types written as JSON and read back are the same types; only an empty list cannot be written. -/
theorem C56_round_trip (ct : List Bytes) :
    (marshalType ct = none ↔ ct = []) ∧ ∀ v, marshalType ct = some v → unmarshalType v = some ct := by
  match ct with
  | [] => simp [marshalType]
  | [t] =>
    refine ⟨by simp [marshalType], ?_⟩
    rintro v h
    simp only [marshalType, Option.some.injEq] at h
    subst h
    rfl
  | t :: u :: l =>
    refine ⟨by simp [marshalType], ?_⟩
    rintro v h
    simp only [marshalType, Option.some.injEq] at h
    subst h
    exact unmarshalStrings_map _

/-- Exactly null, a string, or a list of strings and nulls is read as column types, null as an empty name. -/
theorem C56_accepted (v : Val) : (∃ ct, unmarshalType v = some ct) ↔
    v = .null ∨ (∃ s, v = .str s) ∨ ∃ l, v = .arr l ∧ ∀ x ∈ l, x = .null ∨ ∃ s, x = .str s := by
  have hs : ∀ l, (∃ ct, unmarshalStrings l = some ct) ↔ ∀ x ∈ l, x = .null ∨ ∃ s, x = Val.str s := by
    intro l
    induction l with
    | nil => simp [unmarshalStrings]
    | cons x l ih =>
      have hx : ∀ y : Bytes, (∃ ct, (unmarshalStrings l).map (y :: ·) = some ct) ↔ ∃ ct, unmarshalStrings l = some ct := by
        intro y
        cases unmarshalStrings l <;> simp
      cases x with
      | null => rw [unmarshalStrings, hx, ih]; simp
      | str s => rw [unmarshalStrings, hx, ih]; simp
      | _ => simp [unmarshalStrings]
  cases v <;> simp [unmarshalType, hs]

/-- What is read: null is one empty name, a string is itself, and in a list null is an empty name. -/
theorem C56_read (v : Val) (ct : List Bytes) (h : unmarshalType v = some ct) :
    (v = .null → ct = [[]]) ∧ (∀ s, v = .str s → ct = [s]) ∧
    ∀ l, v = .arr l → ct.length = l.length ∧ ∀ i : Nat, (l[i]? = some .null → ct[i]? = some []) ∧ ∀ s, l[i]? = some (.str s) → ct[i]? = some s := by
  refine ⟨?_, ?_, ?_⟩
  · rintro rfl; simpa [unmarshalType, eq_comm] using h
  · rintro s rfl; simpa [unmarshalType, eq_comm] using h
  · rintro l rfl
    rw [unmarshalType] at h
    induction l generalizing ct with
    | nil => simp [unmarshalStrings] at h; simp [← h]
    | cons x l ih =>
      have key : ∀ y : Bytes, (x = .null → y = []) → (∀ s, x = .str s → y = s) → (unmarshalStrings l).map (y :: ·) = some ct →
          ct.length = (x :: l).length ∧ ∀ i : Nat, ((x :: l)[i]? = some .null → ct[i]? = some []) ∧ ∀ s, (x :: l)[i]? = some (.str s) → ct[i]? = some s := by
        intro y h1 h2 h3
        obtain ⟨ct', e, rfl⟩ := Option.map_eq_some_iff.mp h3
        obtain ⟨i1, i2⟩ := ih ct' e
        refine ⟨by simp [i1], fun i => ?_⟩
        cases i with
        | zero =>
          simp only [List.getElem?_cons_zero, Option.some.injEq]
          exact ⟨h1, h2⟩
        | succ i => simpa using i2 i
      cases x with
      | null => exact key [] (by simp) (by simp) h
      | str s => exact key s (by simp) (by simp) h
      | _ => simp [unmarshalStrings] at h

/-- `HasType` is membership. -/
theorem C56_hasType (ct : List Bytes) (t : Bytes) : hasType ct t = true ↔ t ∈ ct := by
  simp [hasType]

/-- A schema with an empty list of types, or a list without strings, gives a column whose types cannot be
written. -/
theorem C56_unwritable_column {o : Nat → List (Bytes × Val) → List (Bytes × Val)} (ho : Order o) (i : Nat) (m : List (Bytes × Val)) (hm : KeysSorted m) :
    marshalType (column o i (.obj m)).1.type = none ↔ ∃ l, mapGet m b!"type" = some (.arr l) ∧ ∀ s, Val.str s ∉ l := by
  have hs : ∀ l, strings l = [] ↔ ∀ s, Val.str s ∉ l := by
    intro l
    induction l with
    | nil => simp [strings]
    | cons x l ih =>
      cases x with
      | str s => simp only [strings, reduceCtorEq, false_iff]; exact fun h => h s (by simp)
      | _ => simp [strings, ih]
  rw [C32_column ho i m hm, (C56_round_trip _).1]
  simp only [columnOf]
  split
  · rename_i x hx; simp [hx]
  · rename_i l hl; simp [hl, hs]
  · rename_i h1 h2
    simp only [List.cons_ne_self, false_iff]
    rintro ⟨l, hl, _⟩
    exact h2 l hl

/-! ### examples -/

def exSchema : List (Bytes × Val) :=
  [(b!"items", .obj [(b!"items", .arr [
      .obj [(b!"maximum", .f64 0), (b!"title", .str b!"age"), (b!"type", .str b!"integer")],
      .bool true,
      .obj [(b!"title", .f64 0), (b!"type", .arr [.str b!"string", .null, .str b!"null"])]]), (b!"type", .str b!"array")]),
   (b!"type", .str b!"array")]

example : fromSchema (fun _ m => m.reverse) exSchema = .ok
    ([{ title := b!"age", type := [b!"integer"], validation := some [(b!"maximum", .f64 0)] },
      { title := b!"col_1", type := [b!"string"] },
      { title := b!"col_2", type := [b!"string", b!"null"] }],
     [.notObject 1, .noTitle 2]) := by rfl
example : titleProblems 0 [] [{ title := b!"a1", type := [] }, { title := b!"1a", type := [] }, { title := b!"a1", type := [] }, { title := [], type := [] }] =
    [.invalid 1, .dup 2, .invalid 3] := by decide +kernel
example : validMachineTitles [{ title := b!"$a", type := [] }, { title := b!"_9", type := [] }] = true := by decide +kernel
example : marshalType [b!"string", b!"null"] = some (.arr [.str b!"string", .str b!"null"]) ∧
    unmarshalType (.arr [.str b!"string", .null]) = some [b!"string", []] ∧ unmarshalType (.arr [.bool true]) = none := ⟨rfl, rfl, rfl⟩

end Verif.Tabular
