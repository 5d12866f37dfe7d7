import Verif.Go.Bytes
/- Lemmas about key-sorted association lists. -/
namespace Verif

theorem map_get_none {α : Type} {m : List (Bytes × α)} {k : Bytes} : mapGet m k = none ↔ ∀ x ∈ m, x.1 ≠ k := by
  induction m with
  | nil => simp [mapGet]
  | cons x t ih =>
    obtain ⟨k', v'⟩ := x
    simp only [mapGet]
    split
    · rename_i e; subst e; simp
    · rename_i hne
      rw [ih]
      simp only [List.mem_cons, forall_eq_or_imp]
      exact ⟨fun h => ⟨fun e => hne e.symm, h⟩, fun h => h.2⟩

theorem keysSorted_tail {α : Type} {x : Bytes × α} {t : List (Bytes × α)} (h : KeysSorted (x :: t)) : KeysSorted t :=
  (List.pairwise_cons.mp h).2

theorem keysSorted_head {α : Type} {x : Bytes × α} {t : List (Bytes × α)} (h : KeysSorted (x :: t)) :
    ∀ y ∈ t, bytesLt x.1 y.1 = true := (List.pairwise_cons.mp h).1

theorem map_get_mem {α : Type} {m : List (Bytes × α)} (h : KeysSorted m) {k : Bytes} {v : α} :
    mapGet m k = some v ↔ (k, v) ∈ m := by
  induction m with
  | nil => simp [mapGet]
  | cons x t ih =>
    obtain ⟨k', v'⟩ := x
    have hh := keysSorted_head h
    simp only [mapGet]
    split
    · rename_i e; subst e
      simp only [List.mem_cons, Prod.mk.injEq, Option.some.injEq, true_and]
      constructor
      · intro e; exact Or.inl e.symm
      · rintro (e | hm)
        · exact e.symm
        · exact absurd rfl (bytesLt_ne (hh (k, v) hm))
    · rename_i hne
      rw [ih (keysSorted_tail h)]
      simp [hne]

/-- two maps with the same bindings are the same list -/
theorem map_ext {α : Type} {m n : List (Bytes × α)} (hm : KeysSorted m) (hn : KeysSorted n)
    (h : ∀ k, mapGet m k = mapGet n k) : m = n := by
  induction m generalizing n with
  | nil =>
    cases n with
    | nil => rfl
    | cons y u => have := h y.1; simp [mapGet] at this
  | cons x t ih =>
    cases n with
    | nil => have := h x.1; simp [mapGet] at this
    | cons y u =>
      obtain ⟨k, v⟩ := x
      obtain ⟨l, w⟩ := y
      have hx := keysSorted_head hm
      have hy := keysSorted_head hn
      have hkl : k = l := by
        apply bytesLt_connex
        · cases hb : bytesLt k l with
          | false => rfl
          | true =>
            have h1 := h k
            have hne := bytesLt_ne hb
            simp only [mapGet, if_true, if_neg hne] at h1
            have := (map_get_mem (keysSorted_tail hn)).mp h1.symm
            exact absurd (bytesLt_trans hb (hy _ this)) (by simp [bytesLt_irrefl])
        · cases hb : bytesLt l k with
          | false => rfl
          | true =>
            have h1 := h l
            have hne := bytesLt_ne hb
            simp only [mapGet, if_true, if_neg hne] at h1
            have := (map_get_mem (keysSorted_tail hm)).mp h1
            exact absurd (bytesLt_trans hb (hx _ this)) (by simp [bytesLt_irrefl])
      subst hkl
      have hv : v = w := by have := h k; simpa [mapGet] using this
      subst hv
      rw [ih (keysSorted_tail hm) (keysSorted_tail hn)]
      intro j
      by_cases hj : j = k
      · subst hj
        rw [map_get_none.mpr (fun x hx' e => absurd e.symm (bytesLt_ne (hx x hx'))),
          map_get_none.mpr (fun x hx' e => absurd e.symm (bytesLt_ne (hy x hx')))]
      · have := h j; simpa [mapGet, hj] using this

theorem keysSorted_foldSet {α : Type} (m : List (Bytes × α)) {acc : List (Bytes × α)} (h : KeysSorted acc) :
    KeysSorted (m.foldl (fun acc kv => mapSet acc kv.1 kv.2) acc) := by
  induction m generalizing acc with
  | nil => exact h
  | cons x t ih => exact ih (keysSorted_mapSet _ _ h)

theorem mapGet_foldSet {α : Type} {m : List (Bytes × α)} (hm : KeysSorted m) (acc : List (Bytes × α)) (k : Bytes) :
    mapGet (m.foldl (fun acc kv => mapSet acc kv.1 kv.2) acc) k = (mapGet m k).or (mapGet acc k) := by
  induction m generalizing acc with
  | nil => simp [mapGet]
  | cons x t ih =>
    obtain ⟨k', v'⟩ := x
    rw [List.foldl_cons, ih (keysSorted_tail hm)]
    simp only [mapGet]
    by_cases h : k = k'
    · subst h
      have : mapGet t k = none := map_get_none.mpr (fun x hx e => absurd e.symm (bytesLt_ne (keysSorted_head hm x hx)))
      simp [this, mapGet_mapSet_self]
    · simp [h, mapGet_mapSet_ne _ _ h]

/-- the last binding wins when a map is built from a list -/
theorem mapGet_foldSet_last {α : Type} (l : List (Bytes × α)) (acc : List (Bytes × α)) (k : Bytes) :
    mapGet (l.foldl (fun acc kv => mapSet acc kv.1 kv.2) acc) k =
      (((l.filter fun x => x.1 = k).map (·.2)).getLast?).or (mapGet acc k) := by
  induction l generalizing acc with
  | nil => simp
  | cons x t ih =>
    obtain ⟨k', v'⟩ := x
    rw [List.foldl_cons, ih]
    by_cases h : k' = k
    · subst h
      simp only [mapGet_mapSet_self, List.filter_cons, decide_true, if_true, List.map_cons, List.getLast?_cons, Option.some_or]
      cases ((List.filter (fun x => decide (x.1 = k')) t).map (·.2)).getLast? <;> simp
    · simp [h, mapGet_mapSet_ne _ _ (Ne.symm h)]

theorem keysSorted_mapDel {α : Type} {m : List (Bytes × α)} (k : Bytes) (h : KeysSorted m) : KeysSorted (mapDel m k) := by
  induction m with
  | nil => exact h
  | cons x t ih =>
    obtain ⟨k', v'⟩ := x
    simp only [mapDel]
    split
    · exact keysSorted_tail h
    · refine List.pairwise_cons.mpr ⟨?_, ih (keysSorted_tail h)⟩
      intro y hy
      apply keysSorted_head h
      clear ih h
      induction t with
      | nil => simp [mapDel] at hy
      | cons z u ih =>
        obtain ⟨l, w⟩ := z
        simp only [mapDel] at hy
        split at hy
        · exact List.mem_cons_of_mem _ hy
        · rcases List.mem_cons.mp hy with rfl | hy
          · simp
          · exact List.mem_cons_of_mem _ (ih hy)

theorem mapGet_mapDel_self {α : Type} {m : List (Bytes × α)} (h : KeysSorted m) (k : Bytes) : mapGet (mapDel m k) k = none := by
  induction m with
  | nil => rfl
  | cons x t ih =>
    obtain ⟨k', v'⟩ := x
    simp only [mapDel]
    split
    · rename_i e; subst e
      exact map_get_none.mpr (fun x hx e => absurd e.symm (bytesLt_ne (keysSorted_head h x hx)))
    · rename_i e
      simp only [mapGet, if_neg e]
      exact ih (keysSorted_tail h)

theorem mapGet_mapDel_ne {α : Type} (m : List (Bytes × α)) {k j : Bytes} (h : j ≠ k) : mapGet (mapDel m k) j = mapGet m j := by
  induction m with
  | nil => rfl
  | cons x t ih =>
    obtain ⟨k', v'⟩ := x
    simp only [mapDel]
    split
    · rename_i e; subst e; simp [mapGet, h]
    · simp only [mapGet, ih]

end Verif
