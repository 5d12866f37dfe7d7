import Verif.Lemmas.Map
/-
Maps gone through in any order.
-/
set_option autoImplicit false
namespace Verif

/-- pairwise different keys -/
def KeysNodup {α : Type} (l : List (Bytes × α)) : Prop := (l.map (·.1)).Nodup

theorem keysNodup_sorted {α : Type} {m : List (Bytes × α)} (h : KeysSorted m) : KeysNodup m := by
  induction m with
  | nil => exact List.nodup_nil
  | cons x t ih =>
    rw [KeysNodup, List.map_cons, List.nodup_cons]
    refine ⟨fun hm => ?_, ih (keysSorted_tail h)⟩
    obtain ⟨y, hy, e⟩ := List.mem_map.mp hm
    exact bytesLt_ne (keysSorted_head h y hy) e.symm

theorem keysNodup_perm {α : Type} {l m : List (Bytes × α)} (h : l.Perm m) : KeysNodup l ↔ KeysNodup m :=
  (h.map _).nodup_iff

theorem keysNodup_filter {α : Type} {l : List (Bytes × α)} (p : Bytes × α → Bool) (h : KeysNodup l) : KeysNodup (l.filter p) :=
  List.Nodup.sublist (List.filter_sublist.map _) h

theorem mapGet_mem_nodup {α : Type} {l : List (Bytes × α)} (h : KeysNodup l) {k : Bytes} {v : α} : mapGet l k = some v ↔ (k, v) ∈ l := by
  induction l with
  | nil => simp [mapGet]
  | cons x t ih =>
    obtain ⟨k', v'⟩ := x
    rw [KeysNodup, List.map_cons, List.nodup_cons] at h
    have ih := ih h.2
    rw [mapGet]
    split
    · rename_i hk
      subst hk
      simp only [Option.some.injEq, List.mem_cons, Prod.mk.injEq, true_and]
      constructor
      · rintro rfl; exact .inl rfl
      · rintro (rfl | hm)
        · rfl
        · exact absurd (List.mem_map_of_mem hm) h.1
    · rename_i hk
      rw [ih]
      simp [hk]

theorem mapGet_perm {α : Type} {l m : List (Bytes × α)} (h : l.Perm m) (hn : KeysNodup m) (k : Bytes) : mapGet l k = mapGet m k := by
  apply Option.ext
  intro v
  rw [mapGet_mem_nodup hn, mapGet_mem_nodup ((keysNodup_perm h).mpr hn)]
  exact h.mem_iff

theorem mapGet_foldSet_nodup {α : Type} {l : List (Bytes × α)} (hn : KeysNodup l) (acc : List (Bytes × α)) (k : Bytes) :
    mapGet (l.foldl (fun acc kv => mapSet acc kv.1 kv.2) acc) k = (mapGet l k).or (mapGet acc k) := by
  induction l generalizing acc with
  | nil => simp [mapGet]
  | cons x t ih =>
    obtain ⟨k', v'⟩ := x
    rw [KeysNodup, List.map_cons, List.nodup_cons] at hn
    rw [List.foldl_cons, ih hn.2, mapGet]
    by_cases hk : k = k'
    · subst hk
      have : mapGet t k = none := by
        rw [map_get_none]
        intro x hx e
        exact hn.1 (e ▸ List.mem_map_of_mem (f := (·.1)) hx)
      simp [this, mapGet_mapSet_self]
    · simp [hk, mapGet_mapSet_ne _ _ hk]

/-- building a map from its members in any order -/
theorem foldSet_perm {α : Type} {l m : List (Bytes × α)} (h : l.Perm m) (hm : KeysSorted m) :
    l.foldl (fun acc kv => mapSet acc kv.1 kv.2) [] = m := by
  have hn := keysNodup_sorted hm
  refine map_ext (keysSorted_foldSet l List.Pairwise.nil) hm fun k => ?_
  rw [mapGet_foldSet_nodup ((keysNodup_perm h).mpr hn), mapGet_perm h hn]
  simp [mapGet]

theorem keysSorted_filter {α : Type} {m : List (Bytes × α)} (p : Bytes × α → Bool) (h : KeysSorted m) : KeysSorted (m.filter p) :=
  List.Pairwise.filter p h

end Verif
