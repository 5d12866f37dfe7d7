/-
Byte strings.  A Go `string` and a Go `[]byte` are both sequences of bytes; we
use `List UInt8` for both.
-/
namespace Verif

/-- Go `string` / `[]byte` contents. -/
abbrev Bytes := List UInt8

/-- `b!"text"` is the list of UTF-8 bytes of a string literal, expanded at
elaboration time to explicit numerals so that it reduces well in the kernel. -/
macro:max "b!" s:str : term => do
  let bs := s.getString.toUTF8.toList
  let elems ← bs.mapM fun b => `(($(Lean.quote b.toNat) : UInt8))
  let arr := elems.toArray
  `(([$arr,*] : Bytes))

/-- Bytewise lexicographic order, the order of Go's `<` on strings and of
`sort.Strings`. -/
def bytesLt : Bytes → Bytes → Bool
  | [], [] => false
  | [], _ :: _ => true
  | _ :: _, [] => false
  | a :: s, b :: t => if a < b then true else if b < a then false else bytesLt s t

theorem bytesLt_irrefl (a : Bytes) : bytesLt a a = false := by
  induction a with
  | nil => rfl
  | cons x t ih => simp [bytesLt, ih]

theorem bytesLt_trans : ∀ {a b c : Bytes}, bytesLt a b = true → bytesLt b c = true → bytesLt a c = true
  | [], [], _, h, _ => by simp [bytesLt] at h
  | [], _ :: _, [], _, h => by simp [bytesLt] at h
  | [], _ :: _, _ :: _, _, _ => by simp [bytesLt]
  | _ :: _, [], _, h, _ => by simp [bytesLt] at h
  | _ :: _, _ :: _, [], _, h => by simp [bytesLt] at h
  | x :: a, y :: b, z :: c, h1, h2 => by
    have ih := @bytesLt_trans a b c
    simp only [bytesLt] at h1 h2 ⊢
    simp only [UInt8.lt_iff_toNat_lt] at *
    split at h1
    · split at h2
      · rw [if_pos (by omega)]
      · split at h2
        · simp at h2
        · rw [if_pos (by omega)]
    · split at h1
      · simp at h1
      · split at h2
        · rw [if_pos (by omega)]
        · split at h2
          · simp at h2
          · rw [if_neg (by omega), if_neg (by omega)]; exact ih h1 h2

theorem bytesLt_asymm {a b : Bytes} (h : bytesLt a b = true) : bytesLt b a = false := by
  cases h' : bytesLt b a with
  | false => rfl
  | true => have := bytesLt_trans h h'; simp [bytesLt_irrefl] at this

theorem bytesLt_connex : ∀ {a b : Bytes}, bytesLt a b = false → bytesLt b a = false → a = b
  | [], [], _, _ => rfl
  | [], _ :: _, h, _ => by simp [bytesLt] at h
  | _ :: _, [], _, h => by simp [bytesLt] at h
  | x :: a, y :: b, h1, h2 => by
    have ih := @bytesLt_connex a b
    simp only [bytesLt] at h1 h2
    simp only [UInt8.lt_iff_toNat_lt] at *
    split at h1
    · simp at h1
    · split at h1
      · rename_i h _; rw [if_pos (by omega)] at h2; simp at h2
      · rw [if_neg (by omega), if_neg (by omega)] at h2
        have hxy : x = y := UInt8.toNat_inj.mp (by omega)
        rw [hxy, ih h1 h2]

theorem bytesLt_ne {a b : Bytes} (h : bytesLt a b = true) : a ≠ b := by
  rintro rfl; simp [bytesLt_irrefl] at h

/-! ### Finite maps keyed by byte strings

Go's `map[string]T` is unordered with unique keys.  We represent it by its
key-sorted association list, so that two maps are equal exactly when they hold
the same bindings. -/

/-- `m[k] = v` -/
def mapSet {α : Type} : List (Bytes × α) → Bytes → α → List (Bytes × α)
  | [], k, v => [(k, v)]
  | (k', v') :: t, k, v =>
    if k = k' then (k, v) :: t
    else if bytesLt k k' then (k, v) :: (k', v') :: t
    else (k', v') :: mapSet t k v

/-- `m[k]` with the `ok` flag as `Option` -/
def mapGet {α : Type} : List (Bytes × α) → Bytes → Option α
  | [], _ => none
  | (k', v') :: t, k => if k = k' then some v' else mapGet t k

/-- `delete(m, k)` -/
def mapDel {α : Type} : List (Bytes × α) → Bytes → List (Bytes × α)
  | [], _ => []
  | (k', v') :: t, k => if k = k' then t else (k', v') :: mapDel t k

/-- The representation invariant of maps: keys strictly increasing. -/
def KeysSorted {α : Type} (m : List (Bytes × α)) : Prop :=
  m.Pairwise fun a b => bytesLt a.1 b.1 = true

instance {α : Type} (m : List (Bytes × α)) : Decidable (KeysSorted m) :=
  inferInstanceAs (Decidable (List.Pairwise _ _))

/-- build a map by successive assignment -/
def mapOf {α : Type} (l : List (Bytes × α)) : List (Bytes × α) :=
  l.foldl (fun m kv => mapSet m kv.1 kv.2) []

theorem mapGet_mapSet_self {α : Type} (m : List (Bytes × α)) (k : Bytes) (v : α) :
    mapGet (mapSet m k v) k = some v := by
  induction m with
  | nil => simp [mapSet, mapGet]
  | cons kv t ih =>
    obtain ⟨k', v'⟩ := kv
    simp only [mapSet]
    split
    · simp [mapGet]
    · split
      · simp [mapGet]
      · rename_i h _; simp [mapGet, h, ih]

theorem mapGet_mapSet_ne {α : Type} (m : List (Bytes × α)) {k k' : Bytes} (v : α) (h : k' ≠ k) :
    mapGet (mapSet m k v) k' = mapGet m k' := by
  induction m with
  | nil => simp [mapSet, mapGet, h]
  | cons kv t ih =>
    obtain ⟨k2, v2⟩ := kv
    simp only [mapSet]
    split
    · rename_i e; subst e; simp [mapGet, h]
    · split
      · simp [mapGet, h]
      · simp only [mapGet, ih]

theorem mem_mapSet {α : Type} {m : List (Bytes × α)} {k : Bytes} {v : α} {x : Bytes × α}
    (h : x ∈ mapSet m k v) : x = (k, v) ∨ x ∈ m := by
  induction m with
  | nil => simpa [mapSet] using h
  | cons kv t ih =>
    obtain ⟨k2, v2⟩ := kv
    simp only [mapSet] at h
    split at h
    · simp at h; rcases h with h | h <;> simp [h]
    · split at h
      · simpa using h
      · simp at h; rcases h with h | h
        · simp [h]
        · rcases ih h with h | h <;> simp [h]

theorem keysSorted_mapSet {α : Type} {m : List (Bytes × α)} (k : Bytes) (v : α) (h : KeysSorted m) :
    KeysSorted (mapSet m k v) := by
  induction m with
  | nil => simp [mapSet, KeysSorted]
  | cons kv t ih =>
    obtain ⟨k2, v2⟩ := kv
    simp only [KeysSorted, List.pairwise_cons] at h
    simp only [mapSet]
    split
    · rename_i e; subst e
      simp only [KeysSorted, List.pairwise_cons]; exact h
    · rename_i hne
      split
      · rename_i hlt
        simp only [KeysSorted, List.pairwise_cons]
        refine ⟨?_, h⟩
        intro x hx
        simp at hx
        rcases hx with rfl | hx
        · exact hlt
        · exact bytesLt_trans hlt (h.1 x hx)
      · rename_i hlt
        simp only [KeysSorted, List.pairwise_cons]
        refine ⟨?_, ih h.2⟩
        intro x hx
        rcases mem_mapSet hx with rfl | hx
        · cases hb : bytesLt k2 k with
          | true => rfl
          | false => exact absurd (bytesLt_connex (by simpa using hlt) hb) hne
        · exact h.1 x hx

theorem keysSorted_mapOf {α : Type} (l : List (Bytes × α)) : KeysSorted (mapOf l) := by
  unfold mapOf
  suffices h : ∀ (l : List (Bytes × α)) m, KeysSorted m →
      KeysSorted (l.foldl (fun m kv => mapSet m kv.1 kv.2) m) by
    exact h l [] (by simp [KeysSorted])
  intro l
  induction l with
  | nil => intro m h; exact h
  | cons x t ih => intro m h; exact ih _ (keysSorted_mapSet _ _ h)

/-- Appending a key larger than all others puts it at the end. -/
theorem mapSet_append {α : Type} {m : List (Bytes × α)} {k : Bytes} {v : α}
    (h : ∀ x ∈ m, bytesLt x.1 k = true) : mapSet m k v = m ++ [(k, v)] := by
  induction m with
  | nil => rfl
  | cons kv t ih =>
    obtain ⟨k2, v2⟩ := kv
    have h2 := h (k2, v2) (by simp)
    have hne : k ≠ k2 := fun e => by subst e; simp [bytesLt_irrefl] at h2
    simp [mapSet, hne, bytesLt_asymm h2, ih (fun x hx => h x (by simp [hx]))]

end Verif
