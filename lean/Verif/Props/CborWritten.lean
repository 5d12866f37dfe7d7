import Verif.Props.CborItem
import Verif.Lemmas.MapPerm
import Mathlib.Data.List.Perm.Subperm
import Mathlib.Data.List.Nodup
/-
C87, continued: what the writer writes, as data items.
-/
set_option autoImplicit false
namespace Verif.CborItem
open Verif.Cbor

/-- the shortest width for a number -/
def width (n : Nat) : Width :=
  if n < 24 then .w0 else if n < 2 ^ 8 then .w1 else if n < 2 ^ 16 then .w2 else if n < 2 ^ 32 then .w4 else .w8

theorem width_holds {n : Nat} (h : n < 2 ^ 64) : (width n).Holds n := by
  unfold width
  (repeat' split) <;> simp_all [Width.Holds, Width.size]

/-- no width that holds the number is shorter -/
theorem width_least {n : Nat} {w : Width} (h : w.Holds n) : (width n).size ≤ w.size := by
  unfold width
  cases w <;> simp only [Width.Holds, Width.size] at h <;> (repeat' split) <;> simp_all [Width.size]

theorem encUint_head (major : Nat) (n : Nat) : encUint (base major) n = head major (width n) n := by
  rw [encUint_eq, head_eq]
  congr 1
  · congr 2
    unfold headInfo width
    (repeat' split) <;> first | rfl | omega
  · congr 1
    unfold tailLen width
    (repeat' split) <;> first | rfl | omega

mutual
/-- the values a Go program can hold (integers as int64) -/
def Held : Val → Prop
  | .int i => -2 ^ 63 ≤ i ∧ i < 2 ^ 63
  | .gint _ => False
  | .str s => s.length < 2 ^ 63
  | .bytes s => s.length < 2 ^ 63
  | .arr l => l.length < 2 ^ 63 ∧ HeldL l
  | .obj m => m.length < 2 ^ 63 ∧ KeysSorted m ∧ HeldM m
  | _ => True
def HeldL : List Val → Prop
  | [] => True
  | v :: l => Held v ∧ HeldL l
def HeldM : List (Bytes × Val) → Prop
  | [] => True
  | (k, v) :: m => k.length < 2 ^ 63 ∧ Held v ∧ HeldM m
end

mutual
/-- values as data items: every number as short as possible, every length definite, floats with 64 bits -/
def itemOf : Val → Item
  | .null => .simple 22
  | .bool false => .simple 20
  | .bool true => .simple 21
  | .int i => if i < 0 then .nint (width (-1 - i).toNat) (-1 - i).toNat else .uint (width i.toNat) i.toNat
  | .gint i => if i < 0 then .nint (width (-1 - i).toNat) (-1 - i).toNat else .uint (width i.toNat) i.toNat
  | .f64 x => .double x.toNat
  | .str s => .text (width s.length) s
  | .bytes s => .bytes (width s.length) s
  | .arr l => .arr (some (width l.length)) (itemsOf l)
  | .obj m => .map (some (width m.length)) (membersOf m)
def itemsOf : List Val → List Item
  | [] => []
  | v :: l => itemOf v :: itemsOf l
def membersOf : List (Bytes × Val) → List (Item × Item)
  | [] => []
  | (k, v) :: m => (.text (width k.length) k, itemOf v) :: membersOf m
end

theorem itemsOf_length (l : List Val) : (itemsOf l).length = l.length := by
  induction l with
  | nil => rfl
  | cons v l ih => simp [itemsOf, ih]

theorem membersOf_length (m : List (Bytes × Val)) : (membersOf m).length = m.length := by
  induction m with
  | nil => rfl
  | cons x m ih => obtain ⟨k, v⟩ := x; simp [membersOf, ih]

mutual
theorem encoded_itemOf : ∀ v : Val, (itemOf v).encoded = enc v
  | .null => rfl
  | .bool false => rfl
  | .bool true => rfl
  | .int i => by
    rw [itemOf, enc]
    split
    · exact (encUint_head 1 _).symm
    · exact (encUint_head 0 _).symm
  | .gint i => by
    rw [itemOf, enc]
    split
    · exact (encUint_head 1 _).symm
    · exact (encUint_head 0 _).symm
  | .f64 x => rfl
  | .str s => by
    rw [itemOf, enc, Item.encoded, ← encUint_head 3]
    rfl
  | .bytes s => by
    rw [itemOf, enc, Item.encoded, ← encUint_head 2]
    rfl
  | .arr l => by
    rw [itemOf, enc, Item.encoded, container, itemsOf_length, ← encUint_head 4, encoded_itemsOf l]
    rfl
  | .obj m => by
    rw [itemOf, enc, Item.encoded, container, membersOf_length, ← encUint_head 5, encoded_membersOf m]
    rfl
theorem encoded_itemsOf : ∀ l : List Val, encodedL (itemsOf l) = encList l
  | [] => rfl
  | v :: l => by rw [itemsOf, encodedL, encList, encoded_itemOf v, encoded_itemsOf l]
theorem encoded_membersOf : ∀ m : List (Bytes × Val), encodedM (membersOf m) = encFields m
  | [] => rfl
  | (k, v) :: m => by
    rw [membersOf, encodedM, encFields, encoded_itemOf v, encoded_membersOf m, Item.encoded, ← encUint_head 3]
    rfl
end

theorem keys_membersOf {m : List (Bytes × Val)} (h : KeysSorted m) : (membersOf m).Pairwise (fun a b => a.1.key = none ∨ a.1.key ≠ b.1.key) := by
  induction m with
  | nil => exact .nil
  | cons x m ih =>
    obtain ⟨k, v⟩ := x
    simp only [KeysSorted, List.pairwise_cons] at h
    rw [membersOf, List.pairwise_cons]
    refine ⟨?_, ih h.2⟩
    have hm : ∀ p ∈ membersOf m, ∃ x ∈ m, p.1.key = some x.1 := by
      clear ih h
      induction m with
      | nil => simp [membersOf]
      | cons y m ih =>
        obtain ⟨k', v'⟩ := y
        intro p hp
        rw [membersOf, List.mem_cons] at hp
        rcases hp with rfl | hp
        · exact ⟨(k', v'), by simp, rfl⟩
        · obtain ⟨x, hx, e⟩ := ih p hp
          exact ⟨x, by simp [hx], e⟩
    intro p hp
    obtain ⟨x, hx, e⟩ := hm p hp
    right
    rw [e]
    intro e'
    have : k = x.1 := by simpa [Item.key] using e'
    have hlt := h.1 x hx
    rw [← this] at hlt
    simp [bytesLt_irrefl] at hlt

mutual
theorem valid_itemOf : ∀ v : Val, Held v → (itemOf v).Valid ∧ (itemOf v).Plain
  | .null, _ => by simp [itemOf, Item.Valid, Item.Plain]
  | .bool false, _ => by simp [itemOf, Item.Valid, Item.Plain]
  | .bool true, _ => by simp [itemOf, Item.Valid, Item.Plain]
  | .int i, h => by
    simp only [Held] at h
    rw [itemOf]
    split
    · exact ⟨width_holds (by omega), trivial⟩
    · exact ⟨width_holds (by omega), trivial⟩
  | .gint i, h => h.elim
  | .f64 x, _ => by simp [itemOf, Item.Valid, Item.Plain]; exact x.toNat_lt
  | .str s, h => ⟨width_holds (Nat.lt_trans h (by decide)), trivial⟩
  | .bytes s, h => ⟨width_holds (Nat.lt_trans h (by decide)), trivial⟩
  | .arr l, h => by
    simp only [Held] at h
    obtain ⟨h1, h2⟩ := valid_itemsOf l h.2
    refine ⟨?_, h2⟩
    simp only [itemOf, Item.Valid, itemsOf_length, Option.mem_some_iff, forall_eq']
    exact ⟨width_holds (by omega), h.1, h1⟩
  | .obj m, h => by
    simp only [Held] at h
    obtain ⟨h1, h2⟩ := valid_membersOf m h.2.2
    refine ⟨?_, h2⟩
    simp only [itemOf, Item.Valid, membersOf_length, Option.mem_some_iff, forall_eq']
    exact ⟨width_holds (by omega), h.1, keys_membersOf h.2.1, h1⟩
theorem valid_itemsOf : ∀ l : List Val, HeldL l → ValidL (itemsOf l) ∧ PlainL (itemsOf l)
  | [], _ => ⟨trivial, trivial⟩
  | v :: l, h => by
    simp only [HeldL] at h
    have h1 := valid_itemOf v h.1
    have h2 := valid_itemsOf l h.2
    exact ⟨⟨h1.1, h2.1⟩, h1.2, h2.2⟩
theorem valid_membersOf : ∀ m : List (Bytes × Val), HeldM m → ValidM (membersOf m) ∧ PlainM (membersOf m)
  | [], _ => ⟨trivial, trivial⟩
  | (k, v) :: m, h => by
    simp only [HeldM] at h
    have h1 := valid_itemOf v h.2.1
    have h2 := valid_membersOf m h.2.2
    exact ⟨⟨width_holds (Nat.lt_trans h.1 (by decide)), h1.1, h2.1⟩, h1.2, h2.2⟩
end

theorem sorted_eq {m n : List (Bytes × Val)} (hm : KeysSorted m) (hn : KeysSorted n) (hl : n.length = m.length) (h : ∀ kv ∈ m, mapGet n kv.1 = some kv.2) : n = m := by
  have hsub : m ⊆ n := fun kv hkv => (mapGet_mem_nodup (keysNodup_sorted hn)).1 (h kv hkv)
  have hp : m.Perm n := (List.subperm_of_subset (List.Nodup.of_map _ (keysNodup_sorted hm)) hsub).perm_of_length_le (by omega)
  exact map_ext hn hm fun k => (mapGet_perm hp (keysNodup_sorted hn) k).symm

mutual
theorem means_itemOf : ∀ v : Val, Held v → ∀ u, (itemOf v).Means u ↔ u = v
  | .null, _, u => by simp [itemOf, Item.Means]
  | .bool false, _, u => by simp [itemOf, Item.Means]
  | .bool true, _, u => by simp [itemOf, Item.Means]
  | .int i, h, u => by
    rw [itemOf]
    split
    · rename_i hi
      rw [Item.Means, show (-1 - ((-1 - i).toNat : Int)) = i by omega]
    · rename_i hi
      rw [Item.Means, show ((i.toNat : Int)) = i by omega]
  | .gint i, h, _ => h.elim
  | .f64 x, _, u => by simp [itemOf, Item.Means]
  | .str s, h, u => by simp [itemOf, Item.Means]
  | .bytes s, h, u => by simp [itemOf, Item.Means]
  | .arr l, h, u => by
    simp only [Held] at h
    simp only [itemOf, Item.Means]
    constructor
    · rintro ⟨vs, rfl, hm⟩
      rw [(means_itemsOf l h.2 vs).1 hm]
    · rintro rfl
      exact ⟨l, rfl, (means_itemsOf l h.2 l).2 rfl⟩
  | .obj m, h, u => by
    simp only [Held] at h
    simp only [itemOf, Item.Means, membersOf_length]
    constructor
    · rintro ⟨m', rfl, hs, hl, hm⟩
      have key := (means_membersOf m h.2.2 m').1 hm
      congr 1
      exact (sorted_eq h.2.1 hs hl key)
    · rintro rfl
      refine ⟨m, rfl, h.2.1, rfl, (means_membersOf m h.2.2 m).2 ?_⟩
      intro kv hkv
      exact (mapGet_mem_nodup (keysNodup_sorted h.2.1)).2 hkv
theorem means_itemsOf : ∀ l : List Val, HeldL l → ∀ us, MeansL (itemsOf l) us ↔ us = l
  | [], _, us => by simp [itemsOf, MeansL]
  | v :: l, h, us => by
    simp only [HeldL] at h
    simp only [itemsOf, MeansL]
    constructor
    · rintro ⟨v', vs', rfl, h1, h2⟩
      rw [(means_itemOf v h.1 v').1 h1, (means_itemsOf l h.2 vs').1 h2]
    · rintro rfl
      exact ⟨v, l, rfl, (means_itemOf v h.1 v).2 rfl, (means_itemsOf l h.2 l).2 rfl⟩
theorem means_membersOf : ∀ m : List (Bytes × Val), HeldM m → ∀ m', MeansM (membersOf m) m' ↔ ∀ kv ∈ m, mapGet m' kv.1 = some kv.2
  | [], _, m' => by simp [membersOf, MeansM]
  | (k, v) :: m, h, m' => by
    simp only [HeldM] at h
    simp only [membersOf, MeansM, means_membersOf m h.2.2 m', List.mem_cons, forall_eq_or_imp]
    refine and_congr ?_ Iff.rfl
    constructor
    · rintro ⟨k', v', e, h1, h2⟩
      cases e
      rw [h1, (means_itemOf v h.2.1 v').1 h2]
    · intro e
      exact ⟨k, v, rfl, e, (means_itemOf v h.2.1 v).2 rfl⟩
end

mutual
theorem fits_itemOf : ∀ v : Val, Held v → ((itemOf v).Fits ↔ Supported v)
  | .null, _ => by simp [itemOf, Item.Fits]; exact .null
  | .bool false, _ => by simp [itemOf, Item.Fits]; exact .bool _
  | .bool true, _ => by simp [itemOf, Item.Fits]; exact .bool _
  | .int i, h => by
    simp only [Held] at h
    have hs : Supported (.int i) ↔ -24 ≤ i ∧ i < 2 ^ 63 := ⟨fun | .int _ a b => ⟨a, b⟩, fun h => .int _ h.1 h.2⟩
    rw [itemOf, hs]
    split
    · rename_i hi
      simp only [Item.Fits, width]
      (repeat' split) <;> simp <;> omega
    · simp only [Item.Fits]
      omega
  | .gint i, h => h.elim
  | .f64 x, _ => by simp [itemOf, Item.Fits]; exact .f64 _
  | .str s, h => ⟨fun h => .str _ h, fun | .str _ h => h⟩
  | .bytes s, h => ⟨fun h => .bytes _ h, fun | .bytes _ h => h⟩
  | .arr l, h => by
    simp only [Held] at h
    have ih := fits_itemsOf l h.2
    simp only [itemOf, Item.Fits, itemsOf_length, ih]
    constructor
    · rintro ⟨h1, h2⟩
      exact .arr _ (by simpa using h1) h2
    · rintro (_ | _ | _ | _ | _ | _ | ⟨_, h1, h2⟩)
      exact ⟨.inr h1, h2⟩
  | .obj m, h => by
    simp only [Held] at h
    have ih := fits_membersOf m h.2.2
    simp only [itemOf, Item.Fits, ih]
    constructor
    · intro h'
      exact .obj _ h.1 h.2.1 (fun kv hkv => (h' kv hkv).1) (fun kv hkv => (h' kv hkv).2)
    · rintro (_ | _ | _ | _ | _ | _ | _ | ⟨_, h1, h2, h3, h4⟩)
      exact fun kv hkv => ⟨h3 kv hkv, h4 kv hkv⟩
theorem fits_itemsOf : ∀ l : List Val, HeldL l → (FitsL (itemsOf l) ↔ ∀ v ∈ l, Supported v)
  | [], _ => by simp [itemsOf, FitsL]
  | v :: l, h => by
    simp only [HeldL] at h
    simp [itemsOf, FitsL, fits_itemOf v h.1, fits_itemsOf l h.2]
theorem fits_membersOf : ∀ m : List (Bytes × Val), HeldM m → (FitsM (membersOf m) ↔ ∀ kv ∈ m, kv.1.length ≤ 4096 ∧ Supported kv.2)
  | [], _ => by simp [membersOf, FitsM]
  | (k, v) :: m, h => by
    simp only [HeldM] at h
    simp only [membersOf, FitsM, fits_itemOf v h.2.1, fits_membersOf m h.2.2, List.mem_cons, forall_eq_or_imp, and_assoc]
    refine and_congr ?_ Iff.rfl
    constructor
    · rintro ⟨w, s, e, hs⟩
      cases e
      exact hs
    · exact fun hs => ⟨_, k, rfl, hs⟩
end

/-- **C87**: the writer writes every value as a valid item that stands for this value and no other, and that fits exactly if the value is one of those that are read
back (C20). -/
theorem C87_written (v : Val) (h : Held v) :
    ∃ i : Item, i.encoded = enc v ∧ i.Valid ∧ i.Plain ∧ (∀ u, i.Means u ↔ u = v) ∧ (i.Fits ↔ Supported v) :=
  ⟨itemOf v, encoded_itemOf v, (valid_itemOf v h).1, (valid_itemOf v h).2, means_itemOf v h, fits_itemOf v h⟩

/-- **C87**: so reading back what was written gives the value exactly if it is one of those. -/
theorem C87_read_back (v : Val) (h : Held v) (rest : Bytes) : readValue (fuelFor (enc v ++ rest)) (enc v ++ rest) = .ok v rest ↔ Supported v := by
  obtain ⟨i, h1, h2, h3, h4, h5⟩ := C87_written v h
  rw [← h5, ← C87_item i h2 h3 rest, h1]
  constructor
  · exact fun e => ⟨v, e, (h4 v).2 rfl⟩
  · rintro ⟨u, e, hu⟩
    rw [e, (h4 u).1 hu]

mutual
/-- the heads of an item are as short as they can be, and every length is definite -/
def Item.Shortest : Item → Prop
  | .uint w n => ∀ w', Width.Holds w' n → w.size ≤ w'.size
  | .nint w n => ∀ w', Width.Holds w' n → w.size ≤ w'.size
  | .bytes w s => ∀ w', Width.Holds w' s.length → w.size ≤ w'.size
  | .text w s => ∀ w', Width.Holds w' s.length → w.size ≤ w'.size
  | .arr (some w) l => (∀ w', Width.Holds w' l.length → w.size ≤ w'.size) ∧ ShortestL l
  | .map (some w) l => (∀ w', Width.Holds w' l.length → w.size ≤ w'.size) ∧ ShortestM l
  | .simple _ => True
  | .double _ => True
  | _ => False
def ShortestL : List Item → Prop
  | [] => True
  | i :: l => i.Shortest ∧ ShortestL l
def ShortestM : List (Item × Item) → Prop
  | [] => True
  | (k, i) :: l => k.Shortest ∧ i.Shortest ∧ ShortestM l
end

mutual
theorem shortest_itemOf : ∀ v : Val, (itemOf v).Shortest
  | .null => by simp [itemOf, Item.Shortest]
  | .bool false => by simp [itemOf, Item.Shortest]
  | .bool true => by simp [itemOf, Item.Shortest]
  | .int i => by
    rw [itemOf]
    split <;> exact fun _ => width_least
  | .gint i => by
    rw [itemOf]
    split <;> exact fun _ => width_least
  | .f64 x => by simp [itemOf, Item.Shortest]
  | .str s => fun _ => width_least
  | .bytes s => fun _ => width_least
  | .arr l => by
    rw [itemOf, Item.Shortest, itemsOf_length]
    exact ⟨fun _ => width_least, shortest_itemsOf l⟩
  | .obj m => by
    rw [itemOf, Item.Shortest, membersOf_length]
    exact ⟨fun _ => width_least, shortest_membersOf m⟩
theorem shortest_itemsOf : ∀ l : List Val, ShortestL (itemsOf l)
  | [] => trivial
  | v :: l => ⟨shortest_itemOf v, shortest_itemsOf l⟩
theorem shortest_membersOf : ∀ m : List (Bytes × Val), ShortestM (membersOf m)
  | [] => trivial
  | (_, v) :: m => ⟨fun _ => width_least, shortest_itemOf v, shortest_membersOf m⟩
end

/-- **C87**: written items have the shortest heads and definite lengths. -/
theorem C87_shortest (v : Val) (h : Held v) : ∃ i : Item, i.encoded = enc v ∧ i.Valid ∧ (∀ u, i.Means u ↔ u = v) ∧ i.Shortest :=
  ⟨itemOf v, encoded_itemOf v, (valid_itemOf v h).1, means_itemOf v h, shortest_itemOf v⟩

/-! ### examples -/

/-- `[1, [2, 3], "ab", {"k": -4}]`, partly in longer heads, partly with indefinite lengths and in chunks -/
def exItem : Item :=
  .arr none [.uint .w2 1, .arr (some .w1) [.uint .w0 2, .uint .w8 3], .textChunks [(.w0, b!"a"), (.w1, b!"b")], .map none [(.text .w4 b!"k", .nint .w0 3)]]

example : exItem.encoded = [0x9f, 0x19, 0, 1, 0x98, 2, 2, 0x1b, 0, 0, 0, 0, 0, 0, 0, 3, 0x7f, 0x61, 0x61, 0x78, 1, 0x62, 0xff, 0xbf, 0x7a, 0, 0, 0, 1, 0x6b, 0x23, 0xff, 0xff] := by
  decide +kernel

example : ∃ vs, readAll .array exItem.encoded = (indexed 0 vs, .eof) ∧ vs = [.int 1, .arr [.int 2, .int 3], .str b!"ab", .obj [(b!"k", .int (-4))]] := by
  refine ⟨_, ?_, rfl⟩
  decide +kernel

example : exItem.Fits := by
  simp [exItem, Item.Fits, FitsL, FitsM]

-- RFC 8949, appendix A: 1(1363896240), a point in time, comes as null and 0x1a51..., that is null and a number
example : readAll .array ([0x81] ++ [0xc1, 0x1a, 0x51, 0x4b, 0x67, 0xb0]) = (indexed 0 [.null, .int 1363896240], .eof) := by decide +kernel
-- 0("2013-03-21T20:04:00Z")
example : readAll .array ([0x81, 0xc0, 0x74] ++ b!"2013-03-21T20:04:00Z") = (indexed 0 [.null, .str b!"2013-03-21T20:04:00Z"], .eof) := by decide +kernel
-- simple(255) comes as null and a break, which is no value
example : (readAll .array [0x81, 0xf8, 0xff]).1 = indexed 0 [.null, .null] := by decide +kernel
-- 1.0 in 16 bits
example : readAll .array [0x81, 0xf9, 0x3c, 0x00] = (indexed 0 [.f64 0x3c00], .eof) := by decide +kernel
-- -100
example : (readAll .array [0x81, 0x38, 0x63]).1 = [] := by decide +kernel
-- 18446744073709551615
example : readAll .array [0x81, 0x1b, 0xff, 0xff, 0xff, 0xff, 0xff, 0xff, 0xff, 0xff] = (indexed 0 [.int (-1)], .eof) := by decide +kernel
-- {"a": 1, "b": [2, 3]} with an indefinite length
example : readAll .object [0xbf, 0x61, 0x61, 0x01, 0x61, 0x62, 0x9f, 0x02, 0x03, 0xff, 0xff] = (keyed [(b!"a", .int 1), (b!"b", .arr [.int 2, .int 3])], .eof) := by
  decide +kernel
example : Held (.obj [(b!"a", .int (-500)), (b!"b", .arr [.str b!"x"])]) := by
  simp [Held, HeldM, HeldL]
  decide +kernel

end Verif.CborItem
