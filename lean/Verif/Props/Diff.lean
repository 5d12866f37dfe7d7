import Verif.Model.Diff
import Verif.Lemmas.DocJson
import Verif.Lemmas.JsonParse
import Verif.Lemmas.Json
import Verif.Lemmas.JsonEnc
/-
C46: differences between datasets.
-/
set_option autoImplicit false
namespace Verif.Diff
open Doc JsonStd

/-! ## Comparing objects -/

def Delta.name : Delta → Bytes
  | .deleted k _ => k
  | .modified k _ _ => k
  | .added k _ => k

/-- the same member, or none, on both sides, up to the sign of zero -/
def Agree (x y : Option Val) : Prop := x.map unsign = y.map unsign

theorem mapGet_isNone_iff {m : List (Bytes × Val)} (hm : KeysSorted m) (k : Bytes) : mapGet m k = none ↔ k ∉ m.map (·.1) := by
  constructor
  · intro h hk
    obtain ⟨⟨k', v⟩, hx, rfl⟩ := List.mem_map.mp hk
    rw [(map_get_mem hm).mpr hx] at h; simp at h
  · intro h
    cases e : mapGet m k with
    | none => rfl
    | some v => exact absurd (List.mem_map.mpr ⟨(k, v), (map_get_mem hm).mp e, rfl⟩) h

mutual
/-- deep equality: the same values, except that zero equals negative zero -/
inductive DeepEq : Val → Val → Prop
  | same (v : Val) : DeepEq v v
  | zero {x y : UInt64} : x <<< 1 = 0 → y <<< 1 = 0 → DeepEq (.f64 x) (.f64 y)
  | arr {l l' : List Val} : DeepEqL l l' → DeepEq (.arr l) (.arr l')
  | obj {m m' : List (Bytes × Val)} : DeepEqF m m' → DeepEq (.obj m) (.obj m')
inductive DeepEqL : List Val → List Val → Prop
  | nil : DeepEqL [] []
  | cons {v w : Val} {l l' : List Val} : DeepEq v w → DeepEqL l l' → DeepEqL (v :: l) (w :: l')
inductive DeepEqF : List (Bytes × Val) → List (Bytes × Val) → Prop
  | nil : DeepEqF [] []
  | cons {k : Bytes} {v w : Val} {m m' : List (Bytes × Val)} : DeepEq v w → DeepEqF m m' → DeepEqF ((k, v) :: m) ((k, w) :: m')
end

theorem zero_iff (x : UInt64) : x <<< 1 = 0 ↔ x = 0 ∨ x = 0x8000000000000000 := by
  rw [← UInt64.toNat_inj, ← UInt64.toNat_inj, ← UInt64.toNat_inj]
  have := x.toNat_lt
  rw [UInt64.toNat_shiftLeft]
  simp only [UInt64.reduceToNat, Nat.shiftLeft_eq, show 1 % 64 = 1 from rfl, Nat.pow_one]
  omega

theorem unsign_f64 (x y : UInt64) : (if x = 0x8000000000000000 then (0 : UInt64) else x) = (if y = 0x8000000000000000 then 0 else y) ↔
    x = y ∨ (x <<< 1 = 0 ∧ y <<< 1 = 0) := by
  rw [zero_iff, zero_iff]
  by_cases hx : x = 0x8000000000000000 <;> by_cases hy : y = 0x8000000000000000
  · simp [hx, hy]
  · subst hx; simp [hy]
    constructor
    · rintro rfl; exact .inr rfl
    · rintro (h | h)
      · exact absurd h.symm hy
      · exact h.symm
  · subst hy; simp [hx]
  · simp only [hx, hy, if_false, or_false]
    constructor
    · exact .inl
    · rintro (h | ⟨h, h'⟩)
      · exact h
      · rw [h, h']

mutual
theorem unsign_iff : ∀ v w : Val, unsign v = unsign w ↔ DeepEq v w
  | .f64 x, w => by
    cases w with
    | f64 y =>
      rw [unsign, unsign, Val.f64.injEq, unsign_f64]
      constructor
      · rintro (rfl | ⟨h, h'⟩)
        · exact .same _
        · exact .zero h h'
      · intro h
        cases h with
        | same => exact .inl rfl
        | zero h h' => exact .inr ⟨h, h'⟩
    | _ => simp only [unsign, reduceCtorEq, false_iff]; intro h; cases h
  | .arr l, w => by
    cases w with
    | arr l' =>
      rw [unsign, unsign, Val.arr.injEq, unsignL_iff]
      constructor
      · exact .arr
      · intro h
        cases h with
        | same => exact (unsignL_iff l l).1 rfl
        | arr h => exact h
    | _ => simp only [unsign, reduceCtorEq, false_iff]; intro h; cases h
  | .obj m, w => by
    cases w with
    | obj m' =>
      rw [unsign, unsign, Val.obj.injEq, unsignF_iff]
      constructor
      · exact .obj
      · intro h
        cases h with
        | same => exact (unsignF_iff m m).1 rfl
        | obj h => exact h
    | _ => simp only [unsign, reduceCtorEq, false_iff]; intro h; cases h
  | .null, w => by
    constructor
    · intro h; cases w <;> simp [unsign] at h; exact .same _
    · intro h; cases h; rfl
  | .bool b, w => by
    constructor
    · intro h; cases w <;> simp [unsign] at h; subst h; exact .same _
    · intro h; cases h; rfl
  | .int b, w => by
    constructor
    · intro h; cases w <;> simp [unsign] at h; subst h; exact .same _
    · intro h; cases h; rfl
  | .gint b, w => by
    constructor
    · intro h; cases w <;> simp [unsign] at h; subst h; exact .same _
    · intro h; cases h; rfl
  | .str b, w => by
    constructor
    · intro h; cases w <;> simp [unsign] at h; subst h; exact .same _
    · intro h; cases h; rfl
  | .bytes b, w => by
    constructor
    · intro h; cases w <;> simp [unsign] at h; subst h; exact .same _
    · intro h; cases h; rfl
theorem unsignL_iff : ∀ l l' : List Val, unsignL l = unsignL l' ↔ DeepEqL l l'
  | [], l' => by
    cases l' with
    | nil => exact ⟨fun _ => .nil, fun _ => rfl⟩
    | cons w l' => simp only [unsignL, reduceCtorEq, false_iff]; intro h; cases h
  | v :: l, l' => by
    cases l' with
    | nil => simp only [unsignL, reduceCtorEq, false_iff]; intro h; cases h
    | cons w l' =>
      rw [unsignL, unsignL, List.cons.injEq, unsign_iff v w, unsignL_iff l l']
      constructor
      · rintro ⟨h, h'⟩; exact .cons h h'
      · intro h; cases h with | cons h h' => exact ⟨h, h'⟩
theorem unsignF_iff : ∀ m m' : List (Bytes × Val), unsignF m = unsignF m' ↔ DeepEqF m m'
  | [], m' => by
    cases m' with
    | nil => exact ⟨fun _ => .nil, fun _ => rfl⟩
    | cons w m' => simp only [unsignF, reduceCtorEq, false_iff]; intro h; cases h
  | (k, v) :: m, m' => by
    cases m' with
    | nil => simp only [unsignF, reduceCtorEq, false_iff]; intro h; cases h
    | cons kw m' =>
      obtain ⟨k', w⟩ := kw
      rw [unsignF, unsignF, List.cons.injEq, Prod.mk.injEq, unsign_iff v w, unsignF_iff m m']
      constructor
      · rintro ⟨⟨rfl, h⟩, h'⟩; exact .cons h h'
      · intro h; cases h with | cons h h' => exact ⟨⟨rfl, h⟩, h'⟩
end

/-- C46: values count as equal exactly if they are deeply equal. -/
theorem C46_equal (v w : Val) : same v w = true ↔ DeepEq v w := by
  rw [← unsign_iff]
  simp [same]

example : DeepEq (.arr [.f64 0]) (.arr [.f64 0x8000000000000000]) ∧ ¬ DeepEq (.f64 0) (.f64 1) :=
  ⟨.arr (.cons (.zero rfl rfl) .nil), by rw [← C46_equal]; decide⟩

theorem deltas_iff (l r : List (Bytes × Val)) (hl : KeysSorted l) (hr : KeysSorted r) (x : Delta) :
    x ∈ compareMaps l r ↔
      match x with
      | .deleted k v => mapGet l k = some v ∧ mapGet r k = none
      | .modified k v w => mapGet l k = some v ∧ mapGet r k = some w ∧ unsign v ≠ unsign w
      | .added k w => mapGet l k = none ∧ mapGet r k = some w := by
  simp only [compareMaps, List.mem_append, List.mem_filterMap]
  constructor
  · rintro (⟨⟨k, v⟩, hm, h⟩ | ⟨⟨k, w⟩, hm, h⟩)
    · have hg := (map_get_mem hl).mpr hm
      simp only at h
      cases hw : mapGet r k with
      | none => rw [hw] at h; simp only [Option.some.injEq] at h; subst h; exact ⟨hg, hw⟩
      | some w =>
        rw [hw] at h
        simp only at h
        by_cases hs : same v w = true
        · rw [if_pos hs] at h; simp at h
        · rw [if_neg hs] at h; simp only [Option.some.injEq] at h; subst h
          exact ⟨hg, hw, by simpa [same] using hs⟩
    · have hg := (map_get_mem hr).mpr hm
      simp only at h
      cases hv : mapGet l k with
      | some v => rw [hv] at h; simp at h
      | none => rw [hv] at h; simp at h; subst h; exact ⟨hv, hg⟩
  · cases x with
    | deleted k v => rintro ⟨h1, h2⟩; exact .inl ⟨(k, v), (map_get_mem hl).mp h1, by simp [h2]⟩
    | modified k v w =>
      rintro ⟨h1, h2, h3⟩
      exact .inl ⟨(k, v), (map_get_mem hl).mp h1, by simp [h2, same, h3]⟩
    | added k w => rintro ⟨h1, h2⟩; exact .inr ⟨(k, w), (map_get_mem hr).mp h2, by simp [h1]⟩

/-- the differing names, each once -/
theorem compare_names (l r : List (Bytes × Val)) (hl : KeysSorted l) (hr : KeysSorted r) :
    ((compareMaps l r).map Delta.name).Nodup ∧ ∀ k, k ∈ (compareMaps l r).map Delta.name ↔ ¬ Agree (mapGet l k) (mapGet r k) := by
  have hnd : ∀ (m : List (Bytes × Val)), KeysSorted m → (m.map (·.1)).Nodup := by
    intro m hm
    rw [List.Nodup, List.pairwise_map]
    exact hm.imp fun {a b} h e => by rw [e] at h; simp [bytesLt_irrefl] at h
  have hsub : ∀ (m : List (Bytes × Val)) (g : Bytes × Val → Option Delta), (∀ kv x, g kv = some x → x.name = kv.1) →
      ((m.filterMap g).map Delta.name).Sublist (m.map (·.1)) := by
    intro m g hg
    induction m with
    | nil => simp
    | cons kv m ih =>
      rw [List.filterMap_cons]
      cases e : g kv with
      | none => exact ih.cons _
      | some x => simp only [List.map_cons]; rw [hg kv x e]; exact ih.cons_cons _
  constructor
  · rw [compareMaps, List.map_append, List.nodup_append]
    refine ⟨(hnd l hl).sublist (hsub _ _ ?_), (hnd r hr).sublist (hsub _ _ ?_), ?_⟩
    · intro kv x h
      cases hw : mapGet r kv.1 with
      | none => rw [hw] at h; simp at h; subst h; rfl
      | some w =>
        rw [hw] at h
        simp only at h
        split at h
        · simp at h
        · simp at h; subst h; rfl
    · intro kv x h
      split at h
      · simp at h; subst h; rfl
      · simp at h
    · intro a ha b hb e
      subst e
      obtain ⟨x, hx, rfl⟩ := List.mem_map.mp ha
      obtain ⟨y, hy, he⟩ := List.mem_map.mp hb
      obtain ⟨⟨k, v⟩, hm, h⟩ := List.mem_filterMap.mp hx
      obtain ⟨⟨k', w⟩, hm', h'⟩ := List.mem_filterMap.mp hy
      have hk : x.name = k := by
        simp only at h
        cases hw : mapGet r k with
        | none => rw [hw] at h; simp at h; subst h; rfl
        | some w =>
          rw [hw] at h
          simp only at h
          split at h
          · simp at h
          · simp at h; subst h; rfl
      simp only at h'
      split at h'
      · rename_i hn
        simp at h'; subst h'
        have : k' = k := by rw [← hk, ← he]; rfl
        subst this
        rw [(map_get_mem hl).mpr hm] at hn; simp at hn
      · simp at h'
  · intro k
    constructor
    · intro h
      obtain ⟨x, hx, rfl⟩ := List.mem_map.mp h
      have := (deltas_iff l r hl hr x).mp hx
      unfold Agree
      cases x with
      | deleted k v => simp [Delta.name, this.1, this.2]
      | modified k v w => simp only at this; simp [Delta.name, this.1, this.2.1, this.2.2]
      | added k w => simp [Delta.name, this.1, this.2]
    · intro h
      unfold Agree at h
      cases h1 : mapGet l k with
      | none =>
        cases h2 : mapGet r k with
        | none => rw [h1, h2] at h; simp at h
        | some w => exact List.mem_map.mpr ⟨.added k w, (deltas_iff l r hl hr _).mpr ⟨h1, h2⟩, rfl⟩
      | some v =>
        cases h2 : mapGet r k with
        | none => exact List.mem_map.mpr ⟨.deleted k v, (deltas_iff l r hl hr _).mpr ⟨h1, h2⟩, rfl⟩
        | some w =>
          rw [h1, h2] at h
          exact List.mem_map.mpr ⟨.modified k v w, (deltas_iff l r hl hr _).mpr ⟨h1, h2, by simpa using h⟩, rfl⟩

/-- C46: the differences are exactly the members only on the left, with different values, or only on the right. -/
theorem C46_deltas (l r : List (Bytes × Val)) (hl : KeysSorted l) (hr : KeysSorted r) (x : Delta) :
    x ∈ compareMaps l r ↔
      match x with
      | .deleted k v => mapGet l k = some v ∧ mapGet r k = none
      | .modified k v w => mapGet l k = some v ∧ mapGet r k = some w ∧ ¬ DeepEq v w
      | .added k w => mapGet l k = none ∧ mapGet r k = some w := by
  rw [deltas_iff l r hl hr x]
  cases x with
  | modified k v w => simp only [ne_eq, unsign_iff]
  | _ => rfl

/-- agreement in terms of deep equality -/
theorem C46_agree (x y : Option Val) : Agree x y ↔ (x = none ∧ y = none) ∨ ∃ v w, x = some v ∧ y = some w ∧ DeepEq v w := by
  unfold Agree
  cases x <;> cases y <;> simp [unsign_iff]

/-! ## Parsed objects are maps -/

theorem members_sorted (F : FloatCodec) (f d : Nat) (acc : List (Bytes × Val)) (s : Bytes) (m : List (Bytes × Val)) (r : Bytes)
    (ha : KeysSorted acc) (h : members F f d acc s = some (.obj m, r)) : KeysSorted m := by
  induction f generalizing acc s with
  | zero => simp [members] at h
  | succ f ih =>
    rw [members] at h
    split at h
    · simp at h
    · split at h
      · rw [Option.bind_eq_some_iff] at h
        obtain ⟨k, _, h⟩ := h
        split at h
        · simp at h
        · split at h
          · rw [Option.bind_eq_some_iff] at h
            obtain ⟨p, _, h⟩ := h
            split at h
            · simp at h
            · split at h
              · exact ih _ _ (keysSorted_mapSet _ _ ha) h
              · split at h
                · simp only [Option.some.injEq, Prod.mk.injEq, Val.obj.injEq] at h
                  rw [← h.1]; exact keysSorted_mapSet _ _ ha
                · simp at h
          · simp at h
      · simp at h

theorem elems_not_obj (F : FloatCodec) (f d : Nat) (acc : List Val) (s : Bytes) (m : List (Bytes × Val)) (r : Bytes) :
    elems F f d acc s ≠ some (.obj m, r) := by
  induction f generalizing acc s with
  | zero => simp [elems]
  | succ f ih =>
    rw [elems]
    intro h
    rw [Option.bind_eq_some_iff] at h
    obtain ⟨p, _, h⟩ := h
    split at h
    · simp at h
    · split at h
      · exact ih _ _ h
      · split at h <;> simp at h

theorem unmarshal_sorted (F : FloatCodec) (s : Bytes) (m : List (Bytes × Val)) (h : unmarshal F s = some (.obj m)) : KeysSorted m := by
  unfold unmarshal at h
  rw [Option.bind_eq_some_iff] at h
  obtain ⟨⟨v, r⟩, h1, h2⟩ := h
  split at h2
  · simp only [Option.some.injEq] at h2
    subst h2
    rw [value] at h1
    split at h1
    · simp at h1
    · simp only [lit] at h1
      repeat' split at h1
      all_goals first
        | exact members_sorted F _ _ _ _ _ _ (by simp [KeysSorted]) h1
        | exact absurd h1 (elems_not_obj F _ _ _ _ _ _)
        | (simp at h1; done)
        | (simp only [Option.some.injEq, Prod.mk.injEq, Val.obj.injEq] at h1; rw [← h1.1]; simp [KeysSorted])
        | (rw [Option.map_eq_some_iff] at h1; obtain ⟨_, _, h1⟩ := h1; simp at h1; done)
        | (rw [Option.bind_eq_some_iff] at h1; obtain ⟨_, _, h1⟩ := h1; rw [Option.map_eq_some_iff] at h1; obtain ⟨_, _, h1⟩ := h1; simp at h1; done)
        | skip
  · simp at h2

theorem toMap_sorted (F : FloatCodec) (s : Bytes) (m : List (Bytes × Val)) (h : (unmarshal F s).bind toMap = some m) : KeysSorted m := by
  rw [Option.bind_eq_some_iff] at h
  obtain ⟨v, h1, h2⟩ := h
  cases v with
  | obj n => simp [toMap] at h2; subst h2; exact unmarshal_sorted F s n h1
  | null => simp [toMap] at h2; subst h2; simp [KeysSorted]
  | _ => simp [toMap] at h2

/-- the members of a JSON text that is an object, or null -/
def members? (F : FloatCodec) (s : Bytes) : Option (List (Bytes × Val)) := (unmarshal F s).bind toMap

/-- C46: two texts are compared exactly if both are JSON objects or null – so the dereferenced bodies of datasets of rows, which are
arrays, never are – and then the reported names are those of the members that differ, each once. -/
theorem C46_json (F : FloatCodec) (a b : Bytes) (k : Kind) :
    ((∃ e, diffJSON F a b k = .error e) ↔ members? F a = none ∨ members? F b = none) ∧
    ∀ d, diffJSON F a b k = .ok d → ∃ l r ds, members? F a = some l ∧ members? F b = some r ∧ d = { diff := some ds, kind := k, a := a, b := b } ∧
      (ds.map Delta.name).Nodup ∧ ∀ n, n ∈ ds.map Delta.name ↔ ¬ Agree (mapGet l n) (mapGet r n) := by
  have hc : compare F a b = (members? F a).bind fun l => (members? F b).map fun r => compareMaps l r := by
    unfold compare members?
    cases unmarshal F a with
    | none => rfl
    | some v =>
      simp only [Option.bind_some]
      cases toMap v with
      | none => rfl
      | some l =>
        simp only [Option.bind_some]
        cases unmarshal F b with
        | none => rfl
        | some w => rfl
  unfold diffJSON
  rw [hc]
  cases ha : members? F a with
  | none => simp
  | some l =>
    cases hb : members? F b with
    | none => simp
    | some r =>
      refine ⟨by simp, fun d h => ?_⟩
      simp only [Option.bind_some, Option.map_some, Except.ok.injEq] at h
      exact ⟨l, r, _, rfl, rfl, h.symm, compare_names l r (toMap_sorted F a l ha) (toMap_sorted F b r hb)⟩

theorem C46_arrays_fail (F : FloatCodec) (a b : Bytes) (k : Kind) (l : List Val) (h : unmarshal F a = some (.arr l)) :
    diffJSON F a b k = .error (.comparing k) := by
  simp [diffJSON, compare, h, toMap]

theorem unsign_agree (l : List (Bytes × Val)) (hl : KeysSorted l) : compareMaps l l = [] := by
  have := (compare_names l l hl hl).2
  cases e : compareMaps l l with
  | nil => rfl
  | cons x xs =>
    exact absurd rfl ((this x.name).mp (by rw [e]; simp))

/-- a text compared with itself: no differences -/
theorem diffJSON_self (F : FloatCodec) (a : Bytes) (k : Kind) (d : SubDiff) (h : diffJSON F a a k = .ok d) : d.diff = some [] := by
  obtain ⟨l, r, ds, h1, h2, rfl, _, h4⟩ := (C46_json F a a k).2 d h
  rw [h1] at h2; cases h2
  cases ds with
  | nil => rfl
  | cons x xs => exact absurd rfl ((h4 x.name).mp (by simp))

theorem diffVals_self (F : FloatCodec) (v : Val) (k : Kind) (d : SubDiff) (h : diffVals F v v k = .ok d) : d.diff = some [] := by
  unfold diffVals at h
  split at h
  · exact diffJSON_self F _ k d h
  · simp at h

/-! ## Components -/

/-- values that can be written and read back as JSON -/
structure Fine (F : FloatCodec) (v : Val) : Prop where
  ok : jsonOK v = true
  nums : NumsOK F v
  depth : depth v ≤ maxDepth
  reads : (jnorm F v).isSome

theorem jnormF_get (F : FloatCodec) (m m' : List (Bytes × Val)) (h : jnormF F m = some m') (hv : ∀ kv ∈ m, ValidUtf8 kv.1) :
    m'.map (·.1) = m.map (·.1) ∧ ∀ k, mapGet m' k = (mapGet m k).bind (jnorm F) := by
  induction m generalizing m' with
  | nil => simp [jnormF] at h; subst h; simp [mapGet]
  | cons kv m ih =>
    obtain ⟨k, v⟩ := kv
    rw [jnormF, Option.bind_eq_some_iff] at h
    obtain ⟨w, h1, h⟩ := h
    rw [Option.map_eq_some_iff] at h
    obtain ⟨n, h2, rfl⟩ := h
    obtain ⟨i1, i2⟩ := ih n h2 (fun x hx => hv x (by simp [hx]))
    have hk : toValidUtf8 0 k = k := toValidUtf8_valid (hv (k, v) (by simp))
    refine ⟨by simp [hk, i1], fun x => ?_⟩
    rw [hk]
    by_cases hx : k = x
    · subst hx; simp [mapGet, h1]
    · simp [mapGet, Ne.symm hx, i2 x]

theorem keysSorted_of_keys {m n : List (Bytes × Val)} (h : m.map (·.1) = n.map (·.1)) (hn : KeysSorted n) : KeysSorted m := by
  have e : ∀ l : List (Bytes × Val), KeysSorted l ↔ (l.map (·.1)).Pairwise (fun a b => bytesLt a b = true) := by
    intro l; rw [List.pairwise_map]; rfl
  rw [e] at hn ⊢; rw [h]; exact hn

/-- C46: objects written by `json.Marshal` are compared member by member, as JSON readers see them. -/
theorem C46_fields (F : FloatCodec) (x y : List (Bytes × Val)) (k : Kind) (hx : Fine F (.obj x)) (hy : Fine F (.obj y))
    (sx : KeysSorted x) (sy : KeysSorted y) (vx : ∀ kv ∈ x, ValidUtf8 kv.1) (vy : ∀ kv ∈ y, ValidUtf8 kv.1) :
    ∃ ds, diffVals F (.obj x) (.obj y) k = .ok { diff := some ds, kind := k, a := enc F (.obj x), b := enc F (.obj y) } ∧
      (ds.map Delta.name).Nodup ∧ ∀ n, n ∈ ds.map Delta.name ↔ ¬ Agree ((mapGet x n).bind (jnorm F)) ((mapGet y n).bind (jnorm F)) := by
  have key : ∀ z, Fine F (.obj z) → KeysSorted z → (∀ kv ∈ z, ValidUtf8 kv.1) →
      ∃ m, members? F (enc F (.obj z)) = some m ∧ ∀ n, mapGet m n = (mapGet z n).bind (jnorm F) := by
    intro z hz sz vz
    have hu := unmarshal_enc F (.obj z) [] hz.nums hz.depth Json.ws_nil
    rw [List.append_nil] at hu
    obtain ⟨w, hw⟩ := Option.isSome_iff_exists.mp hz.reads
    rw [hw] at hu
    rw [jnorm, Option.map_eq_some_iff] at hw
    obtain ⟨m', h1, rfl⟩ := hw
    obtain ⟨k1, k2⟩ := jnormF_get F z m' h1 vz
    refine ⟨m', ?_, k2⟩
    rw [members?, hu, Option.bind_some, toMap, Json.mapOf_sorted (keysSorted_of_keys k1 sz)]
  obtain ⟨l, hl, gl⟩ := key x hx sx vx
  obtain ⟨r, hr, gr⟩ := key y hy sy vy
  have hd : diffVals F (.obj x) (.obj y) k = diffJSON F (enc F (.obj x)) (enc F (.obj y)) k := by
    unfold diffVals; rw [if_pos ⟨hx.ok, hy.ok⟩]
  rw [hd]
  have hj := C46_json F (enc F (.obj x)) (enc F (.obj y)) k
  cases e : diffJSON F (enc F (.obj x)) (enc F (.obj y)) k with
  | error z => exfalso; have := hj.1.mp ⟨z, e⟩; simp [hl, hr] at this
  | ok d =>
    obtain ⟨l', r', ds, h1, h2, rfl, h3, h4⟩ := hj.2 d e
    rw [hl] at h1; rw [hr] at h2
    simp only [Option.some.injEq] at h1 h2
    subst h1 h2
    refine ⟨ds, rfl, h3, fun n => ?_⟩
    rw [h4, gl, gr]

theorem fine_obj (F : FloatCodec) (m : List (Bytes × Val)) (h : ∀ kv ∈ m, Fine F kv.2 ∧ depth kv.2 + 1 ≤ maxDepth) : Fine F (.obj m) := by
  have key : jsonOKF m = true ∧ NumsOKF F m ∧ depthF m + 1 ≤ maxDepth ∧ (jnormF F m).isSome = true := by
    induction m with
    | nil => simp [jsonOKF, NumsOKF, depthF, jnormF, maxDepth]
    | cons kv m ih =>
      obtain ⟨k, v⟩ := kv
      obtain ⟨h1, h2⟩ := h (k, v) (by simp)
      obtain ⟨i1, i2, i3, i4⟩ := ih (fun x hx => h x (by simp [hx]))
      obtain ⟨w, hw⟩ := Option.isSome_iff_exists.mp h1.reads
      obtain ⟨n, hn⟩ := Option.isSome_iff_exists.mp i4
      simp only at h2 hw
      refine ⟨by simp [jsonOKF, h1.ok, i1], ⟨h1.nums, i2⟩, ?_, by simp [jnormF, hw, hn]⟩
      rw [depthF]; omega
  refine ⟨by simp [jsonOK, key.1], ?_, ?_, ?_⟩
  · rw [NumsOK]; exact key.2.1
  · rw [depth]; exact key.2.2.1
  · rw [jnorm, Option.isSome_map]; exact key.2.2.2

theorem mem_encFields {fs : Fields} {x : Bytes × Val} (h : x ∈ encFields fs) : (x.1, some x.2) ∈ fs := by
  have gen : ∀ (fs : Fields) (m : List (Bytes × Val)), x ∈ putFields m fs → (x.1, some x.2) ∈ fs ∨ x ∈ m := by
    intro fs
    induction fs with
    | nil => intro m h; exact .inr h
    | cons f fs ih =>
      intro m h
      obtain ⟨n, o⟩ := f
      unfold putFields at h
      rw [List.foldl_cons] at h
      rcases ih _ h with h | h
      · exact .inl (by simp [h])
      · cases o with
        | none => exact .inr h
        | some v =>
          rcases mem_mapSet h with rfl | h
          · exact .inl (by simp)
          · exact .inr h
  rcases gen fs [] h with h | h
  · exact h
  · simp at h

theorem fine_str (F : FloatCodec) (s : Bytes) : Fine F (.str s) ∧ depth (.str s) + 1 ≤ maxDepth :=
  ⟨⟨by simp [jsonOK], by simp [NumsOK], by simp [depth], by simp [jnorm]⟩, by simp [depth, maxDepth]⟩

theorem mapGet_encFields (fs : Fields) (hn : (fs.map (·.1)).Nodup) (k : Bytes) : mapGet (encFields fs) k = lookupF fs k := by
  rw [encFields, mapGet_putFields _ _ hn]; simp [mapGet]

/-- what a JSON reader sees of a field -/
def seen (F : FloatCodec) (fs : Fields) (n : Bytes) : Option Val := (lookupF fs n).bind (jnorm F)

theorem fields_compared (F : FloatCodec) (x y : Fields) (k : Kind) (hx : Fine F (.obj (encFields x))) (hy : Fine F (.obj (encFields y)))
    (nx : (x.map (·.1)).Nodup) (ny : (y.map (·.1)).Nodup) (vx : ∀ n ∈ x.map (·.1), ValidUtf8 n) (vy : ∀ n ∈ y.map (·.1), ValidUtf8 n) :
    ∃ ds a b, diffVals F (.obj (encFields x)) (.obj (encFields y)) k = .ok { diff := some ds, kind := k, a := a, b := b } ∧
      (ds.map Delta.name).Nodup ∧ ∀ n, n ∈ ds.map Delta.name ↔ ¬ Agree (seen F x n) (seen F y n) := by
  have hk : ∀ fs : Fields, (∀ n ∈ fs.map (·.1), ValidUtf8 n) → ∀ kv ∈ encFields fs, ValidUtf8 kv.1 := by
    intro fs h kv hkv
    exact h _ (List.mem_map.mpr ⟨_, mem_encFields hkv, rfl⟩)
  obtain ⟨ds, h1, h2, h3⟩ := C46_fields F _ _ k hx hy (keysSorted_putFields x (by simp [KeysSorted])) (keysSorted_putFields y (by simp [KeysSorted]))
    (hk x vx) (hk y vy)
  refine ⟨ds, _, _, h1, h2, fun n => ?_⟩
  rw [h3, mapGet_encFields x nx, mapGet_encFields y ny]; rfl

theorem validAscii {n : Bytes} (h : n.all (fun b => decide (b.toNat < 128)) = true) : ValidUtf8 n := by
  have := validUtf8_ascii (l := n) (s := []) (fun b hb => by simpa using List.all_eq_true.mp h b hb) .nil
  simpa using this

/-- C46: a structure is reported with exactly the fields that differ as JSON readers see them: strings with invalid UTF-8 replaced,
numbers as float64; a missing structure counts as an empty one.  The path counts like any other field. -/
theorem C46_structure (F : FloatCodec) (a b : Structure) (ha : Fine F a.encObj) (hb : Fine F b.encObj) :
    ∃ ds x y, diffStructure F (some a) (some b) = .ok { diff := some ds, kind := .structure_, a := x, b := y } ∧
      (ds.map Delta.name).Nodup ∧ ∀ n, n ∈ ds.map Delta.name ↔ ¬ Agree (seen F a.fields n) (seen F b.fields n) := by
  have hn : ∀ s : Structure, (s.fields.map (·.1)) = (({} : Structure).fields.map (·.1)) := fun _ => rfl
  refine fields_compared F a.fields b.fields .structure_ ha hb (by rw [hn]; decide +kernel) (by rw [hn]; decide +kernel) ?_ ?_
  all_goals
    rw [hn]
    intro n hm
    apply validAscii
    revert n
    decide +kernel

theorem C46_missing_is_empty (F : FloatCodec) (b : Option Structure) (t : Option Transform) (m : Option Meta) (v : Option Viz) :
    diffStructure F none b = diffStructure F (some {}) b ∧ diffTransform F none t = diffTransform F (some {}) t ∧
      diffMeta F none m = diffMeta F (some {}) m ∧ diffViz F none v = diffViz F (some {}) v := ⟨rfl, rfl, rfl, rfl⟩

/-- the right transform as it is compared -/
def aligned (a b : Transform) : Transform := if a.scriptPath ≠ [] ∧ b.scriptPath ≠ [] then { b with scriptPath := a.scriptPath } else b

theorem samePath_false {a b : Bytes} (h : a ≠ b ∨ a.length ≤ 1) : samePath a b = false := by
  unfold samePath
  rcases h with h | h
  · simp [h]
  · simp [show ¬ 1 < a.length by omega]

/-- C46: likewise transforms, but for script paths present on both sides; … -/
theorem C46_transform (F : FloatCodec) (a b : Transform) (ha : Fine F a.encObj) (hb : Fine F (aligned a b).encObj) (hp : a.path ≠ b.path ∨ a.path.length ≤ 1) :
    ∃ ds x y, diffTransform F (some a) (some b) = .ok { diff := some ds, kind := .transform, a := x, b := y } ∧
      (ds.map Delta.name).Nodup ∧ (∀ n, n ∈ ds.map Delta.name ↔ ¬ Agree (seen F a.fields n) (seen F (aligned a b).fields n)) ∧
      (a.scriptPath ≠ [] → b.scriptPath ≠ [] → b!"scriptPath" ∉ ds.map Delta.name) := by
  have hn : ∀ s : Transform, (s.fields.map (·.1)) = (({} : Transform).fields.map (·.1)) := fun _ => rfl
  have hd : diffTransform F (some a) (some b) = diffVals F a.encObj (aligned a b).encObj .transform := by
    have e : (aligned a b).path = b.path := by unfold aligned; split <;> rfl
    have : samePath a.path (aligned a b).path = false := by rw [e]; exact samePath_false hp
    show (if samePath a.path (aligned a b).path = true then _ else _) = _
    rw [this]; rfl
  obtain ⟨ds, x, y, h1, h2, h3⟩ := fields_compared F a.fields (aligned a b).fields .transform ha hb (by rw [hn]; decide +kernel) (by rw [hn]; decide +kernel)
    (by rw [hn]; intro n hm; apply validAscii; revert n; decide +kernel) (by rw [hn]; intro n hm; apply validAscii; revert n; decide +kernel)
  refine ⟨ds, x, y, by rw [hd]; exact h1, h2, h3, fun p q => ?_⟩
  rw [h3]
  have : (aligned a b).scriptPath = a.scriptPath := by unfold aligned; rw [if_pos ⟨p, q⟩]
  have e : seen F a.fields b!"scriptPath" = seen F (aligned a b).fields b!"scriptPath" := by
    show (omitStr a.scriptPath).bind _ = (omitStr (aligned a b).scriptPath).bind _
    rw [this]
  rw [e]
  simp [Agree]

/-- … which never matter when present on both sides, … -/
theorem C46_script_path_incidental (F : FloatCodec) (a b : Transform) (p q q' : Bytes) (hp : p ≠ []) (hq : q ≠ []) (hq' : q' ≠ []) :
    diffTransform F (some { a with scriptPath := p }) (some { b with scriptPath := q }) =
      diffTransform F (some { a with scriptPath := p }) (some { b with scriptPath := q' }) := by
  simp [diffTransform, hp, hq, hq']

/-- … and equal paths of at least two characters hide every difference, in transforms, metadata and visualisations. -/
theorem C46_same_path_hides (F : FloatCodec) (a b : Transform) (m n : Meta) (v w : Viz) (p : Bytes) (hp : 1 < p.length) :
    diffTransform F (some { a with path := p }) (some { b with path := p }) = .ok { kind := .transform } ∧
    diffMeta F (some { m with path := p }) (some { n with path := p }) = .ok { kind := .meta_ } ∧
    diffViz F (some { v with path := p }) (some { w with path := p }) = .ok { kind := .viz } := by
  have hs : samePath p p = true := by simp [samePath, hp]
  refine ⟨?_, ?_, ?_⟩
  · unfold diffTransform
    simp only [Option.getD_some]
    split <;> simp
  · simp [diffMeta, hs]
  · simp [diffViz, hs]

/-- C46: metadata with different paths: the standard fields, and the arbitrary ones not hidden by a standard one. -/
theorem C46_meta (F : FloatCodec) (a b : Meta) (ha : Fine F a.encObj) (hb : Fine F b.encObj) (sa : KeysSorted (a.arbitrary.getD []))
    (sb : KeysSorted (b.arbitrary.getD [])) (va : ∀ kv ∈ a.arbitrary.getD [], ValidUtf8 kv.1) (vb : ∀ kv ∈ b.arbitrary.getD [], ValidUtf8 kv.1)
    (hp : a.path ≠ b.path ∨ a.path.length ≤ 1) (he : a.isEmpty = false ∨ b.isEmpty = false) :
    ∃ ds x y, diffMeta F (some a) (some b) = .ok { diff := some ds, kind := .meta_, a := x, b := y } ∧
      (ds.map Delta.name).Nodup ∧
      ∀ n, n ∈ ds.map Delta.name ↔ ¬ Agree (((lookupF a.fields n).or (mapGet (a.arbitrary.getD []) n)).bind (jnorm F))
        (((lookupF b.fields n).or (mapGet (b.arbitrary.getD []) n)).bind (jnorm F)) := by
  have hn : ∀ s : Meta, (s.fields.map (·.1)) = (({} : Meta).fields.map (·.1)) := fun _ => rfl
  have hd : diffMeta F (some a) (some b) = diffVals F a.encObj b.encObj .meta_ := by
    have : ¬ (¬ (1 < a.path.length ∧ 1 < b.path.length) ∧ a.isEmpty = true ∧ b.isEmpty = true) := by
      rintro ⟨_, h1, h2⟩
      rcases he with h | h
      · rw [h] at h1; simp at h1
      · rw [h] at h2; simp at h2
    unfold diffMeta
    simp only [Option.getD_some]
    rw [samePath_false hp, if_neg (by simp), if_neg this]
  have hv : ∀ m : Meta, (∀ kv ∈ m.arbitrary.getD [], ValidUtf8 kv.1) → ∀ kv ∈ putFields (m.arbitrary.getD []) m.fields, ValidUtf8 kv.1 := by
    intro m h kv hkv
    rcases mem_putFields hkv with h1 | h1
    · rw [hn] at h1
      apply validAscii
      revert h1
      generalize kv.1 = n
      revert n
      decide +kernel
    · exact h kv h1
  obtain ⟨ds, h1, h2, h3⟩ := C46_fields F _ _ .meta_ ha hb (keysSorted_putFields a.fields sa) (keysSorted_putFields b.fields sb) (hv a va) (hv b vb)
  refine ⟨ds, _, _, by rw [hd]; exact h1, h2, fun n => ?_⟩
  rw [h3, mapGet_putFields _ _ (by rw [hn]; decide +kernel), mapGet_putFields _ _ (by rw [hn]; decide +kernel)]

theorem utf8Enc_ne_nil (c : Nat) : utf8Enc c ≠ [] := by
  unfold utf8Enc
  repeat' split
  all_goals simp

theorem toValid_eq_nil (s : Bytes) : toValidUtf8 0 s = [] ↔ s = [] := by
  cases s with
  | nil => simp [toValidUtf8]
  | cons b t => simp [toValidUtf8, utf8Enc_ne_nil]

theorem agree_str (F : FloatCodec) (s t : Bytes) : Agree ((omitStr s).bind (jnorm F)) ((omitStr t).bind (jnorm F)) ↔ toValidUtf8 0 s = toValidUtf8 0 t := by
  unfold omitStr Agree
  by_cases hs : s = [] <;> by_cases ht : t = []
  · simp [hs, ht]
  · subst hs
    have := (not_congr (toValid_eq_nil t)).mpr ht
    simp [ht, jnorm, unsign, toValidUtf8, Ne.symm this]
  · subst ht
    have := (not_congr (toValid_eq_nil s)).mpr hs
    simp [hs, jnorm, unsign, toValidUtf8, this]
  · simp [hs, ht, jnorm, unsign]

/-- C46: visualisations with different paths: exactly the fields whose texts differ (invalid UTF-8 replaced); the path is not
compared, the kind is, so a missing one differs from an empty one with its kind set. -/
theorem C46_viz (F : FloatCodec) (a b : Viz) (hp : a.path ≠ b.path ∨ a.path.length ≤ 1) :
    ∃ ds x y, diffViz F (some a) (some b) = .ok { diff := some ds, kind := .viz, a := x, b := y } ∧ (ds.map Delta.name).Nodup ∧
      (b!"qri" ∈ ds.map Delta.name ↔ toValidUtf8 0 a.qri ≠ toValidUtf8 0 b.qri) ∧
      (b!"format" ∈ ds.map Delta.name ↔ toValidUtf8 0 a.format ≠ toValidUtf8 0 b.format) ∧
      (b!"text" ∈ ds.map Delta.name ↔ toValidUtf8 0 a.text ≠ toValidUtf8 0 b.text) ∧
      (b!"scriptPath" ∈ ds.map Delta.name ↔ toValidUtf8 0 a.scriptPath ≠ toValidUtf8 0 b.scriptPath) ∧
      (b!"renderedPath" ∈ ds.map Delta.name ↔ toValidUtf8 0 a.renderedPath ≠ toValidUtf8 0 b.renderedPath) ∧
      ∀ n ∈ ds.map Delta.name, n ∈ [b!"qri", b!"format", b!"text", b!"scriptPath", b!"renderedPath"] := by
  have hn : ∀ s : Viz, (s.fields.map (·.1)) = [b!"qri", b!"format", b!"text", b!"scriptPath", b!"renderedPath"] := fun _ => rfl
  have hd : diffViz F (some a) (some b) = diffVals F a.encObj b.encObj .viz := by
    unfold diffViz
    simp only [Option.getD_some]
    rw [samePath_false hp, if_neg (by simp)]
  have hf : ∀ v : Viz, Fine F (.obj (encFields v.fields)) := by
    intro v
    apply fine_obj
    intro kv hkv
    have := mem_encFields hkv
    have hstr : ∃ s, kv.2 = .str s := by
      simp only [Viz.fields, List.mem_cons, Prod.mk.injEq, List.not_mem_nil, or_false] at this
      rcases this with ⟨_, h⟩ | ⟨_, h⟩ | ⟨_, h⟩ | ⟨_, h⟩ | ⟨_, h⟩
      · exact ⟨_, by simpa using h⟩
      all_goals
        unfold omitStr at h
        split at h
        · simp at h
        · exact ⟨_, by simpa using h⟩
    obtain ⟨s, hs⟩ := hstr
    rw [hs]; exact fine_str F s
  have hva : ∀ v : Viz, ∀ n ∈ v.fields.map (·.1), ValidUtf8 n := by
    intro v; rw [hn]; intro n hm; apply validAscii; revert n; decide +kernel
  obtain ⟨ds, x, y, h1, h2, h3⟩ := fields_compared F a.fields b.fields .viz (hf a) (hf b) (by rw [hn]; decide +kernel) (by rw [hn]; decide +kernel) (hva a) (hva b)
  refine ⟨ds, x, y, by rw [hd]; exact h1, h2, ?_, ?_, ?_, ?_, ?_, fun n hm => ?_⟩
  · rw [h3]
    show ¬ Agree (some (Val.str (toValidUtf8 0 a.qri))) (some (Val.str (toValidUtf8 0 b.qri))) ↔ _
    simp [Agree, unsign]
  · rw [h3]; exact not_congr (agree_str F a.format b.format)
  · rw [h3]; exact not_congr (agree_str F a.text b.text)
  · rw [h3]; exact not_congr (agree_str F a.scriptPath b.scriptPath)
  · rw [h3]; exact not_congr (agree_str F a.renderedPath b.renderedPath)
  · have h4 := (h3 n).mp hm
    by_cases hin : n ∈ [b!"qri", b!"format", b!"text", b!"scriptPath", b!"renderedPath"]
    · exact hin
    · exfalso
      apply h4
      have hnone : ∀ v : Viz, lookupF v.fields n = none := by
        intro v
        unfold lookupF
        rw [List.find?_eq_none.mpr]
        · rfl
        · intro f hf' e
          exact hin (by rw [← hn v]; exact List.mem_map.mpr ⟨f, hf', by simpa using e⟩)
      simp [seen, hnone, Agree]

/-- numbers are compared as float64: structures whose lengths round alike are not told apart -/
theorem C46_rounded_length (F : FloatCodec) (s : Structure) (i j : Int) (hi : i ≠ 0) (hj : j ≠ 0) (h : F.parse (fmtInt i) = F.parse (fmtInt j))
    (h1 : Fine F { s with length := i : Structure }.encObj) (h2 : Fine F { s with length := j : Structure }.encObj) :
    ∃ x y, diffStructure F (some { s with length := i }) (some { s with length := j }) = .ok { diff := some [], kind := .structure_, a := x, b := y } := by
  obtain ⟨ds, x, y, e, _, hn⟩ := C46_structure F _ _ h1 h2
  cases ds with
  | nil => exact ⟨x, y, e⟩
  | cons d ds =>
    exfalso
    refine (hn d.name).mp (by simp) ?_
    by_cases hl : d.name = b!"length"
    · rw [hl]
      show Agree ((omitInt i).bind (jnorm F)) ((omitInt j).bind (jnorm F))
      simp [omitInt, hi, hj, jnorm, h, Agree]
    · have : lookupF { s with length := i : Structure }.fields d.name = lookupF { s with length := j : Structure }.fields d.name := by
        have hl' : ¬ (b!"length" = d.name) := Ne.symm hl
        simp only [Structure.fields, lookupF, List.find?_cons, hl']
        rfl
      simp [seen, this, Agree]

/-! ## Datasets -/

/-- body data without dereferenced bodies is never reported -/
theorem diffData_eq (a b : Dataset) : diffData a b = .ok { kind := .data } := by
  unfold diffData; split <;> rfl

theorem part_ok {present : Bool} {d : Except Err SubDiff} {m m' : Result} (h : part present d m = .ok m') :
    (present = false ∧ m' = m) ∨ (present = true ∧ ∃ x, d = .ok x ∧ ((x.diff = none ∧ m' = m) ∨ (x.diff ≠ none ∧ m' = m ++ [x]))) := by
  unfold part at h
  cases present with
  | false => simp at h; exact .inl ⟨rfl, h.symm⟩
  | true =>
    refine .inr ⟨rfl, ?_⟩
    cases d with
    | error e => simp at h
    | ok x =>
      simp only [if_pos, Except.ok.injEq] at h
      refine ⟨x, rfl, ?_⟩
      cases hx : x.diff with
      | none => simp [hx] at h; exact .inl ⟨rfl, h.symm⟩
      | some ds => simp [hx] at h; exact .inr ⟨by simp, h.symm⟩

/-- the diff of one component, if it is stored -/
def Stored (present : Bool) (d : Except Err SubDiff) (m : Result) : Prop :=
  (present = false ∧ m = []) ∨ (present = true ∧ ∃ x, d = .ok x ∧ ((x.diff = none ∧ m = []) ∨ (x.diff ≠ none ∧ m = [x])))

theorem part_stored {present : Bool} {d : Except Err SubDiff} {m m' : Result} (h : part present d m = .ok m') :
    ∃ n, m' = m ++ n ∧ Stored present d n := by
  rcases part_ok h with ⟨h1, h2⟩ | ⟨h1, x, hx, ⟨h2, h3⟩ | ⟨h2, h3⟩⟩
  · exact ⟨[], by simp [h2], .inl ⟨h1, rfl⟩⟩
  · exact ⟨[], by simp [h3], .inr ⟨h1, x, hx, .inl ⟨h2, rfl⟩⟩⟩
  · exact ⟨[x], h3, .inr ⟨h1, x, hx, .inr ⟨h2, rfl⟩⟩⟩

/-- C46: what a dataset diff holds: for structure, metadata, transform and visualisation the comparison of the two components, if one
of them is present and they were compared at all – also when nothing differs; for data the comparison of the dereferenced
bodies, if given.  Nothing else is looked at: not the bodies, commits, readmes or stats. -/
theorem C46_dataset (F : FloatCodec) (a b : Dataset) (data : Option (Bytes × Bytes)) (m : Result) (h : diffDatasets F a b data = .ok m) :
    ∃ s d t n v, m = s ++ d ++ n ++ t ++ v ∧
      Stored (a.structure_.isSome || b.structure_.isSome) (diffStructure F a.structure_ b.structure_) s ∧
      (data = none → d = []) ∧ (∀ x y, data = some (x, y) → ∃ z, diffJSON F x y .data = .ok z ∧ d = [z]) ∧
      Stored (a.transform.isSome || b.transform.isSome) (diffTransform F a.transform b.transform) t ∧
      Stored (a.meta_.isSome || b.meta_.isSome) (diffMeta F a.meta_ b.meta_) n ∧
      Stored (a.viz.isSome || b.viz.isSome) (diffViz F a.viz b.viz) v := by
  unfold diffDatasets at h
  simp only [bind, Except.bind] at h
  split at h
  · simp at h
  rename_i m1 h1
  split at h
  · simp at h
  rename_i m2 h2
  split at h
  · simp at h
  rename_i m3 h3
  split at h
  · simp at h
  rename_i m4 h4
  obtain ⟨s, e1, s1⟩ := part_stored h1
  obtain ⟨d, e2, s2⟩ := part_stored h2
  obtain ⟨n, e3, s3⟩ := part_stored h3
  obtain ⟨t, e4, s4⟩ := part_stored h4
  obtain ⟨v, e5, s5⟩ := part_stored h
  refine ⟨s, d, t, n, v, by rw [e5, e4, e3, e2, e1]; simp, s1, ?_, ?_, s4, s3, s5⟩
  · rintro rfl
    simp only [diffData_eq] at s2
    rcases s2 with ⟨h, _⟩ | ⟨_, x, hx, ⟨_, h⟩ | ⟨h, _⟩⟩
    · simp at h
    · exact h
    · simp only [Except.ok.injEq] at hx; subst hx; simp at h
  · rintro x y rfl
    rcases s2 with ⟨h, _⟩ | ⟨_, z, hz, ⟨h, _⟩ | ⟨_, h⟩⟩
    · simp at h
    · simp only at hz
      obtain ⟨_, _, ds, _, _, rfl, _⟩ := (C46_json F x y .data).2 z hz
      simp at h
    · exact ⟨z, hz, h⟩

/-- in particular a dataset whose bodies differ is reported as unchanged -/
theorem C46_body_not_compared (F : FloatCodec) (a b : Dataset) (hs : a.structure_ = b.structure_) (hm : a.meta_ = b.meta_)
    (ht : a.transform = b.transform) (hv : a.viz = b.viz) (m : Result) (h : diffDatasets F a b none = .ok m) : ∀ d ∈ m, d.deltas = [] := by
  obtain ⟨s, d, t, n, v, rfl, h1, h2, _, h4, h5, h6⟩ := C46_dataset F a b none m h
  have key : ∀ {p : Bool} {e : Except Err SubDiff} {m : Result}, Stored p e m → (∀ x, e = .ok x → x.diff = none ∨ x.diff = some []) → ∀ d ∈ m, d.deltas = [] := by
    intro p e m hst hx d hd
    rcases hst with ⟨_, rfl⟩ | ⟨_, x, he, ⟨_, rfl⟩ | ⟨_, rfl⟩⟩
    · simp at hd
    · simp at hd
    · simp only [List.mem_singleton] at hd
      subst hd
      rcases hx d he with h | h <;> simp [SubDiff.deltas, h]
  intro x hx
  simp only [List.mem_append] at hx
  rcases hx with (((hx | hx) | hx) | hx) | hx
  · refine key h1 (fun y hy => .inr ?_) x hx
    rw [hs] at hy
    exact diffVals_self F _ _ y hy
  · rw [h2 rfl] at hx; simp at hx
  · refine key h5 (fun y hy => ?_) x hx
    rw [hm] at hy
    unfold diffMeta at hy
    simp only at hy
    split at hy
    · simp only [Except.ok.injEq] at hy; subst hy; exact .inl rfl
    · split at hy
      · simp only [Except.ok.injEq] at hy; subst hy; exact .inl rfl
      · exact .inr (diffVals_self F _ _ y hy)
  · refine key h4 (fun y hy => ?_) x hx
    rw [ht] at hy
    unfold diffTransform at hy
    simp only at hy
    have : (if (b.transform.getD {}).scriptPath ≠ [] ∧ (b.transform.getD {}).scriptPath ≠ [] then
        { b.transform.getD {} with scriptPath := (b.transform.getD {}).scriptPath } else b.transform.getD {}) = b.transform.getD {} := by
      split <;> rfl
    rw [this] at hy
    split at hy
    · simp only [Except.ok.injEq] at hy; subst hy; exact .inl rfl
    · exact .inr (diffVals_self F _ _ y hy)
  · refine key h6 (fun y hy => ?_) x hx
    rw [hv] at hy
    unfold diffViz at hy
    simp only at hy
    split at hy
    · simp only [Except.ok.injEq] at hy; subst hy; exact .inl rfl
    · exact .inr (diffVals_self F _ _ y hy)

/-! ## Summaries -/

theorem kinds_eq {p : Bool} {e : Except Err SubDiff} {m : Result} {k : Kind} (h : Stored p e m) (hk : ∀ x, e = .ok x → x.kind = k) :
    ∀ d ∈ m, d.kind = k := by
  rintro d hd
  rcases h with ⟨_, rfl⟩ | ⟨_, x, he, ⟨_, rfl⟩ | ⟨_, rfl⟩⟩
  · simp at hd
  · simp at hd
  · simp at hd; subst hd; exact hk _ he

theorem find_kind {m : Result} (hn : (m.map (·.kind)).Nodup) {d : SubDiff} (hd : d ∈ m) : m.find? (fun e => decide (e.kind = d.kind)) = some d := by
  induction m with
  | nil => simp at hd
  | cons e m ih =>
    simp only [List.map_cons, List.nodup_cons] at hn
    rcases List.mem_cons.mp hd with rfl | hd
    · simp
    · have : e.kind ≠ d.kind := fun h => hn.1 (by rw [h]; exact List.mem_map_of_mem hd)
      rw [List.find?_cons]; simp only [this, decide_false]
      exact ih hn.2 hd

theorem mapDiffs_skip (F : FloatCodec) (L : Lib) (how : Bytes) (m : Result) (ks rest : List Kind)
    (h : ∀ e ∈ m, e.kind ∈ ks → summarize F L how e = some []) : mapDiffs F L how m (ks ++ rest) = mapDiffs F L how m rest := by
  induction ks with
  | nil => rfl
  | cons k ks ih =>
    have hk := ih (fun e he hm => h e he (by simp [hm]))
    rw [List.cons_append, mapDiffs]
    cases e : m.find? (fun d => decide (d.kind = k)) with
    | none => exact hk
    | some d =>
      have h1 := List.mem_of_find?_eq_some e
      have h2 : d.kind = k := by simpa using List.find?_some e
      simp only [h d h1 (by simp [h2])]
      simpa using hk

/-- position in the fixed order -/
def rank : Kind → Nat
  | .structure_ => 0 | .data => 1 | .transform => 2 | .meta_ => 3 | .viz => 4

/-- C46: a summary, in any style, is that of the first kind in the order structure, data, transform, meta, viz that has one. -/
theorem C46_summary (F : FloatCodec) (L : Lib) (how : Bytes) (m : Result) (hn : (m.map (·.kind)).Nodup) :
    ((∀ e ∈ m, summarize F L how e = some []) → mapDiffsToString F L m how = some []) ∧
    ∀ d ∈ m, summarize F L how d ≠ some [] → (∀ e ∈ m, rank e.kind < rank d.kind → summarize F L how e = some []) →
      mapDiffsToString F L m how = summarize F L how d := by
  constructor
  · intro h
    have := mapDiffs_skip F L how m order [] (fun e he _ => h e he)
    rw [List.append_nil] at this
    unfold mapDiffsToString
    rw [this]; rfl
  · intro d hd hne hlt
    have hsplit : ∃ pre post, order = pre ++ d.kind :: post ∧ ∀ k ∈ pre, rank k < rank d.kind := by
      cases d.kind with
      | structure_ => exact ⟨[], [.data, .transform, .meta_, .viz], rfl, by decide⟩
      | data => exact ⟨[.structure_], [.transform, .meta_, .viz], rfl, by decide⟩
      | transform => exact ⟨[.structure_, .data], [.meta_, .viz], rfl, by decide⟩
      | meta_ => exact ⟨[.structure_, .data, .transform], [.viz], rfl, by decide⟩
      | viz => exact ⟨[.structure_, .data, .transform, .meta_], [], rfl, by decide⟩
    obtain ⟨pre, post, ho, hpre⟩ := hsplit
    unfold mapDiffsToString
    rw [ho, mapDiffs_skip F L how m pre _ (fun e he hk => hlt e he (hpre _ hk)), mapDiffs, find_kind hn hd]
    simp only
    cases e : summarize F L how d with
    | none => rfl
    | some s =>
      have : s ≠ [] := by rintro rfl; exact hne e
      simp [this]

/-- the kinds of a dataset diff are different -/
theorem C46_kinds (F : FloatCodec) (a b : Dataset) (data : Option (Bytes × Bytes)) (m : Result) (h : diffDatasets F a b data = .ok m) :
    (m.map (·.kind)).Nodup ∧ ∀ d ∈ m, d.diff ≠ none := by
  obtain ⟨s, d, t, n, v, rfl, h1, h2, h3, h4, h5, h6⟩ := C46_dataset F a b data m h
  have hv : ∀ x y k z, diffVals F x y k = .ok z → z.kind = k := by
    intro x y k z hz
    unfold diffVals at hz
    split at hz
    · obtain ⟨_, _, _, _, _, rfl, _⟩ := (C46_json F _ _ k).2 z hz; rfl
    · simp at hz
  have one : ∀ {p : Bool} {e : Except Err SubDiff} {m : Result} (k : Kind), Stored p e m → (∀ x, e = .ok x → x.kind = k) →
      (m = [] ∨ ∃ x, m = [x] ∧ x.kind = k ∧ x.diff ≠ none) := by
    intro p e m k hst hk
    rcases hst with ⟨_, rfl⟩ | ⟨_, x, he, ⟨_, rfl⟩ | ⟨h, rfl⟩⟩
    · exact .inl rfl
    · exact .inl rfl
    · exact .inr ⟨x, rfl, hk x he, h⟩
  have k1 := one .structure_ h1 (fun x hx => hv _ _ _ _ hx)
  have k4 := one .transform h4 (fun x hx => by
    unfold diffTransform at hx
    simp only at hx
    split at hx <;> split at hx
    all_goals first
      | exact hv _ _ _ _ hx
      | (simp only [Except.ok.injEq] at hx; subst hx; rfl))
  have k5 := one .meta_ h5 (fun x hx => by
    unfold diffMeta at hx
    simp only at hx
    split at hx
    · simp only [Except.ok.injEq] at hx; subst hx; rfl
    · split at hx
      · simp only [Except.ok.injEq] at hx; subst hx; rfl
      · exact hv _ _ _ _ hx)
  have k6 := one .viz h6 (fun x hx => by
    unfold diffViz at hx
    simp only at hx
    split at hx
    · simp only [Except.ok.injEq] at hx; subst hx; rfl
    · exact hv _ _ _ _ hx)
  have k2 : d = [] ∨ ∃ x, d = [x] ∧ x.kind = .data ∧ x.diff ≠ none := by
    cases data with
    | none => exact .inl (h2 rfl)
    | some p =>
      obtain ⟨z, hz, hd⟩ := h3 p.1 p.2 rfl
      obtain ⟨_, _, _, _, _, rfl, _⟩ := (C46_json F _ _ .data).2 z hz
      exact .inr ⟨_, hd, rfl, by simp⟩
  clear h1 h2 h3 h4 h5 h6 h
  rcases k1 with rfl | ⟨x1, rfl, e1, d1⟩ <;> rcases k2 with rfl | ⟨x2, rfl, e2, d2⟩ <;> rcases k4 with rfl | ⟨x4, rfl, e4, d4⟩ <;>
    rcases k5 with rfl | ⟨x5, rfl, e5, d5⟩ <;> rcases k6 with rfl | ⟨x6, rfl, e6, d6⟩ <;> simp_all

/-- C46: the one line summary of a dataset diff is empty exactly if nothing differs; otherwise it names the first kind with
differences and their number. -/
theorem C46_simple (F : FloatCodec) (L : Lib) (m : Result) (hn : (m.map (·.kind)).Nodup) :
    (mapDiffsToString F L m b!"simple" = some [] ↔ ∀ d ∈ m, d.deltas = []) ∧
    ∀ d ∈ m, d.deltas ≠ [] → (∀ e ∈ m, rank e.kind < rank d.kind → e.deltas = []) →
      mapDiffsToString F L m b!"simple" = some (d.kind.title ++ b!" Changed. (" ++ fmtNat d.deltas.length ++ b!" change" ++
        (if d.deltas.length = 1 then [] else b!"s") ++ b!")") := by
  have h0 : ∀ e : SubDiff, e.deltas = [] → summarize F L b!"simple" e = some [] := by intro e he; simp [summarize, he]
  have h1 : ∀ e : SubDiff, e.deltas ≠ [] → summarize F L b!"simple" e = some (e.kind.title ++ b!" Changed. (" ++ fmtNat e.deltas.length ++ b!" change" ++
        (if e.deltas.length = 1 then [] else b!"s") ++ b!")") := by
    intro e he
    have hl : 0 < e.deltas.length := List.length_pos_iff.mpr he
    unfold summarize
    simp only [if_neg he, if_pos]
    by_cases h2 : e.deltas.length = 1
    · simp [h2]
    · have : 1 < e.deltas.length := by omega
      simp [h2, this]
  have h2 : ∀ e : SubDiff, e.deltas ≠ [] → summarize F L b!"simple" e ≠ some [] := by
    intro e he
    rw [h1 e he]
    simp
  have hs := C46_summary F L b!"simple" m hn
  have main : ∀ d ∈ m, d.deltas ≠ [] → (∀ e ∈ m, rank e.kind < rank d.kind → e.deltas = []) →
      mapDiffsToString F L m b!"simple" = summarize F L b!"simple" d :=
    fun d hd hne hlt => hs.2 d hd (h2 d hne) (fun e he hr => h0 e (hlt e he hr))
  refine ⟨⟨fun h => ?_, fun h => hs.1 (fun e he => h0 e (h e he))⟩, fun d hd hne hlt => by rw [main d hd hne hlt, h1 d hne]⟩
  -- some kind of least rank has differences, unless none has
  have least : ∀ n, ∀ d ∈ m, rank d.kind ≤ n → d.deltas = [] := by
    intro n
    induction n with
    | zero =>
      intro d hd hr
      apply Classical.byContradiction
      intro hne
      have := main d hd hne (fun e he hl => by omega)
      rw [h] at this
      exact h2 d hne this.symm
    | succ n ih =>
      intro d hd hr
      apply Classical.byContradiction
      intro hne
      have := main d hd hne (fun e he hl => ih e he (by omega))
      rw [h] at this
      exact h2 d hne this.symm
  exact fun d hd => least (rank d.kind) d hd (Nat.le_refl _)

/-- C46: other texts: styles that are not known print nothing, the others nothing without differences; names start with a capital. -/
theorem C46_texts (F : FloatCodec) (L : Lib) (how : Bytes) (d : SubDiff) :
    (d.deltas = [] → summarize F L how d = some []) ∧
    (how ∉ [b!"simple", b!"listKeys", b!"plusMinusColor", b!"plusMinus", b!"delta"] → summarize F L how d = some []) ∧
    (d.deltas ≠ [] → summarize F L b!"listKeys" d = some (d.kind.title ++ b!": " ++ fmtNat d.deltas.length ++ b!" change" ++
        (if d.deltas.length = 1 then [] else b!"s") ++ d.deltas.flatMap fun x => b!"\n\t- modified " ++ L.showDelta x)) ∧
    (d.deltas ≠ [] → summarize F L b!"delta" d = L.delta d.deltas) ∧
    ∃ c t, d.kind.name = c :: t ∧ d.kind.title = (c - 32) :: t := by
  refine ⟨fun h => by simp [summarize, h], fun h => ?_, fun h => ?_, fun h => ?_, ?_⟩
  · simp only [List.mem_cons, List.not_mem_nil, or_false, not_or] at h
    unfold summarize
    dsimp only
    split
    · rfl
    · rw [if_neg h.1, if_neg h.2.1, if_neg (by simp [h.2.2.1, h.2.2.2.1]), if_neg h.2.2.2.2]
  · have hl : 0 < d.deltas.length := List.length_pos_iff.mpr h
    unfold summarize
    dsimp only
    rw [if_neg h, if_neg (by decide), if_pos rfl]
    by_cases h2 : d.deltas.length = 1
    · simp [h2]
    · rw [if_pos (by omega), if_neg h2]
  · unfold summarize
    dsimp only
    rw [if_neg h, if_neg (by decide), if_neg (by decide), if_neg (by decide), if_pos rfl]
  · cases d.kind <;> exact ⟨_, _, rfl, by decide⟩

/-! ## Examples -/

def exL : Lib := { showDelta := Delta.name, ascii := fun _ _ _ => none, delta := fun _ => some b!"{}" }

/-- 0.5 and small integers -/
def exF : FloatCodec where
  fmt x := if x = 0x3FE0000000000000 then b!"0.5" else b!"1"
  parse s := if s = b!"0.5" then some 0x3FE0000000000000 else some (UInt64.ofNat s.length)

def exA : Dataset := { structure_ := some { format := b!"csv", path := b!"/a" }, meta_ := some { path := b!"/m", title := b!"one" }, viz := some { text := b!"x" }, bodyPath := b!"/1" }
def exB : Dataset := { structure_ := some { format := b!"csv", path := b!"/b" }, meta_ := some { path := b!"/m", title := b!"two" }, viz := some { text := b!"x" }, bodyPath := b!"/2" }

/-- equal structures at different paths are a change; different titles at the same path are none -/
example : ((diffDatasets exF exA exB none).toOption.map fun m => m.map fun d => (d.kind, d.deltas.map Delta.name)) =
      some [(.structure_, [b!"path"]), (.viz, [])] ∧
    ((diffDatasets exF exA exB none).toOption.bind fun m => mapDiffsToString exF exL m b!"simple") = some b!"Structure Changed. (1 change)" := by
  decide +kernel

/-- a missing visualisation and an empty one with its kind set -/
example : ((diffDatasets exF {} { viz := some { qri := b!"vz:0" } } none).toOption.bind fun m => mapDiffsToString exF exL m b!"listKeys") =
    some b!"Viz: 1 change\n\t- modified qri" := by decide +kernel

example : diffDatasets exF {} {} (some (b!"[1]", b!"[1]")) = .error (.comparing .data) := by decide +kernel

example : ((diffDatasets exF {} {} (some (b!"{\"a\":1,\"b\":[0.5]}", b!"{\"b\":[0.5],\"c\":null}"))).toOption.bind fun m => mapDiffsToString exF exL m b!"simple") =
    some b!"Data Changed. (2 changes)" := by decide +kernel

example : ((diffTransform exF (some { scriptPath := b!"/x", text := b!"t" }) (some { scriptPath := b!"/y", text := b!"t" })).toOption.map (·.deltas)) = some [] := by
  decide +kernel

end Verif.Diff
